import Verif.Lemmas.Bridge
import Verif.Spec.Cloud

/-!
# Concrete clouds that meet the hypotheses of the cloud theorems
-/

namespace Cloudini.Props

/-! ## Concrete clouds used as witnesses -/

/-- A mixed cloud description: x, y, z quantised together, a copied float, an adaptive 16-bit integer, a bit-packed double and
an adaptive 64-bit integer; two bytes of padding. -/
def mixInfo : EncodingInfo :=
  { fields := [{ name := [0x78#8], offset := 0#32, type := .float32, resolution := some 0x3a83126f#32 },
               { name := [0x79#8], offset := 4#32, type := .float32, resolution := some 0x3a83126f#32 },
               { name := [0x7a#8], offset := 8#32, type := .float32, resolution := some 0x3a83126f#32 },
               { name := [0x69#8], offset := 12#32, type := .float32 },
               { name := [0x72#8], offset := 16#32, type := .uint16 },
               { name := [0x74#8], offset := 20#32, type := .float64 },
               { name := [0x73#8], offset := 28#32, type := .uint64 }],
    width := 3#32, height := 1#32, point_step := 36#32, encoding_opt := .lossy, compression_opt := .none, version := 5#8 }

/-- Three points of it; the second has a NaN coordinate. -/
def mixCloud : List Byte :=
  toLE 4 1000 ++ toLE 4 2000 ++ toLE 4 3000 ++ toLE 4 0x41200000 ++ toLE 2 7 ++ [0xAA#8, 0xBB#8] ++ toLE 8 0x3ff0000000000000 ++ toLE 8 1700000000000 ++
  (toLE 4 1001 ++ toLE 4 0x7fc00001 ++ toLE 4 17 ++ toLE 4 0x41300000 ++ toLE 2 65535 ++ [0xAA#8, 0xBB#8] ++ toLE 8 0x3ff0000000000001 ++ toLE 8 1700000000100) ++
  (toLE 4 999 ++ toLE 4 2001 ++ toLE 4 0 ++ toLE 4 0x7f800001 ++ toLE 2 7 ++ [0xAA#8, 0xBB#8] ++ toLE 8 0 ++ toLE 8 1700000000200)

/-- A compressor satisfying the contract, used in examples: it prepends one byte. -/
def storeComp : Compressor where
  compress := fun _ x cap => if x.length + 1 ≤ cap then some (0#8 :: x) else none
  decompress := fun _ y lim => if y.length ≤ lim + 1 then some (y.drop 1) else none
  bound := fun _ n => n + 1

theorem storeComp_lawful : storeComp.Lawful where
  compress_fits := by
    intro o x cap y h
    simp only [storeComp] at h
    split at h
    · simp only [Option.some.injEq] at h; subst h; simp; omega
    · simp at h
  inverse := by
    intro o x cap y lim h hl
    simp only [storeComp] at h ⊢
    split at h
    · simp only [Option.some.injEq] at h; subst h; simp [hl]
    · simp at h
  decompress_fits := by
    intro o y lim x h
    simp only [storeComp] at h
    split at h
    · simp only [Option.some.injEq] at h; subst h; simp; omega
    · simp at h
  bound_ok := by
    intro o x cap _ _ h
    exact ⟨0#8 :: x, by simpa only [storeComp] using if_pos h, by simp [storeComp]⟩
  bound_mono := by
    intro o a b h _
    simp only [storeComp]; omega

instance (v : BitVec 64) : Decidable (Fits62 v) := by unfold Fits62; infer_instance
instance (v : BitVec 32) : Decidable (Fits30 v) := by unfold Fits30; infer_instance
instance {o : Option (BitVec 64)} : Decidable (∃ q, o = some q ∧ Fits62 q) :=
  match o with
  | none => isFalse (by simp)
  | some q => if h : Fits62 q then isTrue ⟨q, rfl, h⟩ else isFalse (by simp [h])
instance (F : FloatOps) (info : EncodingInfo) (k : Nat) (f : PointField) (bs : List Byte) : Decidable (InRange F info k f bs) := by
  unfold InRange; split <;> infer_instance
instance (v p : BitVec 64) : Decidable (Step63 v p) := by unfold Step63; infer_instance
instance (v p : BitVec 32) : Decidable (Step31 v p) := by unfold Step31; infer_instance
instance {o : Option (BitVec 64)} {p : BitVec 64} : Decidable (∃ q, o = some q ∧ Step63 q p) :=
  match o with
  | none => isFalse (by simp)
  | some q => if h : Step63 q p then isTrue ⟨q, rfl, h⟩ else isFalse (by simp [h])
instance (F : FloatOps) (info : EncodingInfo) (k : Nat) (f : PointField) (prev : Option (List Byte)) (bs : List Byte) :
    Decidable (Follows F info k f prev bs) := by
  unfold Follows; split <;> infer_instance
instance (f g : PointField) : Decidable (Disjoint f g) := by unfold Disjoint; infer_instance

theorem mix_valid : ValidInfo bitsOps mixInfo where
  step := by decide
  version := by decide
  option := by decide
  types := by decide
  inside := by decide
  disjoint := by decide
  resolution := fun _ f _ r _ => ⟨rfl, rfl⟩

theorem range_of {F : FloatOps} {info : EncodingInfo} {cloud : List Byte} {n : Nat}
    (h : ∀ i, i < n → ∀ k, k < info.fields.length → ∀ f, f ∈ info.fields[k]? →
      InRange F info k f (cell cloud 0 info.point_step.toNat i f.offset.toNat (sizeOf f.type))) :
    ∀ i, i < n → ∀ k f, info.fields[k]? = some f →
      InRange F info k f (cell cloud 0 info.point_step.toNat i f.offset.toNat (sizeOf f.type)) := by
  intro i hi k f hk
  have hlt : k < info.fields.length := by
    have := List.getElem?_eq_some_iff.1 hk
    exact this.1
  exact h i hi k hlt f (by rw [hk]; rfl)

theorem follows_by {F : FloatOps} {info : EncodingInfo} {cloud : List Byte} {n : Nat}
    (h : ∀ i, i < n → ∀ k, k < info.fields.length → ∀ f, f ∈ info.fields[k]? →
      Follows F info k f (previous info cloud i f) (cell cloud 0 info.point_step.toNat i f.offset.toNat (sizeOf f.type))) :
    ∀ i, i < n → ∀ k f, info.fields[k]? = some f →
      Follows F info k f (previous info cloud i f) (cell cloud 0 info.point_step.toNat i f.offset.toNat (sizeOf f.type)) := by
  intro i hi k f hk
  have hlt : k < info.fields.length := by
    have := List.getElem?_eq_some_iff.1 hk
    exact this.1
  exact h i hi k hlt f (by rw [hk]; rfl)

theorem mix_cloud : ValidCloud bitsOps mixInfo mixCloud where
  size := by decide +kernel
  addressable := by decide +kernel
  range := follows_of_range (range_of (by decide +kernel))

def mixEnc : Encoder := ⟨mixInfo, [], []⟩

theorem mix_reach (C : Compressor) : Reach bitsOps C mixInfo [] mixEnc := .fresh _ (by decide +kernel)

def mixOut : List Byte :=
  match encodeView bitsOps storeComp mixEnc mixCloud 10000 false with
  | .ok r => r.2.1
  | _ => []

theorem mix_encode : encodeView bitsOps storeComp mixEnc mixCloud 10000 false = .ok (mixEnc, mixOut, 73) := by decide +kernel

/-- The same cloud, compressed, version 4, lossless. -/
def mixInfoZ : EncodingInfo := { mixInfo with compression_opt := .zstd, version := 4#8, encoding_opt := .lossless }

theorem mixZ_valid : ValidInfo bitsOps mixInfoZ where
  step := by decide
  version := by decide
  option := by decide
  types := by decide
  inside := by decide
  disjoint := by decide
  resolution := fun h => by simp [mixInfoZ] at h

theorem mixZ_cloud : ValidCloud bitsOps mixInfoZ mixCloud where
  size := by decide +kernel
  addressable := by decide +kernel
  range := follows_of_range (range_of (by decide +kernel))

def mixEncZ : Encoder :=
  match mkEncoder bitsOps mixInfoZ [1#8, 2#8] with
  | .ok e => e
  | _ => mixEnc

theorem mixZ_reach (C : Compressor) : Reach bitsOps C mixInfoZ [1#8, 2#8] mixEncZ := .fresh _ (by decide +kernel)

def mixOutZ : Encoder × List Byte × Nat :=
  match encodeView bitsOps storeComp mixEncZ mixCloud 10000 false with
  | .ok r => r
  | _ => (mixEnc, [], 0)

theorem mixZ_encode : encodeView bitsOps storeComp mixEncZ mixCloud 10000 false = .ok mixOutZ := by decide +kernel
example : mixOutZ.2.2 = 94 ∧ mixOutZ.2.1.length = 94 := by decide +kernel

end Cloudini.Props
