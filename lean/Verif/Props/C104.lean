import Verif.Props.C103

/-!
# C104 What becomes of a field does not depend on the other fields - except through the leading group

Removing a field from a cloud, adding one, renaming or moving fields should not change what the remaining fields come back as.  It does not, unless the
field changes between the vector path (the first three or four floats of a description, when all have a resolution) and the scalar path; those two round
ties differently, and treat large numbers differently (C100).
-/

namespace Cloudini.Props
open IEEE (ops)

/-- Field `g` of description `b` holds the same kind of value as field `f` of `a`. -/
structure SameKind (f g : PointField) : Prop where
  type : f.type = g.type
  resolution : f.resolution = g.resolution

/-- Fields number `k` of `a` and `l` of `b` take the same path: only FLOAT32 fields with a resolution in LOSSY descriptions have a choice. -/
def SamePath (a b : EncodingInfo) (k l : Nat) (f : PointField) : Prop :=
  a.encoding_opt = .lossy → f.type = .float32 → f.resolution.isSome → (k < groupSize a ↔ l < groupSize b)

/-- Value of a field of a point. -/
def valueOf (info : EncodingInfo) (f : PointField) (data : List Byte) (i : Nat) : List Byte :=
  cell data 0 info.point_step.toNat i f.offset.toNat (sizeOf f.type)

/-- **C104 (partial).** Two clouds with any descriptions of the same option, a field of each of the same type and resolution, which take the same path,
and a point of each that has the same value there: it has the same value after the trip.  Missing: what C18 leaves out, and fields that change the path
(`C104_fails`). -/
theorem C104_field_partial (F : FloatOps) (infoA infoB : EncodingInfo) (hopt : infoA.encoding_opt = infoB.encoding_opt) (a b backA backB : List Byte)
    (hA : ValidInfo F infoA) (hB : ValidInfo F infoB) (ha : ValidCloud F infoA a) (hb : ValidCloud F infoB b) (hlA : FieldLimit infoA) (hlB : FieldLimit infoB)
    (hta : Trip F infoA a backA) (htb : Trip F infoB b backB) (k l : Nat) (f g : PointField) (hk : infoA.fields[k]? = some f) (hl : infoB.fields[l]? = some g)
    (hkind : SameKind f g) (hpath : SamePath infoA infoB k l f) (i j : Nat) (hi : i < infoA.width.toNat * infoA.height.toNat)
    (hj : j < infoB.width.toNat * infoB.height.toNat) (h : valueOf infoA f a i = valueOf infoB g b j) :
    valueOf infoA f backA i = valueOf infoB g backB j := by
  unfold valueOf at h ⊢
  rw [trip_expected hA ha hlA hta i hi k f hk, trip_expected hB hb hlB htb j hj l g hl, h]
  generalize cell b 0 infoB.point_step.toNat j g.offset.toNat (sizeOf g.type) = bs
  unfold expected
  rw [← hopt, ← hkind.type, ← hkind.resolution]
  cases ho : infoA.encoding_opt <;> cases ht : f.type <;> cases hr : f.resolution <;> simp only
  have := hpath ho ht (by simp [hr])
  simp only [this]

/-- With NONE and LOSSLESS, and for every field that is not a FLOAT32 with a resolution, the path does not matter. -/
theorem C104_same_path (a b : EncodingInfo) (k l : Nat) (f : PointField) (h : a.encoding_opt ≠ .lossy ∨ f.type ≠ .float32 ∨ f.resolution = none) :
    SamePath a b k l f := by
  intro h1 h2 h3
  rcases h with h | h | h
  · exact absurd h1 h
  · exact absurd h2 h
  · rw [h] at h3; cases h3

/-- **C104, the two paths.** A number within 2^29 steps comes back by the two paths as two numbers at most a step (and the rounding) apart. -/
theorem C104_paths_close (r x : BitVec 32) (hr : GoodRes r) (hn : isNaN32 x = false) (hw : Within32 (2 ^ 29) r x) :
    |real32 (memorylessV ops r x) - real32 (memoryless32 ops r x)| ≤
      real32 r + 2 ^ (-21 : Int) * real32 r + (2 ^ (-21 : Int) + 2 ^ (-43 : Int)) * |real32 x| := by
  have hr0 := lt_of_lt_of_le (IEEE.two_zpow_pos _) hr.2.1
  rcases hw with w | ⟨a, b, c⟩
  · rw [hn] at w; cases w
  · have h1 := (C11_vector r x hr a b c).2
    have h2 := (C11_float32 r x hr a b (c.trans (mul_le_mul_of_nonneg_right (by norm_num) hr0.le))).2
    have h3 := (between (x := real32 x) (y := real32 x) h1 h2).1
    rw [sub_self, sub_zero] at h3
    refine h3.trans (le_of_eq ?_)
    rw [show (2 : ℚ) ^ (-21 : Int) = 2 * 2 ^ (-22 : Int) by norm_num, show (2 : ℚ) ^ (-43 : Int) = 2 * 2 ^ (-44 : Int) by norm_num]
    ring

/-! ## The same x, with and without a z -/

def planeInfo : EncodingInfo :=
  { fields := [⟨[0x78#8], 0#32, .float32, some 0x3f800000#32⟩, ⟨[0x79#8], 4#32, .float32, some 0x3f800000#32⟩],
    width := 1#32, height := 1#32, point_step := 8#32, encoding_opt := .lossy, compression_opt := .none, version := 5#8 }
def solidInfo : EncodingInfo :=
  { fields := [⟨[0x78#8], 0#32, .float32, some 0x3f800000#32⟩, ⟨[0x79#8], 4#32, .float32, some 0x3f800000#32⟩, ⟨[0x7a#8], 8#32, .float32, some 0x3f800000#32⟩],
    width := 1#32, height := 1#32, point_step := 12#32, encoding_opt := .lossy, compression_opt := .none, version := 5#8 }

/-- (0.5, 7) and (0.5, 7, 3) at a resolution of 1. -/
def planeCloud : List Byte := toLE 4 0x3f000000 ++ toLE 4 0x40e00000
def solidCloud : List Byte := planeCloud ++ toLE 4 0x40400000

theorem plane_sensible : SensibleInfo planeInfo where
  step := by decide
  version := by decide
  option := by decide
  types := by decide
  inside := by decide
  disjoint := by decide
  resolution := by
    intro f hf r hr
    simp only [planeInfo, List.mem_cons, List.not_mem_nil, or_false] at hf
    rcases hf with rfl | rfl <;> simp at hr <;> subst hr <;> decide +kernel

theorem solid_sensible : SensibleInfo solidInfo where
  step := by decide
  version := by decide
  option := by decide
  types := by decide
  inside := by decide
  disjoint := by decide
  resolution := by
    intro f hf r hr
    simp only [solidInfo, List.mem_cons, List.not_mem_nil, or_false] at hf
    rcases hf with rfl | rfl | rfl <;> simp at hr <;> subst hr <;> decide +kernel

theorem plane_within : CloudWithin (2 ^ 29) (2 ^ 61) (2 ^ 61) planeInfo planeCloud where
  size := by decide +kernel
  addressable := by decide +kernel
  range := by
    intro i hi k f hk
    have hi : i < 1 := hi
    have hlt : k < 2 := (List.getElem?_eq_some_iff.1 hk).1
    have h1 : i = 0 := by omega
    have h2 : k = 0 ∨ k = 1 := by omega
    subst h1
    rcases h2 with rfl | rfl <;>
      simp only [planeInfo, List.getElem?_cons_zero, List.getElem?_cons_succ, Option.some.injEq] at hk <;> subst hk <;>
      refine ⟨fun h => by simp at h, fun _ r hr => ?_⟩ <;> simp at hr <;> subst hr <;>
      refine ⟨fun h => ?_, fun h => ?_⟩ <;> first | (simp at h; done) | decide +kernel

theorem solid_within : CloudWithin (2 ^ 29) (2 ^ 61) (2 ^ 61) solidInfo solidCloud where
  size := by decide +kernel
  addressable := by decide +kernel
  range := by
    intro i hi k f hk
    have hi : i < 1 := hi
    have hlt : k < 3 := (List.getElem?_eq_some_iff.1 hk).1
    have h1 : i = 0 := by omega
    have h2 : k = 0 ∨ k = 1 ∨ k = 2 := by omega
    subst h1
    rcases h2 with rfl | rfl | rfl <;>
      simp only [solidInfo, List.getElem?_cons_zero, List.getElem?_cons_succ, Option.some.injEq] at hk <;> subst hk <;>
      refine ⟨fun h => by simp at h, fun _ r hr => ?_⟩ <;> simp at hr <;> subst hr <;>
      refine ⟨fun h => ?_, fun h => ?_⟩ <;> first | (simp at h; done) | decide +kernel

def freshOf (info : EncodingInfo) : Encoder :=
  match mkEncoder ops info [] with
  | .ok e => e
  | _ => ⟨info, [], []⟩
def outOf (info : EncodingInfo) (cloud : List Byte) : Encoder × List Byte × Nat :=
  match encodeView ops storeComp (freshOf info) cloud 10000 false with
  | .ok r => r
  | _ => (freshOf info, [], 0)
def backOf (info : EncodingInfo) (cloud : List Byte) : List Byte :=
  match decodeCloud ops storeComp 0 info (outOf info cloud).2.1 (List.replicate cloud.length 0#8) with
  | .ok b => b
  | _ => []

theorem plane_trip : Trip ops planeInfo planeCloud (backOf planeInfo planeCloud) :=
  ⟨storeComp, [], freshOf planeInfo, (outOf planeInfo planeCloud).1, (outOf planeInfo planeCloud).2.1, 10000, (outOf planeInfo planeCloud).2.2, 0,
    List.replicate 8 0#8, storeComp_lawful, .fresh _ (by decide +kernel),
    by decide +kernel, Or.inl rfl, fun h => by simp [planeInfo] at h, by decide +kernel, by decide +kernel, by decide +kernel⟩

theorem solid_trip : Trip ops solidInfo solidCloud (backOf solidInfo solidCloud) :=
  ⟨storeComp, [], freshOf solidInfo, (outOf solidInfo solidCloud).1, (outOf solidInfo solidCloud).2.1, 10000, (outOf solidInfo solidCloud).2.2, 0,
    List.replicate 12 0#8, storeComp_lawful, .fresh _ (by decide +kernel),
    by decide +kernel, Or.inl rfl, fun h => by simp [solidInfo] at h, by decide +kernel, by decide +kernel, by decide +kernel⟩

/-- The property without the restriction to one path, for clouds of sensible numbers. -/
def OtherFieldsDoNotMatter : Prop :=
  ∀ (infoA infoB : EncodingInfo) (a b backA backB : List Byte), infoA.encoding_opt = infoB.encoding_opt → SensibleInfo infoA → SensibleInfo infoB →
    CloudWithin (2 ^ 29) (2 ^ 61) (2 ^ 61) infoA a → CloudWithin (2 ^ 29) (2 ^ 61) (2 ^ 61) infoB b → Trip ops infoA a backA → Trip ops infoB b backB →
    ∀ (k l : Nat) (f g : PointField), infoA.fields[k]? = some f → infoB.fields[l]? = some g → SameKind f g →
    ∀ i j, i < infoA.width.toNat * infoA.height.toNat → j < infoB.width.toNat * infoB.height.toNat →
      valueOf infoA f a i = valueOf infoB g b j → valueOf infoA f backA i = valueOf infoB g backB j

/-- **C104 does not hold of the code.** x = 0.5 at a resolution of 1 comes back as 1 from a cloud with x and y, and as 0 from one with x, y and z. -/
theorem C104_fails : ¬ OtherFieldsDoNotMatter := by
  intro h
  have := h planeInfo solidInfo planeCloud solidCloud _ _ rfl plane_sensible solid_sensible plane_within solid_within plane_trip solid_trip 0 0 _ _ rfl rfl
    ⟨rfl, rfl⟩ 0 0 (by decide) (by decide) (by decide +kernel)
  revert this
  decide +kernel

/-- C104_field_partial applied: y of the clouds of `Props/C101` and of their swapped version. -/
example : valueOf nearInfo ⟨[0x79#8], 4#32, .float32, some 0x3a83126f#32⟩ nearBack 0 = valueOf swapInfo ⟨[0x79#8], 4#32, .float32, some 0x3a83126f#32⟩ swapBack 0 :=
  C104_field_partial ops nearInfo swapInfo rfl nearCloud swapCloud nearBack swapBack (sensible_valid near_sensible)
    (sensible_valid swap_sensible) (within_valid near_sensible near_within) (within_valid swap_sensible swap_within) (by decide) (by decide) near_trip swap_trip
    1 1 _ _ rfl rfl ⟨rfl, rfl⟩ (fun _ _ _ => by decide +kernel) 0 0 (by decide) (by decide) (by decide +kernel)

example : GoodRes 0x3f800000#32 ∧ isNaN32 0x3f000000#32 = false ∧ Within32 (2 ^ 29) 0x3f800000#32 0x3f000000#32 ∧
    |real32 (memorylessV ops 0x3f800000#32 0x3f000000#32) - real32 (memoryless32 ops 0x3f800000#32 0x3f000000#32)| = 1 := by decide +kernel

end Cloudini.Props
