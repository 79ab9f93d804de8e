import Verif.Props.C11_cloud
import Verif.Props.C18_C20
import Verif.Model.Ros
import Verif.Model.Plugin
import Verif.Model.Wasm
import Verif.Model.PclCloud

/-!
# C99 Small numbers, and packed colours

PCL and ROS pack a colour into a FLOAT32 field: its bits are `0x00RRGGBB` or `0xAARRGGBB`.  Read as a number such a colour is tiny, huge or NaN;
a field with a resolution keeps none of it.  The arithmetic is IEEE (`Model/IEEE`).
-/

namespace Cloudini.Props
open IEEE (ops b32)

theorem dequant_zero (r : BitVec 32) (hr : GoodRes r) : ops.dequant32 r 0#64 = 0#32 ∧ ops.dequantV r 0#32 = 0#32 := by
  obtain ⟨r1, r2, r3, r4⟩ := IEEE.good_res hr
  have hz : b32.ofInt 0 = 0 := by simp [IEEE.Fmt.ofInt, IEEE.Fmt.ofRat, IEEE.Fmt.round_zero]
  have key : b32.mul 0 r.toNat = 0 := by
    have hneg : b32.neg r.toNat = false := by
      have h := IEEE.le0_of_pos r4
      unfold IEEE.Fmt.le0 at h
      rw [(IEEE.Fmt.fin_not_nan _ r1).1] at h
      simp at h
      exact h.1
    obtain ⟨hn, hi⟩ := IEEE.Fmt.fin_not_nan _ r1
    have h0 : b32.isNaN 0 = false := by decide
    have h1 : b32.isInf 0 = false := by decide
    have h2 : b32.neg 0 = false := by decide
    have h3 : b32.val 0 = 0 := by simp [IEEE.Fmt.val, show b32.mag 0 = 0 by decide, IEEE.Fmt.magVal_zero]
    unfold IEEE.Fmt.mul
    simp [hn, hi, h0, h1, h2, h3, hneg, IEEE.Fmt.ofRat, IEEE.Fmt.round_zero]
  constructor
  · show BitVec.ofNat 32 (b32.mul (b32.ofInt (0#64).toInt) r.toNat) = _
    rw [show (0#64).toInt = 0 by decide, hz, key]
  · show BitVec.ofNat 32 (b32.mul (b32.ofInt (0#32).toInt) r.toNat) = _
    rw [show (0#32).toInt = 0 by decide, hz, key]

theorem zero_of_small {n : Int} {r x c d : ℚ} (hr : 0 < r) (hx : |x| ≤ 49 / 100 * r) (h : |(n : ℚ) * r - x| ≤ c * |x| + d * r)
    (hc : 0 ≤ c) (hcd : (1 + c) * (49 / 100) + d < 1) : n = 0 := by
  have h1 := abs_sub_abs_le_abs_sub ((n : ℚ) * r) x
  rw [abs_mul, abs_of_pos hr] at h1
  have h2 : (1 + c) * |x| ≤ (1 + c) * (49 / 100 * r) := mul_le_mul_of_nonneg_left hx (by linarith)
  have h3 : |(n : ℚ)| * r < 1 * r := by nlinarith
  have h4 : |(n : ℚ)| < 1 := lt_of_mul_lt_mul_right h3 hr.le
  have h5 : |n| < 1 := by exact_mod_cast h4
  exact Int.abs_lt_one_iff.1 h5

/-- **C99, numbers below half a step.** A finite number smaller in magnitude than 0.49 steps is delivered as +0, on both paths of the codec. -/
theorem C99_small (r x : BitVec 32) (hr : GoodRes r) (hx : Finite32 x) (hs : |real32 x| ≤ 49 / 100 * real32 r) :
    memoryless32 ops r x = 0#32 ∧ memorylessV ops r x = 0#32 := by
  have hr0 : 0 < real32 r := lt_of_lt_of_le (IEEE.two_zpow_pos _) hr.2.1
  have hx1 : |real32 x| ≤ 2 ^ (126 : Int) := by
    refine hs.trans (le_trans (b := real32 r) (by linarith) (hr.2.2.trans (IEEE.zpow_le_of_le (by norm_num))))
  have hn := IEEE.fin32_not_nan hx
  obtain ⟨z1, z2⟩ := dequant_zero r hr
  constructor
  · obtain ⟨n, h1, _, _, h2, _⟩ := IEEE.cycle32 hr hx hx1 (hs.trans (by nlinarith))
    have : n = 0 := by
      refine zero_of_small hr0 hs h2 ?_ ?_
      · have := IEEE.a32_nonneg; have := b32.u_pos; positivity
      · rw [IEEE.b32_u, IEEE.b32_h]; unfold IEEE.a32; norm_num
    subst this
    unfold memoryless32
    rw [hn, h1]
    exact z1
  · obtain ⟨n, h1, _, _, h2, _⟩ := IEEE.cycleV hr hx hx1 (hs.trans (by nlinarith))
    have : n = 0 := by
      refine zero_of_small hr0 hs h2 ?_ ?_
      · have := b32.u_pos; positivity
      · rw [IEEE.b32_u, IEEE.b32_h]; norm_num
    subst this
    unfold memorylessV
    rw [hn, h1]
    exact z2

/-- A colour packed without alpha, `0x00RRGGBB`. -/
def PlainColour (x : BitVec 32) : Prop := x.toNat < 2 ^ 24
/-- A colour packed with alpha 255 and a red component of 128 or more: `0xffRRGGBB`. (`0xff800000` is minus infinity.) -/
def OpaqueRed (x : BitVec 32) : Prop := 0xff800000 < x.toNat

theorem colour_tiny {x : BitVec 32} (h : PlainColour x) : Finite32 x ∧ |real32 x| ≤ 2 ^ (-125 : Int) := by
  unfold PlainColour at h
  have hs : x.toNat / 2 ^ 31 = 0 := by omega
  have he : x.toNat / 2 ^ 23 % 2 ^ 8 = 0 ∨ x.toNat / 2 ^ 23 % 2 ^ 8 = 1 := by omega
  have hm : x.toNat % 2 ^ 23 ≤ 2 ^ 23 := by omega
  have hmq : ((x.toNat % 2 ^ 23 : Nat) : ℚ) ≤ 2 ^ 23 := by exact_mod_cast hm
  have hm0 : (0 : ℚ) ≤ ((x.toNat % 2 ^ 23 : Nat) : ℚ) := Nat.cast_nonneg _
  refine ⟨by unfold Finite32; omega, ?_⟩
  unfold real32
  simp only [hs, pow_zero, one_mul]
  rcases he with he | he
  · rw [he, if_pos rfl, abs_of_nonneg (by positivity)]
    calc ((x.toNat % 2 ^ 23 : Nat) : ℚ) * 2 ^ (-149 : Int) ≤ 2 ^ 23 * 2 ^ (-149 : Int) := mul_le_mul_of_nonneg_right hmq (by positivity)
      _ ≤ 2 ^ (-125 : Int) := by norm_num
  · rw [he, if_neg (by decide), abs_of_nonneg (by positivity)]
    calc (2 ^ 23 + ((x.toNat % 2 ^ 23 : Nat) : ℚ)) * 2 ^ (((1 : Nat) : Int) - 150) ≤ (2 ^ 23 + 2 ^ 23) * 2 ^ (((1 : Nat) : Int) - 150) :=
          mul_le_mul_of_nonneg_right (by linarith) (by positivity)
      _ ≤ 2 ^ (-125 : Int) := by norm_num

/-- **C99, one colour.** With any resolution of 2^-123 or more every colour without alpha becomes black; every opaque colour with red ≥ 128 becomes
the one NaN the codec delivers. -/
theorem C99_colour (r x : BitVec 32) (hr : GoodRes r) (hr2 : 2 ^ (-123 : Int) ≤ real32 r) :
    (PlainColour x → memoryless32 ops r x = 0#32 ∧ memorylessV ops r x = 0#32) ∧
    (OpaqueRed x → memoryless32 ops r x = qNaN32 ∧ memorylessV ops r x = qNaN32) := by
  constructor
  · intro h
    obtain ⟨h1, h2⟩ := colour_tiny h
    refine C99_small r x hr h1 (h2.trans (le_trans ?_ (mul_le_mul_of_nonneg_left hr2 (by norm_num))))
    norm_num
  · intro h
    have hn : isNaN32 x = true := by
      unfold OpaqueRed at h
      have := x.isLt
      unfold isNaN32
      rw [decide_eq_true_eq]
      omega
    unfold memoryless32 memorylessV
    rw [hn]
    exact ⟨rfl, rfl⟩

/-- The four bytes of field `f` of point `i`. -/
def colourOf (info : EncodingInfo) (f : PointField) (cloud : List Byte) (i : Nat) : BitVec 32 :=
  BitVec.ofNat 32 (fromLE (cell cloud 0 info.point_step.toNat i f.offset.toNat (sizeOf f.type)))

/-- **C99 for clouds.** A colour field with a resolution loses its colours without an error: after decoding every plain colour is black and every
opaque colour with red ≥ 128 is the NaN `0x7fc00000`. Without a resolution on that field (or in a NONE or LOSSLESS cloud) every colour is kept. -/
theorem C99_colours_partial (C : Compressor) (hC : C.Lawful) (info : EncodingInfo) (header : List Byte)
    (enc enc' : Encoder) (cloud out : List Byte) (room size fuel : Nat)
    (hinfo : ValidInfo ops info) (hcloud : ValidCloud ops info cloud) (hreach : Reach ops C info header enc)
    (henc : encodeView ops C enc cloud room false = .ok (enc', out, size))
    (h64 : FieldLimit info)
    (hlim : info.compression_opt = .none ∨ ChunksWithin ops enc cloud cloud.length)
    (hlz : info.compression_opt = .lz4 → cloud.length ≤ intMax)
    (hmagic : out.take 10 ≠ magic)
    (buf : List Byte) (hbuf : cloud.length ≤ buf.length) :
    ∃ buf', decodeCloud ops C fuel info out buf = .ok buf' ∧
      ∀ f ∈ info.fields, f.type = .float32 → ∀ i, i < info.width.toNat * info.height.toNat →
        (info.encoding_opt = .lossy → ∀ r, f.resolution = some r → GoodRes r → 2 ^ (-123 : Int) ≤ real32 r →
          (PlainColour (colourOf info f cloud i) → colourOf info f buf' i = 0#32) ∧
          (OpaqueRed (colourOf info f cloud i) → colourOf info f buf' i = 0x7fc00000#32)) ∧
        (info.encoding_opt ≠ .lossy ∨ f.resolution = none → colourOf info f buf' i = colourOf info f cloud i) := by
  obtain ⟨buf', h1, _, h2⟩ := C18_cloud_roundtrip_partial ops C hC info header enc enc' cloud out room size fuel hinfo hcloud hreach henc h64
    hlim hlz hmagic buf hbuf
  refine ⟨buf', h1, ?_⟩
  intro f hf ht i hi
  obtain ⟨k, hk⟩ := List.mem_iff_getElem?.1 hf
  have h3 := h2 i hi k f hk
  have back : ∀ v : BitVec 32, BitVec.ofNat 32 (fromLE (toLE 4 v.toNat)) = v := asFloat_toLE
  constructor
  · intro hl r hr hg hr2
    obtain ⟨c1, c2⟩ := C99_colour r (colourOf info f cloud i) hg hr2
    have he : colourOf info f buf' i = if k < groupSize info then memorylessV ops r (colourOf info f cloud i)
        else memoryless32 ops r (colourOf info f cloud i) := by
      unfold colourOf
      rw [h3]
      unfold expected
      simp only [hl, ht, hr]
      exact back _
    constructor
    · intro h
      rw [he, (c1 h).1, (c1 h).2, ite_self]
    · intro h
      rw [he, (c2 h).1, (c2 h).2, ite_self]
      rfl
  · intro h
    unfold colourOf
    rw [h3]
    unfold expected
    rcases h with h | h
    · cases hh : info.encoding_opt <;> simp_all
    · simp [h]

/-- Every FLOAT32 field of a description has a resolution, and there is no way to ask for another. -/
def AllQuantised (fields : List PointField) : Prop := ∀ f ∈ fields, f.type = .float32 → f.resolution ≠ none

/-- **C99, the tools.** Colours are not exempt anywhere: with a default resolution the profile of the ROS tools leaves no FLOAT32 field without one,
whatever profile is given (naming a field with 0 removes it from the message); neither do the transport plugin, the WASM entry points, or the PCL
conversion of a `PCLPointCloud2` with a positive resolution. -/
theorem C99_tools_quantise :
    (∀ (profile : List Byte → Option (BitVec 32)) fields r, AllQuantised (Ros.applyProfile profile fields (some r))) ∧
    (∀ m r, AllQuantised (Plugin.toInfo m r).fields) ∧
    (∀ r info, AllQuantised (Wasm.withResolution r info).fields) ∧
    (∀ c res r, Pcd.resolution32 res = some r → AllQuantised (Pcd.convert c res).fields) := by
  refine ⟨?_, ?_, ?_, ?_⟩
  · intro profile fields r f hf ht
    unfold Ros.applyProfile at hf
    obtain ⟨g, _, rfl⟩ := List.mem_map.1 hf
    revert ht
    cases hp : profile g.name with
    | some v => simp
    | none =>
      by_cases hg : g.type = .float32
      · simp [hg]
      · simp [hg]
  · intro m r f hf ht
    obtain ⟨g, _, rfl⟩ := List.mem_map.1 hf
    simp only at ht ⊢
    rw [if_pos ht]
    simp
  · intro r info f hf ht
    obtain ⟨g, _, rfl⟩ := List.mem_map.1 hf
    revert ht
    by_cases hg : g.type = .float32
    · simp [hg]
    · simp [hg]
  · intro c res r hr f hf ht
    unfold Pcd.convert at hf
    rw [hr] at hf
    obtain ⟨g, _, rfl⟩ := List.mem_map.1 hf
    simp only at ht ⊢
    rw [if_pos ht]
    simp

/-- A position and a packed colour, both quantised to millimetres: what every tool with a default resolution makes of a coloured cloud. -/
def rgbInfo : EncodingInfo :=
  { fields := [⟨[0x78#8], 0#32, .float32, some 0x3a83126f#32⟩, ⟨[0x72#8, 0x67#8, 0x62#8], 4#32, .float32, some 0x3a83126f#32⟩],
    width := 3#32, height := 1#32, point_step := 8#32, encoding_opt := .lossy, compression_opt := .none, version := 5#8 }

def rgbCloud : List Byte :=
  toLE 4 0x3f800000 ++ toLE 4 0x00112233 ++ (toLE 4 0x40000000 ++ toLE 4 0xffff8000) ++ (toLE 4 0 ++ toLE 4 0x00ffffff)

theorem milli_good : GoodRes 0x3a83126f#32 ∧ 2 ^ (-123 : Int) ≤ real32 0x3a83126f#32 := by decide +kernel

theorem rgb_sensible : SensibleInfo rgbInfo where
  step := by decide
  version := by decide
  option := by decide
  types := by decide
  inside := by decide
  disjoint := by decide
  resolution := by
    intro f hf r hr
    simp only [rgbInfo, List.mem_cons, List.not_mem_nil, or_false] at hf
    rcases hf with rfl | rfl <;> simp at hr <;> subst hr <;> exact milli_good.1

theorem rgb_within : CloudWithin (2 ^ 29) (2 ^ 61) (2 ^ 61) rgbInfo rgbCloud where
  size := by decide +kernel
  addressable := by decide +kernel
  range := by
    intro i hi k f hk
    have hi : i < 3 := hi
    have hlt : k < 2 := (List.getElem?_eq_some_iff.1 hk).1
    have h1 : i = 0 ∨ i = 1 ∨ i = 2 := by omega
    have h2 : k = 0 ∨ k = 1 := by omega
    rcases h1 with rfl | rfl | rfl <;> rcases h2 with rfl | rfl <;>
      simp only [rgbInfo, List.getElem?_cons_zero, List.getElem?_cons_succ, Option.some.injEq] at hk <;> subst hk <;>
      refine ⟨fun h => by simp at h, fun _ r hr => ?_⟩ <;> simp at hr <;> subst hr <;>
      refine ⟨fun _ => ?_, fun h => by simp at h⟩ <;> decide +kernel

def rgbEnc : Encoder :=
  match mkEncoder ops rgbInfo [] with
  | .ok e => e
  | _ => ⟨rgbInfo, [], []⟩

theorem rgb_reach (C : Compressor) : Reach ops C rgbInfo [] rgbEnc := .fresh _ (by decide +kernel)

def rgbOut : Encoder × List Byte × Nat :=
  match encodeView ops storeComp rgbEnc rgbCloud 10000 false with
  | .ok r => r
  | _ => (rgbEnc, [], 0)
theorem rgb_encode : encodeView ops storeComp rgbEnc rgbCloud 10000 false = .ok (rgbOut.1, rgbOut.2.1, rgbOut.2.2) := by decide +kernel

/-- Red 0x11, green 0x22, blue 0x33 becomes black, an opaque colour becomes NaN. -/
example : ∃ buf', decodeCloud ops storeComp 0 rgbInfo rgbOut.2.1 (List.replicate 24 0xee#8) = .ok buf' ∧
    colourOf rgbInfo ⟨[0x72#8, 0x67#8, 0x62#8], 4#32, .float32, some 0x3a83126f#32⟩ rgbCloud 0 = 0x00112233#32 ∧
    colourOf rgbInfo ⟨[0x72#8, 0x67#8, 0x62#8], 4#32, .float32, some 0x3a83126f#32⟩ buf' 0 = 0#32 ∧
    colourOf rgbInfo ⟨[0x72#8, 0x67#8, 0x62#8], 4#32, .float32, some 0x3a83126f#32⟩ buf' 1 = 0x7fc00000#32 := by
  obtain ⟨buf', h1, h2⟩ := C99_colours_partial storeComp storeComp_lawful rgbInfo [] rgbEnc rgbOut.1 rgbCloud rgbOut.2.1 10000 rgbOut.2.2 0
    (sensible_valid rgb_sensible) (within_valid rgb_sensible rgb_within) (rgb_reach _) rgb_encode (by decide) (Or.inl rfl)
    (fun h => by simp [rgbInfo] at h) (by decide +kernel) (List.replicate 24 0xee#8) (by decide +kernel)
  have h3 := fun i hi => (h2 ⟨[0x72#8, 0x67#8, 0x62#8], 4#32, .float32, some 0x3a83126f#32⟩ (List.mem_cons_of_mem _ (List.mem_singleton.2 rfl)) rfl i hi).1 rfl _ rfl
    milli_good.1 milli_good.2
  have e0 : colourOf rgbInfo ⟨[0x72#8, 0x67#8, 0x62#8], 4#32, .float32, some 0x3a83126f#32⟩ rgbCloud 0 = 0x00112233#32 := by decide +kernel
  have e1 : colourOf rgbInfo ⟨[0x72#8, 0x67#8, 0x62#8], 4#32, .float32, some 0x3a83126f#32⟩ rgbCloud 1 = 0xffff8000#32 := by decide +kernel
  refine ⟨buf', h1, e0, (h3 0 (by decide)).1 ?_, (h3 1 (by decide)).2 ?_⟩
  · rw [e0]; unfold PlainColour; decide
  · rw [e1]; unfold OpaqueRed; decide

/-- A tool with a default resolution of a millimetre. -/
example : (Ros.applyProfile (fun _ => none) [⟨[0x72#8, 0x67#8, 0x62#8], 4#32, .float32, none⟩] (some 0x3a83126f#32)).map (·.resolution) =
    [some 0x3a83126f#32] := by decide

end Cloudini.Props
