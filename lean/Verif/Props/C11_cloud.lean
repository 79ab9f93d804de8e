import Verif.Spec.FloatCloud
import Verif.Props.C11_C12

/-!
# C10–C12 for whole clouds, in IEEE arithmetic

The theorems of `C18_C20` composed with those of `C11_C12`: what a user finds in the decoded buffer, as numbers.
-/

namespace Cloudini.Props
open IEEE (ops b32 b64)

/-! ## C10: a finite resolution never makes a NaN -/

theorem ofRat_not_nan (F : IEEE.Fmt) (s : Bool) (q : ℚ) : F.isNaN (F.ofRat s q) = false ∧ F.ofRat s q < 2 * F.sgn := by
  have h : F.round |q| ≤ F.inf := by
    unfold IEEE.Fmt.round
    split
    · exact Nat.zero_le _
    · exact Nat.min_le_right _ _
  have h1 := F.inf_lt_sgn
  constructor
  · unfold IEEE.Fmt.isNaN IEEE.Fmt.ofRat
    rw [F.mag_ofRat (by omega)]
    simpa using h
  · unfold IEEE.Fmt.ofRat
    split <;> omega

theorem nan32_iff (x : BitVec 32) : isNaN32 x = b32.isNaN x.toNat := by
  have := IEEE.split32 x.toNat x.isLt
  rw [show b32.isNaN x.toNat = decide (255 * 2 ^ 23 < x.toNat % 2 ^ 31) from rfl]
  unfold isNaN32
  apply decide_eq_decide.2
  omega

theorem nan64_iff (x : BitVec 64) : isNaN64 x = b64.isNaN x.toNat := by
  have := IEEE.split64 x.toNat x.isLt
  rw [show b64.isNaN x.toNat = decide (2047 * 2 ^ 52 < x.toNat % 2 ^ 63) from rfl]
  unfold isNaN64
  apply decide_eq_decide.2
  omega

theorem ofInt_fin32 (z : Int) (h1 : -2 ^ 63 ≤ z) (h2 : z < 2 ^ 63) : b32.isFin (b32.ofInt z) = true := by
  refine (b32.ofInt_spec IEEE.Fmt.b32_ok (by decide) (z := z) ?_).1
  rw [IEEE.b32_top]
  have : |(z : ℚ)| ≤ 2 ^ 63 := by rw [abs_le]; constructor <;> (norm_cast) <;> omega
  exact this.trans (by norm_num)

theorem ofInt_fin64 (z : Int) (h1 : -2 ^ 63 ≤ z) (h2 : z < 2 ^ 63) : b64.isFin (b64.ofInt z) = true := by
  refine (b64.ofInt_spec IEEE.Fmt.b64_ok (by decide) (z := z) ?_).1
  rw [IEEE.b64_top]
  have : |(z : ℚ)| ≤ 2 ^ 63 := by rw [abs_le]; constructor <;> (norm_cast) <;> omega
  exact this.trans (le_trans (by norm_num) (IEEE.zpow_le_of_le (show (63 : Int) ≤ 1023 by norm_num)))

theorem toInt_bounds64 (q : BitVec 64) : -2 ^ 63 ≤ q.toInt ∧ q.toInt < 2 ^ 63 := by
  have := q.le_toInt; have := q.toInt_lt; constructor <;> simpa using ‹_›
theorem toInt_bounds32 (q : BitVec 32) : -2 ^ 31 ≤ q.toInt ∧ q.toInt < 2 ^ 31 := by
  have := q.le_toInt; have := q.toInt_lt; constructor <;> simpa using ‹_›

theorem dequant32_not_nan (r : BitVec 32) (hr : Finite32 r) (z : Int) (h1 : -2 ^ 63 ≤ z) (h2 : z < 2 ^ 63) :
    isNaN32 (BitVec.ofNat 32 (b32.mul (b32.ofInt z) r.toNat)) = false := by
  rw [nan32_iff, b32.mul_eq (ofInt_fin32 z h1 h2) ((IEEE.fin32_iff r).2 hr)]
  obtain ⟨a, b⟩ := ofRat_not_nan b32 (b32.neg (b32.ofInt z) != b32.neg r.toNat) (b32.val (b32.ofInt z) * b32.val r.toNat)
  rw [IEEE.toNat_ofNat32 b]; exact a

/-- **C10**, the hypotheses of `C10_nan_iff` and `C10_nan_iff64`: with a finite resolution no integer dequantises to NaN. -/
theorem C10_finite_resolution (r : BitVec 32) (hr : Finite32 r) :
    DequantNotNaN32 ops r ∧ DequantNotNaNV ops r ∧ DequantNotNaN64 ops r := by
  refine ⟨fun q => ?_, fun q => ?_, fun q => ?_⟩
  · exact dequant32_not_nan r hr _ (toInt_bounds64 q).1 (toInt_bounds64 q).2
  · have := toInt_bounds32 q
    exact dequant32_not_nan r hr _ (by omega) (by omega)
  · show isNaN64 (BitVec.ofNat 64 (b64.mul (b64.ofInt q.toInt) (IEEE.widen r.toNat))) = false
    rw [nan64_iff, b64.mul_eq (ofInt_fin64 _ (toInt_bounds64 q).1 (toInt_bounds64 q).2) (IEEE.widen_spec ((IEEE.fin32_iff r).2 hr)).1]
    obtain ⟨a, b⟩ := ofRat_not_nan b64 (b64.neg (b64.ofInt q.toInt) != b64.neg (IEEE.widen r.toNat))
      (b64.val (b64.ofInt q.toInt) * b64.val (IEEE.widen r.toNat))
    rw [IEEE.toNat_ofNat64 b]; exact a

/-- The condition is needed: a resolution of +infinity passes the check of both sides and decodes 0 to NaN. -/
theorem C10_infinite_resolution_fails : ops.resNonPos 0x7f800000#32 = false ∧ isNaN32 0#32 = false ∧
    isNaN32 (memoryless32 ops 0x7f800000#32 0#32) = true := by decide +kernel

example : Finite32 0x3a83126f#32 := by decide +kernel

/-! ## C12: values -/

/-- Decoding twice is decoding once, for a value of at most 4194300 steps. -/
theorem C12_float32_values (r x : BitVec 32) (hr : GoodRes r) (hx : Finite32 x) (hx1 : |real32 x| ≤ 2 ^ (126 : Int))
    (hx2 : |real32 x| ≤ 4194300 * real32 r) :
    Finite32 (memoryless32 ops r x) ∧ (∃ q, ops.quant32 r x = some q ∧ Fits62 q ∧ ops.quant32 r (memoryless32 ops r x) = some q) ∧
    memoryless32 ops r (memoryless32 ops r x) = memoryless32 ops r x := by
  have hr0 : 0 < real32 r := lt_of_lt_of_le (IEEE.two_zpow_pos _) hr.2.1
  obtain ⟨n, h1, h2, h3, h4, h5, _⟩ := IEEE.cycle32 hr hx hx1 (hx2.trans (mul_le_mul_of_nonneg_right (by norm_num) hr0.le))
  have hm : memoryless32 ops r x = ops.dequant32 r (BitVec.ofInt 64 n) := by
    unfold memoryless32
    rw [IEEE.fin32_not_nan hx, h1]
    rfl
  have hh : b32.h ≤ 1 / 33554432 := by
    rw [IEEE.b32_h]; exact (IEEE.zpow_le_of_le (show (-150 : Int) ≤ -25 by norm_num)).trans (by norm_num)
  have hc0 : 0 ≤ IEEE.a32 + b32.u * (1 + IEEE.a32) := by
    have := IEEE.a32_nonneg; have := b32.u_pos; positivity
  have hn := IEEE.n_small (B := 4194300) hr0 hx2 h4 hc0 (by
    have : (IEEE.a32 + b32.u * (1 + IEEE.a32)) * (4194300 : Nat) ≤ 1 / 2 - 1 / 4194304 := by
      rw [IEEE.b32_u]; unfold IEEE.a32; norm_num
    have h' : (1 / 2 : ℚ) - 1 / 4194304 + (1 / 2 + 1 / 33554432) < 1 := by norm_num
    linarith)
  obtain ⟨b1, b2⟩ := IEEE.abs_int_le hn
  have hv : |(n : ℚ)| * real32 r ≤ 2 ^ (127 : Int) := by
    have g1 := abs_sub_abs_le_abs_sub ((n : ℚ) * real32 r) (real32 x)
    rw [abs_mul, abs_of_pos hr0] at g1
    have hc : IEEE.a32 + b32.u * (1 + IEEE.a32) ≤ 1 / 4 := by rw [IEEE.b32_u]; unfold IEEE.a32; norm_num
    have g2 := mul_le_mul_of_nonneg_right hc (abs_nonneg (real32 x))
    have g3 : (1 / 2 + b32.h) * real32 r ≤ 1 * real32 r := mul_le_mul_of_nonneg_right (by linarith) hr0.le
    have g4 := hr.2.2
    have e : (2 : ℚ) ^ (127 : Int) = 2 * 2 ^ (126 : Int) := by norm_num
    have e' : (2 : ℚ) ^ (126 : Int) = 2 * 2 ^ (125 : Int) := by norm_num
    rw [e]
    generalize (2 : ℚ) ^ (126 : Int) = A at *
    generalize (2 : ℚ) ^ (125 : Int) = B at *
    linarith
  obtain ⟨s1, s2⟩ := IEEE.stable32 hr (BitVec.ofInt 64 n) (by rw [h2, abs_lt]; omega) (by rw [h2]; exact hv)
  refine ⟨by rw [hm]; exact h5, ⟨_, h1, h3, by rw [hm]; exact s2⟩, ?_⟩
  rw [hm]
  unfold memoryless32
  rw [IEEE.fin32_not_nan h5, s2]
  rfl

theorem C12_vector_values (r x : BitVec 32) (hr : GoodRes r) (hx : Finite32 x) (hx1 : |real32 x| ≤ 2 ^ (126 : Int))
    (hx2 : |real32 x| ≤ 4194300 * real32 r) :
    Finite32 (memorylessV ops r x) ∧ (Fits30 (ops.quantV r x) ∧ ops.quantV r (memorylessV ops r x) = ops.quantV r x) ∧
    memorylessV ops r (memorylessV ops r x) = memorylessV ops r x := by
  have hr0 : 0 < real32 r := lt_of_lt_of_le (IEEE.two_zpow_pos _) hr.2.1
  obtain ⟨n, h1, h2, h3, h4, h5, _⟩ := IEEE.cycleV hr hx hx1 (hx2.trans (mul_le_mul_of_nonneg_right (by norm_num) hr0.le))
  have hm : memorylessV ops r x = ops.dequantV r (BitVec.ofInt 32 n) := by
    unfold memorylessV
    rw [IEEE.fin32_not_nan hx, h1]
    rfl
  have hh : b32.h ≤ 1 / 33554432 := by
    rw [IEEE.b32_h]; exact (IEEE.zpow_le_of_le (show (-150 : Int) ≤ -25 by norm_num)).trans (by norm_num)
  have hc0 : 0 ≤ b32.u + b32.u * (1 + b32.u) := by
    have := b32.u_pos; positivity
  have hn := IEEE.n_small (B := 4194300) hr0 hx2 h4 hc0 (by
    have : (b32.u + b32.u * (1 + b32.u)) * (4194300 : Nat) ≤ 1 / 2 - 1 / 4194304 := by
      rw [IEEE.b32_u]; norm_num
    have h' : (1 / 2 : ℚ) - 1 / 4194304 + (1 / 2 + 1 / 33554432) < 1 := by norm_num
    linarith)
  obtain ⟨b1, b2⟩ := IEEE.abs_int_le hn
  have hv : |(n : ℚ)| * real32 r ≤ 2 ^ (127 : Int) := by
    have g1 := abs_sub_abs_le_abs_sub ((n : ℚ) * real32 r) (real32 x)
    rw [abs_mul, abs_of_pos hr0] at g1
    have hc : b32.u + b32.u * (1 + b32.u) ≤ 1 / 4 := by rw [IEEE.b32_u]; norm_num
    have g2 := mul_le_mul_of_nonneg_right hc (abs_nonneg (real32 x))
    have g3 : (1 / 2 + b32.h) * real32 r ≤ 1 * real32 r := mul_le_mul_of_nonneg_right (by linarith) hr0.le
    have g4 := hr.2.2
    have e : (2 : ℚ) ^ (127 : Int) = 2 * 2 ^ (126 : Int) := by norm_num
    have e' : (2 : ℚ) ^ (126 : Int) = 2 * 2 ^ (125 : Int) := by norm_num
    rw [e]
    generalize (2 : ℚ) ^ (126 : Int) = A at *
    generalize (2 : ℚ) ^ (125 : Int) = B at *
    linarith
  obtain ⟨s1, s2⟩ := IEEE.stableV hr (BitVec.ofInt 32 n) (by rw [h2, abs_lt]; omega) (by rw [h2]; exact hv)
  refine ⟨by rw [hm]; exact h5, ⟨by rw [h1]; exact h3, by rw [hm, s2, h1]⟩, ?_⟩
  rw [hm]
  unfold memorylessV
  rw [IEEE.fin32_not_nan h5, s2]
  rfl

theorem C12_float64_values (r : BitVec 32) (x : BitVec 64) (hr : GoodRes r) (hx : Finite64 x)
    (hx2 : |real64 x| ≤ (2 ^ 51 - 4) * real32 r) :
    Finite64 (memoryless64 ops r x) ∧ (∃ q, ops.quant64 r x = some q ∧ Fits62 q ∧ ops.quant64 r (memoryless64 ops r x) = some q) ∧
    memoryless64 ops r (memoryless64 ops r x) = memoryless64 ops r x := by
  have hr0 : 0 < real32 r := lt_of_lt_of_le (IEEE.two_zpow_pos _) hr.2.1
  obtain ⟨n, h1, h2, h3, h4, h5, _⟩ := IEEE.cycle64 hr hx (hx2.trans (mul_le_mul_of_nonneg_right (by norm_num) hr0.le))
  have hm : memoryless64 ops r x = ops.dequant64 r (BitVec.ofInt 64 n) := by
    unfold memoryless64
    rw [IEEE.fin64_not_nan hx, h1]
    rfl
  have hh : b64.h ≤ 1 / 2 ^ 60 := by
    rw [IEEE.b64_h]; exact (IEEE.zpow_le_of_le (show (-1075 : Int) ≤ -60 by norm_num)).trans (by norm_num)
  have hc0 : 0 ≤ b64.u + b64.u * (1 + b64.u) := by
    have := b64.u_pos; positivity
  have hn := IEEE.n_small (B := 2 ^ 51 - 4) hr0 (by norm_num at hx2 ⊢; exact hx2) h4 hc0 (by
    have : (b64.u + b64.u * (1 + b64.u)) * ((2 ^ 51 - 4 : Nat) : ℚ) ≤ 1 / 2 - 1 / 2 ^ 52 := by
      rw [IEEE.b64_u]; norm_num
    have h' : (1 / 2 : ℚ) - 1 / 2 ^ 52 + (1 / 2 + 1 / 2 ^ 60) < 1 := by norm_num
    linarith)
  obtain ⟨b1, b2⟩ := IEEE.abs_int_le hn
  obtain ⟨s1, s2⟩ := IEEE.stable64 hr (BitVec.ofInt 64 n) (by rw [h2, abs_lt]; omega)
  refine ⟨by rw [hm]; exact h5, ⟨_, h1, h3, by rw [hm]; exact s2⟩, ?_⟩
  rw [hm]
  unfold memoryless64
  rw [IEEE.fin64_not_nan h5, s2]
  rfl

/-- 12.345f with a resolution of 0.001f meets the hypotheses. -/
example : GoodRes 0x3a83126f#32 ∧ Finite32 0x41458525#32 ∧ |real32 0x41458525#32| ≤ 2 ^ (126 : Int) ∧
    |real32 0x41458525#32| ≤ 4194300 * real32 0x3a83126f#32 := by decide +kernel
example : Finite64 0x4028B0A3D70A3D71#64 ∧ |real64 0x4028B0A3D70A3D71#64| ≤ (2 ^ 51 - 4) * real32 0x3a83126f#32 := by decide +kernel

/-! ## From numbers to the codec's conditions -/

theorem sensible_valid {info : EncodingInfo} (h : SensibleInfo info) : ValidInfo ops info where
  step := h.step
  version := h.version
  option := h.option
  types := h.types
  inside := h.inside
  disjoint := h.disjoint
  resolution := by
    intro _ f hf r hr
    have hg := h.resolution f hf r hr
    obtain ⟨r1, r2, r3, r4⟩ := IEEE.good_res hg
    refine ⟨IEEE.le0_of_pos r4, IEEE.le0_of_pos ?_⟩
    obtain ⟨_, m2, m3⟩ := IEEE.multV_spec r1 (le_trans (IEEE.zpow_le_of_le (by norm_num)) r2) (r3.trans (IEEE.zpow_le_of_le (by norm_num)))
    have hp : 0 < 1 / b32.val r.toNat := by positivity
    have := (abs_le.1 m2).1
    have h' : (2 : ℚ) ^ (-24 : Int) * (1 / b32.val r.toNat) ≤ 1 / 2 * (1 / b32.val r.toNat) :=
      mul_le_mul_of_nonneg_right (by norm_num) hp.le
    linarith

theorem within_inRange {info : EncodingInfo} (hi : SensibleInfo info) {k : Nat} {f : PointField} (hk : info.fields[k]? = some f)
    {bs : List Byte} (h : WithinSteps (2 ^ 29) (2 ^ 61) (2 ^ 61) info k f bs) : InRange ops info k f bs := by
  obtain ⟨h1, h2⟩ := h
  have hf := List.mem_of_getElem? hk
  unfold InRange
  split
  · trivial
  · exact h1 (Or.inl (by assumption))
  · exact h1 (Or.inr (by assumption))
  · rename_i ho ht hr
    have hg := hi.resolution f hf _ hr
    have hr0 := lt_of_lt_of_le (IEEE.two_zpow_pos _) hg.2.1
    rcases (h2 ho _ hr).1 ht with hn | ⟨a, b, c⟩
    · exact Or.inl hn
    · right
      split
      · next hlt =>
        rw [if_pos hlt] at c
        obtain ⟨n, g1, _, g3, _⟩ := IEEE.cycleV hg a b c
        unfold asFloat at g1
        rw [g1]; exact g3
      · next hlt =>
        rw [if_neg hlt] at c
        obtain ⟨n, g1, _, g3, _⟩ := IEEE.cycle32 hg a b c
        exact ⟨_, g1, g3⟩
  · rename_i ho ht hr
    have hg := hi.resolution f hf _ hr
    rcases (h2 ho _ hr).2 ht with hn | ⟨a, c⟩
    · exact Or.inl hn
    · right
      obtain ⟨n, g1, _, g3, _⟩ := IEEE.cycle64 hg a c
      exact ⟨_, g1, g3⟩
  · trivial

theorem within_valid {info : EncodingInfo} (hi : SensibleInfo info) {cloud : List Byte}
    (h : CloudWithin (2 ^ 29) (2 ^ 61) (2 ^ 61) info cloud) : ValidCloud ops info cloud where
  size := h.size
  addressable := h.addressable
  range := follows_of_range fun i hlt k f hk => within_inRange hi hk (h.range i hlt k f hk)

theorem within_mono {v1 o1 d1 v2 o2 d2 : ℚ} {info : EncodingInfo} (hi : SensibleInfo info) {cloud : List Byte}
    (h : CloudWithin v1 o1 d1 info cloud) (hv : v1 ≤ v2) (ho : o1 ≤ o2) (hd : d1 ≤ d2) : CloudWithin v2 o2 d2 info cloud where
  size := h.size
  addressable := h.addressable
  range := by
    intro i hlt k f hk
    obtain ⟨h1, h2⟩ := h.range i hlt k f hk
    refine ⟨h1, fun hl r hr => ?_⟩
    have hg := hi.resolution f (List.mem_of_getElem? hk) r hr
    have hr0 := lt_of_lt_of_le (IEEE.two_zpow_pos _) hg.2.1
    obtain ⟨g1, g2⟩ := h2 hl r hr
    refine ⟨fun ht => ?_, fun ht => ?_⟩
    · rcases g1 ht with hn | ⟨a, b, c⟩
      · exact Or.inl hn
      · refine Or.inr ⟨a, b, c.trans (mul_le_mul_of_nonneg_right ?_ hr0.le)⟩
        split <;> assumption
    · rcases g2 ht with hn | ⟨a, c⟩
      · exact Or.inl hn
      · exact Or.inr ⟨a, c.trans (mul_le_mul_of_nonneg_right hd hr0.le)⟩

/-! ## C11 for whole clouds -/

/-- The decoded number is close to the original one: half a step and the rounding of the `float` multiplications. -/
def Close32 (r x y : BitVec 32) : Prop :=
  (isNaN32 x = true → isNaN32 y = true) ∧
  (isNaN32 x = false → Finite32 y ∧
    |real32 y - real32 x| ≤ real32 r / 2 + 2 ^ (-22 : Int) * real32 r + (2 ^ (-22 : Int) + 2 ^ (-44 : Int)) * |real32 x|)
def Close64 (r : BitVec 32) (x y : BitVec 64) : Prop :=
  (isNaN64 x = true → isNaN64 y = true) ∧
  (isNaN64 x = false → Finite64 y ∧
    |real64 y - real64 x| ≤ real32 r / 2 + 2 ^ (-51 : Int) * real32 r + (2 ^ (-51 : Int) + 2 ^ (-102 : Int)) * |real64 x|)

theorem asFloat_toLE (x : BitVec 32) : asFloat (toLE 4 x.toNat) = x := by
  unfold asFloat
  rw [fromLE_toLE, Nat.mod_eq_of_lt (by have := x.isLt; omega), BitVec.ofNat_toNat, BitVec.setWidth_eq]
theorem asDouble_toLE (x : BitVec 64) : asDouble (toLE 8 x.toNat) = x := by
  unfold asDouble
  rw [fromLE_toLE, Nat.mod_eq_of_lt (by have := x.isLt; omega), BitVec.ofNat_toNat, BitVec.setWidth_eq]

/-- **C11 (partial).** Encode any cloud within 2^29 steps (2^61 outside the leading group) with an encoder of any history and
decode the result: every NaN is a NaN again, every other lossy value is finite and within half a step plus rounding, every other
field is bit-identical.  Missing: values beyond those limits (`C11_vector_overflow`) and what C18 leaves out. -/
theorem C11_cloud_partial (C : Compressor) (hC : C.Lawful) (info : EncodingInfo) (header : List Byte)
    (enc enc' : Encoder) (cloud out : List Byte) (room size fuel : Nat)
    (hinfo : SensibleInfo info) (hcloud : CloudWithin (2 ^ 29) (2 ^ 61) (2 ^ 61) info cloud) (hreach : Reach ops C info header enc)
    (henc : encodeView ops C enc cloud room false = .ok (enc', out, size))
    (h64 : FieldLimit info)
    (hlim : info.compression_opt = .none ∨ ChunksWithin ops enc cloud cloud.length)
    (hlz : info.compression_opt = .lz4 → cloud.length ≤ intMax)
    (hmagic : out.take 10 ≠ magic)
    (buf : List Byte) (hbuf : cloud.length ≤ buf.length) :
    ∃ buf', decodeCloud ops C fuel info out buf = .ok buf' ∧ buf'.length = buf.length ∧
      ∀ i, i < info.width.toNat * info.height.toNat → ∀ (k : Nat) (f : PointField), info.fields[k]? = some f →
        let old := cell cloud 0 info.point_step.toNat i f.offset.toNat (sizeOf f.type)
        let new := cell buf' 0 info.point_step.toNat i f.offset.toNat (sizeOf f.type)
        match info.encoding_opt, f.type, f.resolution with
        | .lossy, .float32, some r => Close32 r (asFloat old) (asFloat new)
        | .lossy, .float64, some r => Close64 r (asDouble old) (asDouble new)
        | _, _, _ => new = old := by
  obtain ⟨buf', d1, d2, d3⟩ := C18_cloud_roundtrip_partial ops C hC info header enc enc' cloud out room size fuel (sensible_valid hinfo)
    (within_valid hinfo hcloud) hreach henc h64 hlim hlz hmagic buf hbuf
  refine ⟨buf', d1, d2, ?_⟩
  intro i hi k f hk
  have hd := d3 i hi k f hk
  have hw := hcloud.range i hi k f hk
  simp only
  rw [hd]
  generalize cell cloud 0 info.point_step.toNat i f.offset.toNat (sizeOf f.type) = bs at hw ⊢
  clear hd d3
  unfold expected
  obtain ⟨w1, w2⟩ := hw
  split
  · rename_i ho ht hr
    have hg := hinfo.resolution f (List.mem_of_getElem? hk) _ hr
    simp only [ho, ht, hr]
    rw [asFloat_toLE]
    have w := (w2 ho _ hr).1 ht
    have hr0 := lt_of_lt_of_le (IEEE.two_zpow_pos _) hg.2.1
    refine ⟨fun hn => ?_, fun hn => ?_⟩
    · split
      · exact ((C10_nan_iff ops _ _).2 (C10_finite_resolution _ hg.1).2.1).trans hn
      · exact ((C10_nan_iff ops _ _).1 (C10_finite_resolution _ hg.1).1).trans hn
    · rcases w with w | ⟨a, b, c⟩
      · rw [w] at hn; simp at hn
      · split
        · next hlt => rw [if_pos hlt] at c; exact C11_vector _ _ hg a b c
        · next hlt => rw [if_neg hlt] at c; exact C11_float32 _ _ hg a b c
  · rename_i ho ht hr
    have hg := hinfo.resolution f (List.mem_of_getElem? hk) _ hr
    simp only [ho, ht, hr]
    rw [asDouble_toLE]
    refine ⟨fun hn => ?_, fun hn => ?_⟩
    · exact (C10_nan_iff64 ops _ _ (C10_finite_resolution _ hg.1).2.2).trans hn
    · rcases (w2 ho _ hr).2 ht with w | ⟨a, c⟩
      · rw [w] at hn; simp at hn
      · exact C11_float64 _ _ hg a c
  · rename_i hn1 hn2
    split
    · exact (hn1 _ (by assumption) (by assumption) (by assumption)).elim
    · exact (hn2 _ (by assumption) (by assumption) (by assumption)).elim
    · rfl

/-! ## C12 for whole clouds -/

theorem expected_twice {info : EncodingInfo} (hi : SensibleInfo info) {k : Nat} {f : PointField} (hk : info.fields[k]? = some f)
    {bs : List Byte} (h : WithinSteps 4194300 4194300 (2 ^ 51 - 4) info k f bs) :
    InRange ops info k f (expected ops info k f bs) ∧ expected ops info k f (expected ops info k f bs) = expected ops info k f bs := by
  obtain ⟨w1, w2⟩ := h
  have hf := List.mem_of_getElem? hk
  have hq : isNaN32 qNaN32 = true := by decide
  have hq64 : isNaN64 qNaN64 = true := by decide
  rcases hi.option with ho | ho | ho
  · exact ⟨by unfold InRange; rw [ho]; trivial, by unfold expected; rw [ho]⟩
  · cases ht : f.type with
    | float32 =>
      cases hr : f.resolution with
      | none => exact ⟨by unfold InRange; rw [ho, ht, hr]; trivial, by unfold expected; rw [ho, ht, hr]⟩
      | some r =>
        have hg := hi.resolution f hf _ hr
        have w := (w2 ho _ hr).1 ht
        unfold InRange expected
        simp only [ho, ht, hr]
        have e : ∀ y : BitVec 32, BitVec.ofNat 32 (fromLE (toLE 4 y.toNat)) = y := asFloat_toLE
        rw [e]
        change _ ∧ toLE 4 (if k < groupSize info then memorylessV ops r (if k < groupSize info then memorylessV ops r (asFloat bs) else memoryless32 ops r (asFloat bs))
          else memoryless32 ops r (if k < groupSize info then memorylessV ops r (asFloat bs) else memoryless32 ops r (asFloat bs))).toNat =
          toLE 4 (if k < groupSize info then memorylessV ops r (asFloat bs) else memoryless32 ops r (asFloat bs)).toNat
        change (isNaN32 (if k < groupSize info then memorylessV ops r (asFloat bs) else memoryless32 ops r (asFloat bs)) = true ∨
          if k < groupSize info then Fits30 (ops.quantV r (if k < groupSize info then memorylessV ops r (asFloat bs) else memoryless32 ops r (asFloat bs)))
          else ∃ q, ops.quant32 r (if k < groupSize info then memorylessV ops r (asFloat bs) else memoryless32 ops r (asFloat bs)) = some q ∧ Fits62 q) ∧ _
        by_cases hlt : k < groupSize info
        · simp only [if_pos hlt] at w ⊢
          rcases w with w | ⟨a, b, c⟩
          · have : memorylessV ops r (asFloat bs) = qNaN32 := by unfold memorylessV; rw [w]; rfl
            rw [this]
            refine ⟨Or.inl hq, ?_⟩
            unfold memorylessV; rw [hq]; rfl
          · obtain ⟨v1, ⟨v2, v3⟩, v4⟩ := C12_vector_values r _ hg a b c
            exact ⟨Or.inr (by rw [v3]; exact v2), by rw [v4]⟩
        · simp only [if_neg hlt] at w ⊢
          rcases w with w | ⟨a, b, c⟩
          · have : memoryless32 ops r (asFloat bs) = qNaN32 := by unfold memoryless32; rw [w]; rfl
            rw [this]
            refine ⟨Or.inl hq, ?_⟩
            unfold memoryless32; rw [hq]; rfl
          · obtain ⟨v1, ⟨q, _, v2, v3⟩, v4⟩ := C12_float32_values r _ hg a b c
            exact ⟨Or.inr ⟨q, v3, v2⟩, by rw [v4]⟩
    | float64 =>
      cases hr : f.resolution with
      | none => exact ⟨by unfold InRange; rw [ho, ht, hr]; trivial, by unfold expected; rw [ho, ht, hr]⟩
      | some r =>
        have hg := hi.resolution f hf _ hr
        have w := (w2 ho _ hr).2 ht
        unfold InRange expected
        simp only [ho, ht, hr]
        have e : ∀ y : BitVec 64, BitVec.ofNat 64 (fromLE (toLE 8 y.toNat)) = y := asDouble_toLE
        rw [e]
        change (isNaN64 (memoryless64 ops r (asDouble bs)) = true ∨ ∃ q, ops.quant64 r (memoryless64 ops r (asDouble bs)) = some q ∧ Fits62 q) ∧
          toLE 8 (memoryless64 ops r (memoryless64 ops r (asDouble bs))).toNat = toLE 8 (memoryless64 ops r (asDouble bs)).toNat
        rcases w with w | ⟨a, c⟩
        · have : memoryless64 ops r (asDouble bs) = qNaN64 := by unfold memoryless64; rw [w]; rfl
          rw [this]
          refine ⟨Or.inl hq64, ?_⟩
          unfold memoryless64; rw [hq64]; rfl
        · obtain ⟨v1, ⟨q, _, v2, v3⟩, v4⟩ := C12_float64_values r _ hg a c
          exact ⟨Or.inr ⟨q, v3, v2⟩, by rw [v4]⟩
    | int64 => exact ⟨by unfold InRange expected; rw [ho, ht]; exact w1 (Or.inl ht), by unfold expected; rw [ho, ht]⟩
    | uint64 => exact ⟨by unfold InRange expected; rw [ho, ht]; exact w1 (Or.inr ht), by unfold expected; rw [ho, ht]⟩
    | _ => exact ⟨by unfold InRange expected; rw [ho, ht]; trivial, by unfold expected; rw [ho, ht]⟩
  · cases ht : f.type with
    | int64 => exact ⟨by unfold InRange expected; rw [ho, ht]; exact w1 (Or.inl ht), by unfold expected; rw [ho, ht]⟩
    | uint64 => exact ⟨by unfold InRange expected; rw [ho, ht]; exact w1 (Or.inr ht), by unfold expected; rw [ho, ht]⟩
    | _ => exact ⟨by unfold InRange expected; rw [ho, ht]; trivial, by unfold expected; rw [ho, ht]⟩

/-- **C12 (partial).** Encode a cloud of at most 4194300 steps (2^51 - 4 for doubles) and decode it; encode the decoded buffer
with any encoder for the same description and decode again: every field of every point is what it was after the first
decoding, bit for bit.  Missing: more steps (false: `C12_float32_fails`), and what C18 leaves out. -/
theorem C12_cloud_partial (C : Compressor) (hC : C.Lawful) (info : EncodingInfo) (header header2 : List Byte)
    (enc enc' enc2 enc2' : Encoder) (cloud out out2 : List Byte) (room size room2 size2 fuel : Nat)
    (hinfo : SensibleInfo info) (hcloud : CloudWithin 4194300 4194300 (2 ^ 51 - 4) info cloud)
    (h64 : FieldLimit info)
    (hreach : Reach ops C info header enc) (henc : encodeView ops C enc cloud room false = .ok (enc', out, size))
    (hlim : info.compression_opt = .none ∨ ChunksWithin ops enc cloud cloud.length)
    (hlz : info.compression_opt = .lz4 → cloud.length ≤ intMax) (hmagic : out.take 10 ≠ magic)
    (buf once : List Byte) (hbuf : buf.length = cloud.length) (hdec : decodeCloud ops C fuel info out buf = .ok once)
    (hreach2 : Reach ops C info header2 enc2) (henc2 : encodeView ops C enc2 once room2 false = .ok (enc2', out2, size2))
    (hlim2 : info.compression_opt = .none ∨ ChunksWithin ops enc2 once once.length) (hmagic2 : out2.take 10 ≠ magic)
    (buf2 : List Byte) (hbuf2 : cloud.length ≤ buf2.length) :
    ∃ twice, decodeCloud ops C fuel info out2 buf2 = .ok twice ∧ twice.length = buf2.length ∧
      ∀ i, i < info.width.toNat * info.height.toNat → ∀ (k : Nat) (f : PointField), info.fields[k]? = some f →
        cell twice 0 info.point_step.toNat i f.offset.toNat (sizeOf f.type) =
          cell once 0 info.point_step.toNat i f.offset.toNat (sizeOf f.type) := by
  have hwide : CloudWithin (2 ^ 29) (2 ^ 61) (2 ^ 61) info cloud := within_mono hinfo hcloud (by norm_num) (by norm_num) (by norm_num)
  obtain ⟨once', d1, d2, d3⟩ := C18_cloud_roundtrip_partial ops C hC info header enc enc' cloud out room size fuel (sensible_valid hinfo)
    (within_valid hinfo hwide) hreach henc h64 hlim hlz hmagic buf (by omega)
  rw [hdec, Res.ok.injEq] at d1
  subst d1
  have hc2 : ValidCloud ops info once :=
    { size := by rw [d2, hbuf, hcloud.size]
      addressable := by rw [d2, hbuf]; exact hcloud.addressable
      range := follows_of_range <| by
        intro i hi k f hk
        rw [d3 i hi k f hk]
        exact (expected_twice hinfo hk (hcloud.range i hi k f hk)).1 }
  obtain ⟨twice, t1, t2, t3⟩ := C18_cloud_roundtrip_partial ops C hC info header2 enc2 enc2' once out2 room2 size2 fuel (sensible_valid hinfo)
    hc2 hreach2 henc2 h64 hlim2 (fun h => by rw [d2, hbuf]; exact hlz h) hmagic2 buf2 (by omega)
  refine ⟨twice, t1, t2, ?_⟩
  intro i hi k f hk
  rw [t3 i hi k f hk, d3 i hi k f hk]
  exact (expected_twice hinfo hk (hcloud.range i hi k f hk)).2

/-! ## A concrete cloud -/

/-- x, y, z in millimetres, a 16-bit intensity, a range in centimetres and a time stamp in milliseconds. -/
def numInfo : EncodingInfo :=
  { fields := [{ name := [0x78#8], offset := 0#32, type := .float32, resolution := some 0x3a83126f#32 },
               { name := [0x79#8], offset := 4#32, type := .float32, resolution := some 0x3a83126f#32 },
               { name := [0x7a#8], offset := 8#32, type := .float32, resolution := some 0x3a83126f#32 },
               { name := [0x69#8], offset := 12#32, type := .uint16 },
               { name := [0x72#8], offset := 16#32, type := .float32, resolution := some 0x3c23d70a#32 },
               { name := [0x74#8], offset := 20#32, type := .float64, resolution := some 0x3a83126f#32 }],
    width := 2#32, height := 1#32, point_step := 28#32, encoding_opt := .lossy, compression_opt := .none, version := 5#8 }

/-- (12.345, -0.0005, NaN; 7; 100.456; 1700000000.1234) and (-3.25, 1e-9, 4000; 8; NaN; 1700000000.2234). -/
def numCloud : List Byte :=
  toLE 4 0x4145851f ++ toLE 4 0xba03126f ++ toLE 4 0x7fc00000 ++ toLE 2 7 ++ [0#8, 0#8] ++ toLE 4 0x42c8e979 ++ toLE 8 0x41d954fc4007e5c9 ++
  (toLE 4 0xc0500000 ++ toLE 4 0x3089705f ++ toLE 4 0x457a0000 ++ toLE 2 8 ++ [0#8, 0#8] ++ toLE 4 0xffc00001 ++ toLE 8 0x41d954fc400e4c30)

theorem num_sensible : SensibleInfo numInfo where
  step := by decide
  version := by decide
  option := by decide
  types := by decide
  inside := by decide
  disjoint := by decide
  resolution := by
    intro f hf r hr
    simp only [numInfo, List.mem_cons, List.not_mem_nil, or_false] at hf
    rcases hf with rfl | rfl | rfl | rfl | rfl | rfl <;> simp at hr <;> subst hr <;> decide +kernel

theorem num_within : CloudWithin 4194300 4194300 (2 ^ 51 - 4) numInfo numCloud where
  size := by decide +kernel
  addressable := by decide +kernel
  range := by
    intro i hi k f hk
    have hi : i < 2 := hi
    have hlt : k < 6 := (List.getElem?_eq_some_iff.1 hk).1
    have h1 : i = 0 ∨ i = 1 := by omega
    have h2 : k = 0 ∨ k = 1 ∨ k = 2 ∨ k = 3 ∨ k = 4 ∨ k = 5 := by omega
    rcases h1 with rfl | rfl <;> rcases h2 with rfl | rfl | rfl | rfl | rfl | rfl <;>
      simp only [numInfo, List.getElem?_cons_zero, List.getElem?_cons_succ, Option.some.injEq] at hk <;> subst hk <;>
      refine ⟨fun h => by simp at h, fun _ r hr => ?_⟩ <;> simp at hr <;> subst hr <;>
      refine ⟨fun h => ?_, fun h => ?_⟩ <;> first | (simp at h; done) | decide +kernel

def numEnc : Encoder := ⟨numInfo, [], []⟩
theorem num_reach (C : Compressor) : Reach ops C numInfo [] numEnc := .fresh _ (by decide +kernel)

def numOut : List Byte :=
  match encodeView ops storeComp numEnc numCloud 10000 false with
  | .ok r => r.2.1
  | _ => []
theorem num_encode : encodeView ops storeComp numEnc numCloud 10000 false = .ok (numEnc, numOut, numOut.length) := by decide +kernel

def numOnce : List Byte :=
  match decodeCloud ops storeComp 0 numInfo numOut (List.replicate 56 0#8) with
  | .ok r => r
  | _ => []
theorem num_decode : decodeCloud ops storeComp 0 numInfo numOut (List.replicate 56 0#8) = .ok numOnce := by decide +kernel

def numOut2 : List Byte :=
  match encodeView ops storeComp numEnc numOnce 10000 false with
  | .ok r => r.2.1
  | _ => []
theorem num_encode2 : encodeView ops storeComp numEnc numOnce 10000 false = .ok (numEnc, numOut2, numOut2.length) := by decide +kernel

/-- It meets every hypothesis of both theorems. -/
example : ∃ buf', decodeCloud ops storeComp 0 numInfo numOut (List.replicate 56 0#8) = .ok buf' ∧ buf'.length = 56 := by
  obtain ⟨buf', h1, h2, _⟩ := C11_cloud_partial storeComp storeComp_lawful numInfo [] numEnc numEnc numCloud numOut 10000 numOut.length 0
    num_sensible (within_mono num_sensible num_within (by norm_num) (by norm_num) (by norm_num)) (num_reach _) num_encode (by decide)
    (Or.inl rfl) (fun h => by simp [numInfo] at h) (by decide +kernel) (List.replicate 56 0#8) (by decide +kernel)
  exact ⟨buf', h1, by simpa using h2⟩

example : ∃ twice, decodeCloud ops storeComp 0 numInfo numOut2 (List.replicate 56 0#8) = .ok twice ∧ twice.length = 56 := by
  obtain ⟨twice, h1, h2, _⟩ := C12_cloud_partial storeComp storeComp_lawful numInfo [] [] numEnc numEnc numEnc numEnc numCloud numOut numOut2
    10000 numOut.length 10000 numOut2.length 0 num_sensible num_within (by decide) (num_reach _) num_encode
    (Or.inl rfl) (fun h => by simp [numInfo] at h) (by decide +kernel) (List.replicate 56 0#8) numOnce (by decide +kernel) num_decode
    (num_reach _) num_encode2 (Or.inl rfl) (by decide +kernel) (List.replicate 56 0#8) (by decide +kernel)
  exact ⟨twice, h1, by simpa using h2⟩

/-- The quantisation did change the cloud the first time. -/
example : numOnce ≠ numCloud ∧ numOut2 = numOut := by decide +kernel

end Cloudini.Props
