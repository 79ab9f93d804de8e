import Verif.Lemmas.FloatText
import Verif.Lemmas.FileTrip
import Verif.Lemmas.Retune
import Verif.Props.C11_cloud

/-!
# C68: resolutions in the header

`FloatTxt.text` is how the library prints a resolution (`operator<<`, six significant digits) and reads it (`std::stof`).
-/

namespace Cloudini.Props
open IEEE (b32)
open FloatTxt (text sixVal)

/-- The float nearest to a decimal of at most six significant digits - what `0.001f`, `0.025f` or `1e-3f` in a program is. -/
def SixDigits (r : BitVec 32) : Prop := ∃ (n : Nat) (e : Int), n < 10 ^ 6 ∧ Nearest32 r ((n : ℚ) * 10 ^ e)

/-- **C68, the assumption of C18-C63.** What those properties ask of the conversions between floats and text holds of the library's. -/
theorem C68_lawful : text.Lawful := FloatTxt.text_lawful

theorem pos_mag {r : BitVec 32} (h : 0 < b32.val r.toNat) :
    b32.neg r.toNat = false ∧ b32.val r.toNat = b32.magVal (b32.mag r.toNat) ∧ b32.mag r.toNat = r.toNat ∧ b32.mag r.toNat ≠ 0 := by
  have hn : b32.neg r.toNat = false := by
    by_contra hc
    rw [Bool.not_eq_false] at hc
    have := b32.magVal_nonneg (b32.mag r.toNat)
    rw [IEEE.Fmt.val, hc, if_pos rfl] at h
    linarith
  have hv : b32.val r.toNat = b32.magVal (b32.mag r.toNat) := by rw [IEEE.Fmt.val, hn]; simp
  refine ⟨hn, hv, ?_, fun h0 => ?_⟩
  · have : ¬ b32.sgn ≤ r.toNat := by simpa [IEEE.Fmt.neg] using hn
    exact Nat.mod_eq_of_lt (by omega)
  · rw [hv, h0, IEEE.Fmt.magVal_zero] at h
    exact lt_irrefl _ h

theorem abs_le_two {a b : ℚ} (h : |a| ≤ b) : -b ≤ a ∧ a ≤ b := abs_le.1 h

theorem real_pow (k : Nat) (hk : k < 254) : Finite32 (BitVec.ofNat 32 ((k + 1) * 2 ^ 23)) ∧
    real32 (BitVec.ofNat 32 ((k + 1) * 2 ^ 23)) = 2 ^ ((k : Int) - 126) := by
  have ht : (BitVec.ofNat 32 ((k + 1) * 2 ^ 23)).toNat = (k + 1) * 2 ^ 23 := by
    rw [BitVec.toNat_ofNat]; exact Nat.mod_eq_of_lt (by omega)
  unfold Finite32 real32
  simp only
  rw [ht]
  have e1 : (k + 1) * 2 ^ 23 / 2 ^ 31 = 0 := by omega
  have e2 : (k + 1) * 2 ^ 23 / 2 ^ 23 % 2 ^ 8 = k + 1 := by omega
  have e3 : (k + 1) * 2 ^ 23 % 2 ^ 23 = 0 := by omega
  rw [e1, e2, e3]
  refine ⟨by omega, ?_⟩
  rw [if_neg (by omega)]
  push_cast
  rw [pow_zero, one_mul, add_zero]
  rw [show ((k : Int) - 126) = 23 + ((k : Int) + 1 - 150) by ring, zpow_add₀ (by norm_num)]
  norm_num

/-- A resolution in the usual range that is nearest to `D`: `D` is in the usual range too, and `r` is `D` rounded. -/
theorem nearest_round {r : BitVec 32} (hr : GoodRes r) {D : ℚ} (h0 : 0 ≤ D) (h : Nearest32 r D) :
    (2 : ℚ) ^ (-126 : Int) ≤ D ∧ D ≤ 2 ^ (127 : Int) ∧ r.toNat = b32.round D := by
  obtain ⟨g1, g2, g3, g4⟩ := IEEE.good_res hr
  have hreal := IEEE.real32_eq r
  obtain ⟨_, near⟩ := h
  have hlo : (2 : ℚ) ^ (-126 : Int) ≤ D := by
    by_contra hc
    have hc := not_le.1 hc
    obtain ⟨f1, f2⟩ := real_pow 0 (by decide)
    have := (near _ f1).1
    rw [f2, hreal] at this
    have h125 : (2 : ℚ) ^ (-125 : Int) = 2 * 2 ^ (-126 : Int) := by norm_num
    rw [h125] at g2
    have hp : (0 : ℚ) < 2 ^ (-126 : Int) := by positivity
    rw [show ((0 : Nat) : Int) - 126 = -126 by rfl] at this
    rw [abs_of_pos (by linarith), abs_of_pos (by linarith)] at this
    linarith
  have hhi : D ≤ 2 ^ (127 : Int) := by
    by_contra hc
    have hc := not_le.1 hc
    obtain ⟨f1, f2⟩ := real_pow 252 (by decide)
    have := (near _ f1).1
    rw [f2, hreal] at this
    rw [show ((252 : Nat) : Int) - 126 = 126 by rfl] at this
    have a1 : (2 : ℚ) ^ (125 : Int) < 2 ^ (126 : Int) := IEEE.zpow_lt_of_lt (by decide)
    have a2 : (2 : ℚ) ^ (126 : Int) < 2 ^ (127 : Int) := IEEE.zpow_lt_of_lt (by decide)
    rw [abs_of_neg (by linarith), abs_of_neg (by linarith)] at this
    linarith
  refine ⟨hlo, hhi, ?_⟩
  have htop : D ≤ 2 ^ b32.top := by rw [IEEE.b32_top]; exact hhi
  obtain ⟨p1, p2, p3, p4⟩ := pos_mag g4
  rw [← p3]
  have hlt : b32.mag r.toNat < b32.inf := by simpa [IEEE.Fmt.isFin] using g1
  obtain ⟨c1, c2⟩ := nearest32 (s := false) (q := D) (by simp [IEEE.Fmt.SignOk, h0]) (by rw [abs_of_nonneg h0]; exact hhi)
  have hof : b32.ofRat false D = b32.round D := by unfold IEEE.Fmt.ofRat; rw [abs_of_nonneg h0]; simp
  have hrn : b32.round D < b32.inf := (b32.round_lt_inf IEEE.Fmt.b32_ok h0 htop).1
  have hval : real32 (BitVec.ofNat 32 (b32.ofRat false D)) = b32.magVal (b32.round D) := by
    rw [IEEE.real32_eq, c2, hof]
    have hs : b32.round D < b32.sgn := lt_trans hrn (by decide +kernel)
    have hneg : b32.neg (b32.round D) = false := by simp only [IEEE.Fmt.neg, decide_eq_false_iff_not]; omega
    rw [IEEE.Fmt.val, hneg, IEEE.Fmt.mag, Nat.mod_eq_of_lt hs]; simp
  obtain ⟨n1, n2⟩ := near _ c1.1
  rw [hval, hreal, p2] at n1 n2
  obtain ⟨q1, _⟩ := b32.round_nearest IEEE.Fmt.b32_ok h0 htop _ hlt
  apply FloatTxt.round_unique b32 IEEE.Fmt.b32_ok h0 htop hlt n1
  intro hne
  rw [p3]
  exact n2 hne (le_antisymm n1 q1)

/-- `stof` of a number in the normal range. -/
theorem toFloat_ok {q : ℚ} (h1 : (2 : ℚ) ^ (-126 : Int) ≤ q) (h2 : q ≤ 2 ^ (127 : Int)) :
    FloatTxt.toFloat false q = .ok (BitVec.ofNat 32 (b32.round q)) ∧ b32.round q < b32.inf ∧ 2 ^ 23 ≤ b32.round q := by
  have hpos : 0 < q := lt_of_lt_of_le (by positivity) h1
  have htop : q ≤ 2 ^ b32.top := by rw [IEEE.b32_top]; exact h2
  obtain ⟨a, _⟩ := b32.round_lt_inf IEEE.Fmt.b32_ok hpos.le htop
  have hb : 2 ^ 23 ≤ b32.round q := by
    by_contra hc
    have hv : b32.magVal (2 ^ 23) = 2 ^ (-126 : Int) := by decide +kernel
    have hlt := FloatTxt.magVal_strict b32 (not_le.1 hc)
    rw [hv] at hlt
    obtain ⟨n1, _⟩ := b32.round_nearest IEEE.Fmt.b32_ok hpos.le htop (2 ^ 23) (by decide +kernel)
    rw [hv] at n1
    rw [abs_of_nonpos (by linarith), abs_of_nonpos (by linarith)] at n1
    linarith
  refine ⟨?_, a, hb⟩
  unfold FloatTxt.toFloat
  simp only
  rw [if_neg a.ne, if_neg (fun h => absurd h.1 (by omega))]
  simp

/-- **C68.** A resolution of at most six significant digits - any size from 2^-125 to 2^125 - comes back from the header as the same float. -/
theorem C68_six_digits (r : BitVec 32) (hr : GoodRes r) (h6 : SixDigits r) : text.parse (text.print r) = .ok r := by
  obtain ⟨n, e, hn, near⟩ := h6
  obtain ⟨g1, g2, g3, g4⟩ := IEEE.good_res hr
  obtain ⟨p1, p2, p3, p4⟩ := pos_mag g4
  have hD0 : 0 ≤ (n : ℚ) * 10 ^ e := by positivity
  obtain ⟨d1, d2, d3⟩ := nearest_round hr hD0 near
  have hDpos : 0 < (n : ℚ) * 10 ^ e := lt_of_lt_of_le (by positivity) d1
  have hn0 : 0 < n := by
    rcases Nat.eq_zero_or_pos n with h | h
    · subst h; simp at hDpos
    · exact h
  obtain ⟨m, j, m1, m2, m3⟩ := FloatTxt.normalize_six hn0 hn
  have hmD : (m : ℚ) * 10 ^ (e - j) = (n : ℚ) * 10 ^ e := by
    rw [m3]; push_cast
    rw [mul_assoc, ← zpow_natCast (10 : ℚ) j, ← zpow_add₀ (by norm_num)]
    congr 2; ring
  have herr := (b32.round_err IEEE.Fmt.b32_ok hD0 (by rw [IEEE.b32_top]; exact d2)).2 (by
    rw [show b32.lo + (b32.mb : Int) = -126 by rfl]; exact d1)
  rw [← d3, show (-((b32.mb : Int) + 1)) = -24 by rfl, ← hmD] at herr
  have hsix := FloatTxt.six_of_close m1 m2 (v := b32.magVal r.toNat) herr
  show FloatTxt.parse (FloatTxt.print r) = _
  rw [FloatTxt.parse_print g1 p4, p1, p3]
  have hval : sixVal (b32.magVal r.toNat) = (n : ℚ) * 10 ^ e := by
    unfold sixVal
    rw [hsix]
    simp only
    rw [add_sub_cancel_right]
    exact hmD
  rw [hval, (toFloat_ok d1 d2).1, ← d3]
  simp

/-- **C68, any resolution.** It comes back within six millionths of itself. -/
theorem C68_error (r : BitVec 32) (hr : GoodRes r) :
    ∃ r', text.parse (text.print r) = .ok r' ∧ Finite32 r' ∧ |real32 r' - real32 r| ≤ 6 / 10 ^ 6 * real32 r := by
  obtain ⟨g1, g2, g3, g4⟩ := IEEE.good_res hr
  obtain ⟨p1, p2, p3, p4⟩ := pos_mag g4
  have hreal := IEEE.real32_eq r
  have hv := hreal.trans p2
  have herr := FloatTxt.sixVal_err (b32.magVal_pos p4)
  rw [p2] at g2 g3 g4
  rw [hv]
  generalize hvv : b32.magVal (b32.mag r.toNat) = v at *
  obtain ⟨e1, e2⟩ := abs_le.1 herr
  have a1 : (2 : ℚ) ^ (-125 : Int) = 2 * 2 ^ (-126 : Int) := by norm_num
  have a2 : (2 : ℚ) ^ (127 : Int) = 4 * 2 ^ (125 : Int) := by norm_num
  have d1 : (2 : ℚ) ^ (-126 : Int) ≤ sixVal v := by rw [a1] at g2; linarith
  have d2 : sixVal v ≤ 2 ^ (127 : Int) := by rw [a2]; linarith
  obtain ⟨t1, t2, t3⟩ := toFloat_ok d1 d2
  have hpos : 0 < sixVal v := lt_of_lt_of_le (by positivity) d1
  have htn : (BitVec.ofNat 32 (b32.round (sixVal v))).toNat = b32.round (sixVal v) := by
    rw [BitVec.toNat_ofNat]
    apply Nat.mod_eq_of_lt
    exact lt_trans t2 (by decide +kernel)
  have hs : b32.round (sixVal v) < b32.sgn := lt_trans t2 (by decide +kernel)
  have hneg : b32.neg (b32.round (sixVal v)) = false := by simp only [IEEE.Fmt.neg, decide_eq_false_iff_not]; omega
  refine ⟨BitVec.ofNat 32 (b32.round (sixVal v)), ?_, ?_, ?_⟩
  · show FloatTxt.parse (FloatTxt.print r) = _
    rw [FloatTxt.parse_print g1 p4, p1, hvv, t1]
  · rw [← IEEE.fin32_iff, htn]
    simp only [IEEE.Fmt.isFin, decide_eq_true_eq, IEEE.Fmt.mag, Nat.mod_eq_of_lt hs]
    exact t2
  · rw [IEEE.real32_eq, htn, IEEE.Fmt.val, hneg, IEEE.Fmt.mag, Nat.mod_eq_of_lt hs]
    simp only [Bool.false_eq_true, if_false]
    have h2 := (b32.round_err IEEE.Fmt.b32_ok hpos.le (by rw [IEEE.b32_top]; exact d2)).2 (by
      rw [show b32.lo + (b32.mb : Int) = -126 by rfl]; exact d1)
    rw [show (-((b32.mb : Int) + 1)) = -24 by rfl, show (2 : ℚ) ^ (-24 : Int) = 1 / 16777216 by norm_num] at h2
    obtain ⟨f1, f2⟩ := abs_le.1 h2
    rw [abs_le]
    constructor <;> linarith

/-- **C68, stable.** What was read once - a cloud decoded and written again with the description from its header - is not changed again. -/
theorem C68_idempotent (r r' : BitVec 32) (hr : GoodRes r) (h : text.parse (text.print r) = .ok r') (hr' : GoodRes r') :
    text.parse (text.print r') = .ok r' := by
  apply C68_six_digits r' hr'
  obtain ⟨g1, g2, g3, g4⟩ := IEEE.good_res hr
  obtain ⟨p1, p2, p3, p4⟩ := pos_mag g4
  have hpos := b32.magVal_pos p4
  have herr := FloatTxt.sixVal_err hpos
  obtain ⟨s1, s2, _⟩ := FloatTxt.six_spec hpos
  rw [p2] at g2 g3 g4
  refine ⟨(FloatTxt.six (b32.magVal (b32.mag r.toNat))).1, (FloatTxt.six (b32.magVal (b32.mag r.toNat))).2 - 5, s2, ?_⟩
  change Nearest32 r' (sixVal (b32.magVal (b32.mag r.toNat)))
  have h : FloatTxt.parse (FloatTxt.print r) = .ok r' := h
  rw [FloatTxt.parse_print g1 p4, p1] at h
  generalize hvv : b32.magVal (b32.mag r.toNat) = v at *
  obtain ⟨e1, e2⟩ := abs_le.1 herr
  have a1 : (2 : ℚ) ^ (-125 : Int) = 2 * 2 ^ (-126 : Int) := by norm_num
  have a2 : (2 : ℚ) ^ (127 : Int) = 4 * 2 ^ (125 : Int) := by norm_num
  have d1 : (2 : ℚ) ^ (-126 : Int) ≤ sixVal v := by rw [a1] at g2; linarith
  have d2 : sixVal v ≤ 2 ^ (127 : Int) := by rw [a2]; linarith
  have hpos' : 0 < sixVal v := lt_of_lt_of_le (by positivity) d1
  rw [(toFloat_ok d1 d2).1, Res.ok.injEq] at h
  obtain ⟨c1, c2⟩ := nearest32 (s := false) (q := sixVal v) (by simp [IEEE.Fmt.SignOk, hpos'.le]) (by rw [abs_of_pos hpos']; exact d2)
  have hof : b32.ofRat false (sixVal v) = b32.round (sixVal v) := by unfold IEEE.Fmt.ofRat; rw [abs_of_pos hpos']; simp
  rw [hof, h] at c1
  exact c1

/-! ## Files -/

/-- The promise of C11 for one field: half a step plus the rounding of the multiplications; NaN stays NaN; what is not lossy is unchanged. -/
def Accurate (info : EncodingInfo) (f : PointField) (old new : List Byte) : Prop :=
  match info.encoding_opt, f.type, f.resolution with
  | .lossy, .float32, some r => Close32 r (asFloat old) (asFloat new)
  | .lossy, .float64, some r => Close64 r (asDouble old) (asDouble new)
  | _, _, _ => new = old

/-- The same with a relative error of seven millionths: what is left of the promise when the header rounds the resolution. -/
def Loose32 (r x y : BitVec 32) : Prop :=
  (isNaN32 x = true → isNaN32 y = true) ∧
  (isNaN32 x = false → Finite32 y ∧ |real32 y - real32 x| ≤ real32 r / 2 + 4 / 10 ^ 6 * real32 r + 7 / 10 ^ 6 * |real32 x|)
def Loose64 (r : BitVec 32) (x y : BitVec 64) : Prop :=
  (isNaN64 x = true → isNaN64 y = true) ∧
  (isNaN64 x = false → Finite64 y ∧ |real64 y - real64 x| ≤ real32 r / 2 + 4 / 10 ^ 6 * real32 r + 7 / 10 ^ 6 * |real64 x|)
def Roughly (info : EncodingInfo) (f : PointField) (old new : List Byte) : Prop :=
  match info.encoding_opt, f.type, f.resolution with
  | .lossy, .float32, some r => Loose32 r (asFloat old) (asFloat new)
  | .lossy, .float64, some r => Loose64 r (asDouble old) (asDouble new)
  | _, _, _ => new = old

theorem expected_accurate {info : EncodingInfo} (hi : SensibleInfo info) {k : Nat} {f : PointField} (hk : info.fields[k]? = some f)
    {bs : List Byte} (hw : WithinSteps (2 ^ 29) (2 ^ 61) (2 ^ 61) info k f bs) : Accurate info f bs (expected IEEE.ops info k f bs) := by
  unfold expected Accurate
  obtain ⟨w1, w2⟩ := hw
  split
  · rename_i ho ht hr
    have hg := hi.resolution f (List.mem_of_getElem? hk) _ hr
    simp only [ho, ht, hr]
    rw [asFloat_toLE]
    have w := (w2 ho _ hr).1 ht
    refine ⟨fun hn => ?_, fun hn => ?_⟩
    · split
      · exact ((C10_nan_iff IEEE.ops _ _).2 (C10_finite_resolution _ hg.1).2.1).trans hn
      · exact ((C10_nan_iff IEEE.ops _ _).1 (C10_finite_resolution _ hg.1).1).trans hn
    · rcases w with w | ⟨a, b, c⟩
      · rw [w] at hn; simp at hn
      · split
        · next hlt => rw [if_pos hlt] at c; exact C11_vector _ _ hg a b c
        · next hlt => rw [if_neg hlt] at c; exact C11_float32 _ _ hg a b c
  · rename_i ho ht hr
    have hg := hi.resolution f (List.mem_of_getElem? hk) _ hr
    simp only [ho, ht, hr]
    rw [asDouble_toLE]
    refine ⟨fun hn => ?_, fun hn => ?_⟩
    · exact (C10_nan_iff64 IEEE.ops _ _ (C10_finite_resolution _ hg.1).2.2).trans hn
    · rcases (w2 ho _ hr).2 ht with w | ⟨a, c⟩
      · rw [w] at hn; simp at hn
      · exact C11_float64 _ _ hg a c
  · rename_i hn1 hn2
    split
    · exact (hn1 _ (by assumption) (by assumption) (by assumption)).elim
    · exact (hn2 _ (by assumption) (by assumption) (by assumption)).elim
    · rfl

theorem expected_roughly {info : EncodingInfo} (hi : SensibleInfo info) {σ : BitVec 32 → BitVec 32}
    (hσ : ∀ r, GoodRes r → IEEE.Near6 r (σ r)) {k : Nat} {f : PointField} (hk : info.fields[k]? = some f)
    {bs : List Byte} (hw : WithinSteps (2 ^ 29) (2 ^ 61) (2 ^ 61) info k f bs) :
    Roughly info f bs (expected (Retune.shifted IEEE.ops σ) info k f bs) := by
  unfold expected Roughly
  obtain ⟨w1, w2⟩ := hw
  split
  · rename_i r ho ht hr
    have hg := hi.resolution f (List.mem_of_getElem? hk) _ hr
    simp only [ho, ht, hr]
    rw [asFloat_toLE]
    have w := (w2 ho _ hr).1 ht
    have hs := hσ r hg
    refine ⟨fun hn => ?_, fun hn => ?_⟩
    · split
      · exact ((C10_nan_iff (Retune.shifted IEEE.ops σ) r _).2 fun q => (C10_finite_resolution _ hs.1).2.1 q).trans hn
      · exact ((C10_nan_iff (Retune.shifted IEEE.ops σ) r _).1 fun q => (C10_finite_resolution _ hs.1).1 q).trans hn
    · rcases w with w | ⟨a, b, c⟩
      · rw [w] at hn; simp at hn
      · change isNaN32 (BitVec.ofNat 32 (fromLE bs)) = false at hn
        split
        · next hlt =>
          rw [if_pos hlt] at c
          have := IEEE.looseV hg hs a b c
          unfold memorylessV
          rw [hn]
          exact this
        · next hlt =>
          rw [if_neg hlt] at c
          obtain ⟨q, e, this⟩ := IEEE.loose32 hg hs a b c
          unfold memoryless32
          rw [hn]
          change (Retune.shifted IEEE.ops σ).quant32 r (BitVec.ofNat 32 (fromLE bs)) = some q at e
          rw [e]
          exact this
  · rename_i r ho ht hr
    have hg := hi.resolution f (List.mem_of_getElem? hk) _ hr
    simp only [ho, ht, hr]
    rw [asDouble_toLE]
    have hs := hσ r hg
    refine ⟨fun hn => ?_, fun hn => ?_⟩
    · exact (C10_nan_iff64 (Retune.shifted IEEE.ops σ) r _ fun q => (C10_finite_resolution _ hs.1).2.2 q).trans hn
    · rcases (w2 ho _ hr).2 ht with w | ⟨a, c⟩
      · rw [w] at hn; simp at hn
      · change isNaN64 (BitVec.ofNat 64 (fromLE bs)) = false at hn
        obtain ⟨q, e, this⟩ := IEEE.loose64 hg hs a c
        unfold memoryless64
        rw [hn]
        change (Retune.shifted IEEE.ops σ).quant64 r (BitVec.ofNat 64 (fromLE bs)) = some q at e
        rw [e]
        exact this
  · rename_i hn1 hn2
    split
    · exact (hn1 _ (by assumption) (by assumption) (by assumption)).elim
    · exact (hn2 _ (by assumption) (by assumption) (by assumption)).elim
    · rfl

/-- A description a file can hold, and a cloud within the limits of C11. -/
structure StorableCloud (info : EncodingInfo) (cloud : List Byte) : Prop where
  sensible : SensibleInfo info
  within : CloudWithin (2 ^ 29) (2 ^ 61) (2 ^ 61) info cloud
  count : FieldLimit info
  version : info.version.toNat ≤ 5
  comp : info.compression_opt = .none ∨ info.compression_opt = .lz4 ∨ info.compression_opt = .zstd
  config : info.encoding_config = [] ∨ HeaderText info.encoding_config
  names : ∀ f ∈ info.fields, HeaderText f.name
  lz4 : info.compression_opt = .lz4 → cloud.length ≤ intMax

/-- **C68 (partial).** Resolutions of at most six significant digits: a file written by a fresh encoder gives back the description from
its header alone, and decoding with *that* description keeps the promise of C11 for every field of every point.
Missing: what C11 and C18 leave out. -/
theorem C68_file_partial (C : Compressor) (hC : C.Lawful) (info : EncodingInfo) (cloud : List Byte) (ok : StorableCloud info cloud)
    (h6 : ∀ f ∈ info.fields, ∀ r, f.resolution = some r → SixDigits r) (enc enc' : Encoder) (hb n : Nat) (out : List Byte)
    (h0 : mkEncoder IEEE.ops info (encodeHeaderYaml text info) = .ok enc) (h1 : encodeVector IEEE.ops C enc hb cloud = .ok (enc', out, n))
    (hlim : info.compression_opt = .none ∨ ChunksWithin IEEE.ops enc cloud cloud.length) (hsize : out.length < 1431260227) :
    ∃ payload, decodeHeader text out = .ok (info, payload) ∧
      ∀ fuel buf, cloud.length ≤ buf.length → ∃ buf', decodeCloud IEEE.ops C fuel info payload buf = .ok buf' ∧ buf'.length = buf.length ∧
        ∀ i, i < info.width.toNat * info.height.toNat → ∀ (k : Nat) (f : PointField), info.fields[k]? = some f →
          Accurate info f (cell cloud 0 info.point_step.toNat i f.offset.toNat (sizeOf f.type))
            (cell buf' 0 info.point_step.toNat i f.offset.toNat (sizeOf f.type)) := by
  have fok : FileOk text IEEE.ops info cloud :=
    { valid := sensible_valid ok.sensible, data := within_valid ok.sensible ok.within, count := ok.count, version := ok.version, comp := ok.comp,
      config := ok.config, names := ok.names, lz4 := ok.lz4,
      resolutions := fun f hf r hr => C68_six_digits r (ok.sensible.resolution f hf r hr) (h6 f hf r hr) }
  obtain ⟨_, payload, d1, d2⟩ := vector_trip C68_lawful hC fok h0 h1 hlim hsize
  refine ⟨payload, d1, fun fuel buf hbuf => ?_⟩
  obtain ⟨buf', e1, e2, e3⟩ := d2 fuel buf hbuf
  refine ⟨buf', e1, e2, fun i hi k f hk => ?_⟩
  rw [e3 i hi k f hk]
  exact expected_accurate ok.sensible hk (ok.within.range i hi k f hk)

/-- The resolution a reader of the file finds. -/
def readBack (r : BitVec 32) : BitVec 32 :=
  match text.parse (text.print r) with
  | .ok r' => r'
  | _ => r

theorem readBack_spec (r : BitVec 32) (hr : GoodRes r) : text.parse (text.print r) = .ok (readBack r) ∧ IEEE.Near6 r (readBack r) := by
  obtain ⟨r', h1, h2, h3⟩ := C68_error r hr
  have : readBack r = r' := by unfold readBack; rw [h1]
  rw [this]
  exact ⟨h1, h2, h3⟩

theorem shifted_info {F : FloatOps} {info : EncodingInfo} (σ : BitVec 32 → BitVec 32) (hv : ValidInfo F info) :
    ValidInfo (Retune.shifted F σ) info := ⟨hv.step, hv.version, hv.option, hv.types, hv.inside, hv.disjoint, hv.resolution⟩

theorem shifted_follows (F : FloatOps) (σ : BitVec 32 → BitVec 32) (info : EncodingInfo) (k : Nat) (f : PointField) (bs : List Byte)
    (prev : Option (List Byte)) (h : Follows F info k f prev bs) : Follows (Retune.shifted F σ) info k f prev bs := h

theorem shifted_cloud {F : FloatOps} {info : EncodingInfo} {cloud : List Byte} (σ : BitVec 32 → BitVec 32) (hd : ValidCloud F info cloud) :
    ValidCloud (Retune.shifted F σ) info cloud := ⟨hd.size, hd.addressable, fun i hi k f hk => shifted_follows _ _ _ _ _ _ _ (hd.range i hi k f hk)⟩

theorem shifted_chunks {F : FloatOps} {enc : Encoder} {cloud : List Byte} {lim : Nat} (σ : BitVec 32 → BitVec 32)
    (h : ChunksWithin F enc cloud lim) : ChunksWithin (Retune.shifted F σ) enc cloud lim := by
  unfold ChunksWithin at h ⊢
  rw [Retune.stage1Chunks_shift]
  exact h

theorem shifted_trip {F : FloatOps} (σ : BitVec 32 → BitVec 32) {C : Compressor} (hC : C.Lawful) {info : EncodingInfo} {header : List Byte}
    {enc enc' : Encoder} {cloud out : List Byte} {room size : Nat} (fuel : Nat) (hv : ValidInfo F info) (hd : ValidCloud F info cloud)
    (h0 : mkEncoder F info header = .ok enc) (h1 : encodeView F C enc cloud room false = .ok (enc', out, size)) (h64 : FieldLimit info)
    (hlim : info.compression_opt = .none ∨ ChunksWithin F enc cloud cloud.length)
    (hlz : info.compression_opt = .lz4 → cloud.length ≤ intMax) (hm : out.take 10 ≠ magic) (buf : List Byte) (hbuf : cloud.length ≤ buf.length) :
    ∃ buf', decodeCloud (Retune.shifted F σ) C fuel info out buf = .ok buf' ∧ buf'.length = buf.length ∧
      Decoded (Retune.shifted F σ) info cloud buf' := by
  have hfresh : Reach (Retune.shifted F σ) C info header enc := .fresh enc (by rw [Retune.mkEncoder_shift]; exact h0)
  rw [← Retune.encodeView_shift F σ] at h1
  exact C18_cloud_roundtrip_partial (Retune.shifted F σ) C hC info header enc enc' cloud out room size fuel (shifted_info σ hv) (shifted_cloud σ hd)
    hfresh h1 h64 (hlim.imp_right (shifted_chunks σ)) hlz hm buf hbuf

/-- **C68 (partial), any resolution.** The header gives the description back with every resolution changed by at most six millionths, and
decoding with that description gives every value within half a step and seven millionths of itself.  Missing: the promise of C11, which
is false here (`C68_third_file`), and what C11 and C18 leave out. -/
theorem C68_any_resolution_partial (C : Compressor) (hC : C.Lawful) (info : EncodingInfo) (cloud : List Byte) (ok : StorableCloud info cloud)
    (enc enc' : Encoder) (hb n : Nat) (out : List Byte)
    (h0 : mkEncoder IEEE.ops info (encodeHeaderYaml text info) = .ok enc) (h1 : encodeVector IEEE.ops C enc hb cloud = .ok (enc', out, n))
    (hlim : info.compression_opt = .none ∨ ChunksWithin IEEE.ops enc cloud cloud.length) (hsize : out.length < 1431260227) :
    ∃ payload, decodeHeader text out =
        .ok ({ info with fields := info.fields.map fun f => { f with resolution := f.resolution.map readBack } }, payload) ∧
      (∀ f ∈ info.fields, ∀ r, f.resolution = some r → Finite32 (readBack r) ∧ |real32 (readBack r) - real32 r| ≤ 6 / 10 ^ 6 * real32 r) ∧
      ∀ fuel buf, cloud.length ≤ buf.length → ∃ buf', decodeCloud IEEE.ops C fuel
          { info with fields := info.fields.map fun f => { f with resolution := f.resolution.map readBack } } payload buf = .ok buf' ∧
        buf'.length = buf.length ∧
        ∀ i, i < info.width.toNat * info.height.toNat → ∀ (k : Nat) (f : PointField), info.fields[k]? = some f →
          Roughly info f (cell cloud 0 info.point_step.toNat i f.offset.toNat (sizeOf f.type))
            (cell buf' 0 info.point_step.toNat i f.offset.toNat (sizeOf f.type)) := by
  have hg := ok.sensible.resolution
  obtain ⟨room, payload, k, e1, e2, e3⟩ := C23_vector_agrees IEEE.ops C enc enc' hb cloud out n h1
  have hh : enc.header = encodeHeaderYaml text info := (mkEncoder_info h0).2.1
  rw [hh] at e2
  have hp : payload.length < 1431260227 := by rw [e2, List.length_append] at hsize; omega
  have hv := sensible_valid ok.sensible
  have hd := within_valid ok.sensible ok.within
  refine ⟨payload, ?_, fun f hf r hr => (readBack_spec r (hg f hf r hr)).2, fun fuel buf hbuf => ?_⟩
  · rw [e2]
    exact C26_yaml_roundtrip_partial text C68_lawful info ⟨by have := ok.sensible.version; omega, ok.version⟩ ok.sensible.option ok.comp
      ok.sensible.types ok.config ok.names readBack (fun f hf r hr => (readBack_spec r (hg f hf r hr)).1) payload
  · have hshift := Retune.decodeCloud_shift (F := IEEE.ops) (σ := readBack) C fuel info payload buf (fun f hf r hr => by
      obtain ⟨g1, g2, g3, g4⟩ := IEEE.good_res (hg f hf r hr)
      obtain ⟨n1, n2⟩ := (readBack_spec r (hg f hf r hr)).2
      rw [IEEE.real32_eq, IEEE.real32_eq] at n2
      have p1 : IEEE.ops.resNonPos r = false := IEEE.le0_of_pos g4
      have p2 : IEEE.ops.resNonPos (readBack r) = false := IEEE.le0_of_pos (by
        have := (abs_le.1 n2).1
        linarith)
      rw [p1, p2])
    unfold Retune.withRes at hshift
    rw [hshift]
    obtain ⟨buf', f1, f2, f3⟩ := shifted_trip readBack hC fuel hv hd h0 e1 ok.count hlim ok.lz4
      (C18_magic _ C enc enc' cloud payload room k e1 hp) buf hbuf
    refine ⟨buf', f1, f2, fun i hi k f hk => ?_⟩
    rw [f3 i hi k f hk]
    exact expected_roughly ok.sensible (fun r hr => (readBack_spec r hr).2) hk (ok.within.range i hi k f hk)

/-! ## The condition is needed -/

/-- **C68 fails for other resolutions.** 1/3 comes back as 0.333333. -/
theorem C68_third : GoodRes 0x3eaaaaab#32 ∧ text.print 0x3eaaaaab#32 = ascii "0.333333" ∧ text.parse (text.print 0x3eaaaaab#32) = .ok 0x3eaaaa9f#32 := by
  decide +kernel

/-- One float with a resolution of 1/3 and an integer; the values 1000000 and 7. -/
def thirdInfo : EncodingInfo :=
  { fields := [{ name := [0x78#8], offset := 0#32, type := .float32, resolution := some 0x3eaaaaab#32 },
               { name := [0x69#8], offset := 4#32, type := .uint16 }],
    width := 1#32, height := 1#32, point_step := 6#32, encoding_opt := .lossy, compression_opt := .none, version := 5#8 }
def millionCloud : List Byte := toLE 4 0x49742400 ++ toLE 2 7

theorem third_storable : StorableCloud thirdInfo millionCloud where
  sensible :=
    { step := by decide, version := by decide, option := by decide, types := by decide, inside := by decide, disjoint := by decide
      resolution := by
        intro f hf r hr
        simp only [thirdInfo, List.mem_cons, List.not_mem_nil, or_false] at hf
        rcases hf with rfl | rfl <;> simp at hr; subst hr; decide +kernel }
  within :=
    { size := by decide +kernel, addressable := by decide +kernel
      range := by
        intro i hi k f hk
        have hi : i < 1 := hi
        have hlt : k < 2 := (List.getElem?_eq_some_iff.1 hk).1
        obtain rfl : i = 0 := by omega
        have h2 : k = 0 ∨ k = 1 := by omega
        rcases h2 with rfl | rfl <;>
        simp only [thirdInfo, List.getElem?_cons_zero, List.getElem?_cons_succ, Option.some.injEq] at hk <;> subst hk <;>
        refine ⟨fun h => by simp at h, fun _ r hr => ?_⟩ <;> simp at hr <;> subst hr <;>
        refine ⟨fun h => ?_, fun h => ?_⟩ <;> first | (simp at h; done) | decide +kernel }
  count := by decide
  version := by decide
  comp := Or.inl rfl
  config := Or.inl rfl
  names := by
    intro f hf
    simp only [thirdInfo, List.mem_cons, List.not_mem_nil, or_false] at hf
    rcases hf with rfl | rfl <;> exact plain_char _ (by decide)
  lz4 := by decide

def thirdEnc : Encoder :=
  match mkEncoder IEEE.ops thirdInfo (encodeHeaderYaml text thirdInfo) with
  | .ok e => e
  | _ => ⟨thirdInfo, [], []⟩
def thirdFile : Encoder × List Byte × Nat :=
  match encodeVector IEEE.ops storeComp thirdEnc (encodeHeaderYaml text thirdInfo).length millionCloud with
  | .ok r => r
  | _ => (thirdEnc, [], 0)
/-- What the reader of the file has. -/
def thirdRead : EncodingInfo × List Byte :=
  match decodeHeader text thirdFile.2.1 with
  | .ok r => r
  | _ => (thirdInfo, [])
def thirdBuf : List Byte :=
  match decodeCloud IEEE.ops storeComp 0 thirdRead.1 thirdRead.2 (List.replicate 6 0#8) with
  | .ok r => r
  | _ => []

theorem third_mk : mkEncoder IEEE.ops thirdInfo (encodeHeaderYaml text thirdInfo) = .ok thirdEnc := by decide +kernel
theorem third_encode : encodeVector IEEE.ops storeComp thirdEnc (encodeHeaderYaml text thirdInfo).length millionCloud = .ok thirdFile := by decide +kernel

/-- **C68 fails for other resolutions, whole files.** A value of 1000000 with a resolution of 1/3 comes back below 999999, an error of three
steps: the file does not keep the promise of C11, although decoding with the encoder's description does. -/
theorem C68_third_file : ∃ (info : EncodingInfo) (cloud : List Byte) (enc enc' : Encoder) (out payload buf : List Byte) (n : Nat) (info' : EncodingInfo)
    (f : PointField), StorableCloud info cloud ∧ f ∈ info.fields ∧ f.offset = 0#32 ∧
    mkEncoder IEEE.ops info (encodeHeaderYaml text info) = .ok enc ∧ encodeVector IEEE.ops storeComp enc (encodeHeaderYaml text info).length cloud = .ok (enc', out, n) ∧
    decodeHeader text out = .ok (info', payload) ∧ decodeCloud IEEE.ops storeComp 0 info' payload (List.replicate 6 0#8) = .ok buf ∧
    real32 (asFloat (cloud.take 4)) = 1000000 ∧ real32 (asFloat (buf.take 4)) ≤ 999999 ∧ ¬ Accurate info f (cloud.take 4) (buf.take 4) := by
  refine ⟨thirdInfo, millionCloud, thirdEnc, thirdFile.1, thirdFile.2.1, thirdRead.2, thirdBuf, thirdFile.2.2, thirdRead.1,
    { name := [0x78#8], offset := 0#32, type := .float32, resolution := some 0x3eaaaaab#32 }, third_storable, by simp [thirdInfo], rfl, third_mk, third_encode, ?_, ?_, ?_, ?_, ?_⟩
  · decide +kernel
  · decide +kernel
  · decide +kernel
  · decide +kernel
  · intro h
    have h2 : ¬ |real32 (asFloat (thirdBuf.take 4)) - real32 (asFloat (millionCloud.take 4))| ≤ real32 0x3eaaaaab#32 / 2 + 2 ^ (-22 : Int) * real32 0x3eaaaaab#32 +
      (2 ^ (-22 : Int) + 2 ^ (-44 : Int)) * |real32 (asFloat (millionCloud.take 4))| := by decide +kernel
    exact h2 (h.2 (by decide +kernel)).2

/-- Decoding the payload with the description the encoder had does keep the promise (C11). -/
example : ∃ payload info', decodeHeader text thirdFile.2.1 = .ok (info', payload) ∧ info' ≠ thirdInfo ∧
    decodeCloud IEEE.ops storeComp 0 thirdInfo payload (List.replicate 6 0#8) = .ok millionCloud :=
  ⟨thirdRead.2, thirdRead.1, by decide +kernel, by decide +kernel, by decide +kernel⟩

/-- It meets every hypothesis of `C68_any_resolution_partial`. -/
example : ∃ payload, decodeHeader text thirdFile.2.1 =
    .ok ({ thirdInfo with fields := thirdInfo.fields.map fun f => { f with resolution := f.resolution.map readBack } }, payload) := by
  obtain ⟨payload, h, _⟩ := C68_any_resolution_partial storeComp storeComp_lawful thirdInfo millionCloud third_storable thirdEnc thirdFile.1 _
    thirdFile.2.2 thirdFile.2.1 third_mk third_encode (Or.inl rfl) (by decide +kernel)
  exact ⟨payload, h⟩

/-- A double with a resolution of 1e-40. -/
def tinyInfo : EncodingInfo :=
  { fields := [{ name := [0x78#8], offset := 0#32, type := .float64, resolution := some 0x000116c2#32 },
               { name := [0x69#8], offset := 8#32, type := .uint16 }],
    width := 1#32, height := 1#32, point_step := 10#32, encoding_opt := .lossy, compression_opt := .none, version := 5#8 }
/-- 1e-38 and 7. -/
def tinyCloud : List Byte := toLE 8 0x380b38fb9daa78e4 ++ toLE 2 7
def tinyEnc : Encoder :=
  match mkEncoder IEEE.ops tinyInfo (encodeHeaderYaml text tinyInfo) with
  | .ok e => e
  | _ => ⟨tinyInfo, [], []⟩
def tinyFile : Encoder × List Byte × Nat :=
  match encodeVector IEEE.ops storeComp tinyEnc (encodeHeaderYaml text tinyInfo).length tinyCloud with
  | .ok r => r
  | _ => (tinyEnc, [], 0)

/-- **C68 fails for tiny resolutions.** A resolution below the smallest normal float is accepted by the encoder, and `encode` writes a file whose
header cannot be read: `stof` throws. -/
theorem C68_tiny_file : ∃ (info : EncodingInfo) (cloud : List Byte) (enc enc' : Encoder) (out : List Byte) (n : Nat) (msg : String),
    mkEncoder IEEE.ops info (encodeHeaderYaml text info) = .ok enc ∧
    encodeVector IEEE.ops storeComp enc (encodeHeaderYaml text info).length cloud = .ok (enc', out, n) ∧ n = out.length ∧
    decodeHeader text out = .throw msg := by
  refine ⟨tinyInfo, tinyCloud, tinyEnc, tinyFile.1, tinyFile.2.1, tinyFile.2.2, "stof", ?_, ?_, ?_, ?_⟩ <;> decide +kernel

/-- Resolutions that are not positive numbers are kept too (the encoder rejects them for lossy fields, but not for others). -/
theorem C68_specials : text.parse (text.print 0x7f800000#32) = .ok 0x7f800000#32 ∧ text.parse (text.print 0xff800000#32) = .ok 0xff800000#32 ∧
    text.parse (text.print 0x7fc00000#32) = .ok 0x7fc00000#32 ∧ text.parse (text.print 0#32) = .ok 0#32 ∧
    text.parse (text.print 0x80000000#32) = .ok 0x80000000#32 := by decide +kernel

example : GoodRes 0x3eaaaaab#32 ∧ GoodRes 0x3eaaaa9f#32 ∧ text.parse (text.print 0x3eaaaa9f#32) = .ok 0x3eaaaa9f#32 := by decide +kernel

/-! ## The usual resolutions -/

/-- Any float that is a decimal of six digits, correctly rounded, as the compiler does with a literal. -/
theorem six_literal (n : Nat) (e : Int) (hn : n < 10 ^ 6) (h : (n : ℚ) * 10 ^ e ≤ 2 ^ (127 : Int)) :
    SixDigits (BitVec.ofNat 32 (b32.ofRat false ((n : ℚ) * 10 ^ e))) :=
  ⟨n, e, hn, (nearest32 (s := false) (by simp only [IEEE.Fmt.SignOk, Bool.false_eq_true, if_false]; positivity)
    (by rw [abs_of_nonneg (by positivity)]; exact h)).1⟩

/-- `0.001f`, `0.01f`, `0.025f`. -/
theorem six_milli : SixDigits 0x3a83126f#32 := by
  have h := six_literal 1 (-3) (by decide) (by decide +kernel)
  rwa [show BitVec.ofNat 32 (b32.ofRat false (((1 : Nat) : ℚ) * 10 ^ (-3 : Int))) = 0x3a83126f#32 by decide +kernel] at h
theorem six_centi : SixDigits 0x3c23d70a#32 := by
  have h := six_literal 1 (-2) (by decide) (by decide +kernel)
  rwa [show BitVec.ofNat 32 (b32.ofRat false (((1 : Nat) : ℚ) * 10 ^ (-2 : Int))) = 0x3c23d70a#32 by decide +kernel] at h
example : SixDigits 0x3ccccccd#32 := by
  have h := six_literal 25 (-3) (by decide) (by decide +kernel)
  rwa [show BitVec.ofNat 32 (b32.ofRat false (((25 : Nat) : ℚ) * 10 ^ (-3 : Int))) = 0x3ccccccd#32 by decide +kernel] at h
example : text.print 0x3a83126f#32 = ascii "0.001" ∧ text.print 0x3727c5ac#32 = ascii "1e-05" ∧ text.print 0x4b189680#32 = ascii "1e+07" := by decide +kernel

theorem num_storable : StorableCloud numInfo numCloud where
  sensible := num_sensible
  within := within_mono num_sensible num_within (by norm_num) (by norm_num) (by norm_num)
  count := by decide
  version := by decide
  comp := Or.inl rfl
  config := Or.inl rfl
  names := by
    intro f hf
    simp only [numInfo, List.mem_cons, List.not_mem_nil, or_false] at hf
    rcases hf with rfl | rfl | rfl | rfl | rfl | rfl <;> exact plain_char _ (by decide)
  lz4 := by decide

def numFileEnc : Encoder :=
  match mkEncoder IEEE.ops numInfo (encodeHeaderYaml text numInfo) with
  | .ok e => e
  | _ => ⟨numInfo, [], []⟩
def numFile : Encoder × List Byte × Nat :=
  match encodeVector IEEE.ops storeComp numFileEnc (encodeHeaderYaml text numInfo).length numCloud with
  | .ok r => r
  | _ => (numFileEnc, [], 0)

/-- The cloud of `C11_cloud` meets every hypothesis of `C68_file_partial`. -/
example : ∃ payload, decodeHeader text numFile.2.1 = .ok (numInfo, payload) := by
  obtain ⟨payload, h, _⟩ := C68_file_partial storeComp storeComp_lawful numInfo numCloud num_storable (by
    intro f hf r hr
    simp only [numInfo, List.mem_cons, List.not_mem_nil, or_false] at hf
    rcases hf with rfl | rfl | rfl | rfl | rfl | rfl <;> simp at hr <;> subst hr <;> first | exact six_milli | exact six_centi)
    numFileEnc numFile.1 (encodeHeaderYaml text numInfo).length
    numFile.2.2 numFile.2.1 (by decide +kernel) (by decide +kernel) (Or.inl rfl) (by decide +kernel)
  exact ⟨payload, h⟩

end Cloudini.Props
