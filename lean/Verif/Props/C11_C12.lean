import Verif.Lemmas.IEEENearest
import Verif.Props.C18_C20

/-!
# C11, C12: the quantisation error and its stability, in IEEE arithmetic

`IEEE.ops` is the float arithmetic of the library (Verif.Model.IEEE).  `C11_arithmetic32` etc. state, in the vocabulary of
Verif.Spec.Float only, that it is correctly rounded IEEE-754 arithmetic.
-/

namespace Cloudini.Props
open IEEE (ops b32 b64)

/-! ## The arithmetic -/

theorem nearest32 {s : Bool} {q : ℚ} (hs : IEEE.Fmt.SignOk s q) (hq : |q| ≤ 2 ^ (127 : Int)) :
    Nearest32 (BitVec.ofNat 32 (b32.ofRat s q)) q ∧ (BitVec.ofNat 32 (b32.ofRat s q)).toNat = b32.ofRat s q := by
  have hq' : |q| ≤ 2 ^ b32.top := by rw [IEEE.b32_top]; exact hq
  obtain ⟨a1, a2, _⟩ := b32.ofRat_spec IEEE.Fmt.b32_ok hs hq'
  have ht := IEEE.toNat_ofNat32 a2
  refine ⟨⟨by rw [← IEEE.fin32_iff, ht]; exact a1, fun d hd => ?_⟩, ht⟩
  rw [IEEE.real32_eq, IEEE.real32_eq, ht]
  exact b32.ofRat_nearest IEEE.Fmt.b32_ok hs hq' d.toNat ((IEEE.fin32_iff d).2 hd)

theorem nearest64 {s : Bool} {q : ℚ} (hs : IEEE.Fmt.SignOk s q) (hq : |q| ≤ 2 ^ (1023 : Int)) :
    Nearest64 (BitVec.ofNat 64 (b64.ofRat s q)) q ∧ (BitVec.ofNat 64 (b64.ofRat s q)).toNat = b64.ofRat s q := by
  have hq' : |q| ≤ 2 ^ b64.top := by rw [IEEE.b64_top]; exact hq
  obtain ⟨a1, a2, _⟩ := b64.ofRat_spec IEEE.Fmt.b64_ok hs hq'
  have ht := IEEE.toNat_ofNat64 a2
  refine ⟨⟨by rw [← IEEE.fin64_iff, ht]; exact a1, fun d hd => ?_⟩, ht⟩
  rw [IEEE.real64_eq, IEEE.real64_eq, ht]
  exact b64.ofRat_nearest IEEE.Fmt.b64_ok hs hq' d.toNat ((IEEE.fin64_iff d).2 hd)

theorem sign_int (z : Int) : IEEE.Fmt.SignOk (decide (z < 0)) (z : ℚ) := by
  unfold IEEE.Fmt.SignOk
  by_cases h : z < 0
  · simp only [h, decide_true, if_true]; exact_mod_cast h.le
  · simp only [h, decide_false, Bool.false_eq_true, if_false]; exact_mod_cast (not_lt.1 h)

theorem roundsAway (q : ℚ) : RoundsAway (IEEE.roundAway q) q := by
  refine ⟨IEEE.roundAway_err q, ?_⟩
  unfold IEEE.roundAway
  split
  · rename_i h
    have h1 := Int.floor_le (q + 1 / 2)
    have h2 := Int.lt_floor_add_one (q + 1 / 2)
    intro he
    have h3 : (0 : ℚ) ≤ (⌊q + 1 / 2⌋ : ℚ) := by exact_mod_cast Int.floor_nonneg.2 (by linarith)
    rw [abs_of_nonneg h, abs_of_nonneg h3]
    by_contra hc
    rw [abs_sub_comm, abs_of_nonneg (by linarith)] at he
    linarith
  · rename_i h
    have h1 := Int.floor_le (-q + 1 / 2)
    have h2 := Int.lt_floor_add_one (-q + 1 / 2)
    intro he
    push_cast at he ⊢
    have h3 : (0 : ℚ) ≤ (⌊-q + 1 / 2⌋ : ℚ) := by exact_mod_cast Int.floor_nonneg.2 (by linarith)
    rw [abs_of_neg (by linarith), abs_neg, abs_of_nonneg h3]
    by_contra hc
    rw [abs_of_nonneg (by linarith)] at he
    linarith

theorem roundsEven (q : ℚ) : RoundsEven (IEEE.roundEven q) q := by
  refine ⟨IEEE.roundEven_err q, ?_⟩
  have h1 := Int.floor_le q
  have h2 := Int.lt_floor_add_one q
  unfold IEEE.roundEven
  intro he
  by_cases c1 : q - ⌊q⌋ < 1 / 2
  · rw [if_pos c1, abs_sub_comm, abs_of_nonneg (by linarith)] at he
    linarith
  · rw [if_neg c1] at he ⊢
    by_cases c2 : 1 / 2 < q - ⌊q⌋
    · rw [if_pos c2] at he
      push_cast at he
      rw [abs_of_nonneg (by linarith)] at he
      linarith
    · rw [if_neg c2]
      split
      · assumption
      · omega

/-- The decoder's arithmetic, `float`: convert, then multiply, each correctly rounded. -/
theorem C11_arithmetic_decode32 (r : BitVec 32) (n : BitVec 64) (hr : Finite32 r)
    (h : ∀ f, Nearest32 f n.toInt → |real32 f * real32 r| ≤ 2 ^ (127 : Int)) :
    ∃ f, Nearest32 f n.toInt ∧ Nearest32 (ops.dequant32 r n) (real32 f * real32 r) := by
  have hz : |(n.toInt : ℚ)| ≤ 2 ^ (127 : Int) := by
    have h1 := n.le_toInt
    have h2 := n.toInt_lt
    have h3 : |n.toInt| ≤ 2 ^ 63 := abs_le.2 ⟨by simpa using h1, by simpa using h2.le⟩
    have h4 : |(n.toInt : ℚ)| ≤ 2 ^ 63 := by exact_mod_cast h3
    exact h4.trans (by norm_num)
  obtain ⟨n1, n2⟩ := nearest32 (sign_int n.toInt) hz
  have hb := h _ n1
  have hf := (IEEE.fin32_iff _).2 n1.1
  have hr' := (IEEE.fin32_iff r).2 hr
  rw [IEEE.real32_eq, IEEE.real32_eq] at hb
  rw [n2] at hb hf
  refine ⟨_, n1, ?_⟩
  have := (nearest32 (IEEE.Fmt.sign_mul (b32.val_sign _) (b32.val_sign r.toNat)) hb).1
  rw [← b32.mul_eq hf hr'] at this
  rw [IEEE.real32_eq, IEEE.real32_eq, n2]
  exact this

/-- The vector decoder's arithmetic is the same. -/
theorem C11_arithmetic_decodeV (r : BitVec 32) (n : BitVec 32) :
    ops.dequantV r n = ops.dequant32 r (n.signExtend 64) := by
  have : (n.signExtend 64).toInt = n.toInt := BitVec.toInt_signExtend_of_le (by decide)
  show BitVec.ofNat 32 (b32.mul (b32.ofInt n.toInt) r.toNat) = BitVec.ofNat 32 (b32.mul (b32.ofInt (n.signExtend 64).toInt) r.toNat)
  rw [this]

/-- The decoder's arithmetic, `double` (the resolution is widened exactly). -/
theorem C11_arithmetic_decode64 (r : BitVec 32) (n : BitVec 64) (hr : Finite32 r)
    (h : ∀ f, Nearest64 f n.toInt → |real64 f * real32 r| ≤ 2 ^ (1023 : Int)) :
    ∃ f, Nearest64 f n.toInt ∧ Nearest64 (ops.dequant64 r n) (real64 f * real32 r) := by
  have hz : |(n.toInt : ℚ)| ≤ 2 ^ (1023 : Int) := by
    have h1 := n.le_toInt
    have h2 := n.toInt_lt
    have h3 : |n.toInt| ≤ 2 ^ 63 := abs_le.2 ⟨by simpa using h1, by simpa using h2.le⟩
    have h4 : |(n.toInt : ℚ)| ≤ 2 ^ 63 := by exact_mod_cast h3
    exact h4.trans (le_trans (by norm_num) (IEEE.zpow_le_of_le (show (63 : Int) ≤ 1023 by norm_num)))
  obtain ⟨n1, n2⟩ := nearest64 (sign_int n.toInt) hz
  have hb := h _ n1
  have hf := (IEEE.fin64_iff _).2 n1.1
  have hr' := (IEEE.fin32_iff r).2 hr
  obtain ⟨w1, w2⟩ := IEEE.widen_spec hr'
  rw [IEEE.real64_eq, IEEE.real32_eq, ← w2] at hb
  rw [n2] at hb hf
  refine ⟨_, n1, ?_⟩
  have := (nearest64 (IEEE.Fmt.sign_mul (b64.val_sign _) (b64.val_sign (IEEE.widen r.toNat))) hb).1
  rw [← b64.mul_eq hf w1] at this
  rw [IEEE.real64_eq, IEEE.real32_eq, n2, ← w2]
  exact this

/-- `1.0 / resolution` in `double`. -/
theorem recip_nearest64 {r : BitVec 32} (hr : GoodRes r) :
    Nearest64 (BitVec.ofNat 64 (IEEE.mult64 r)) (1 / real32 r) ∧ (BitVec.ofNat 64 (IEEE.mult64 r)).toNat = IEEE.mult64 r := by
  obtain ⟨r1, r2, r3, r4⟩ := IEEE.good_res hr
  obtain ⟨i1, i2⟩ := IEEE.recip_range hr
  obtain ⟨w1, w2⟩ := IEEE.widen_spec r1
  have hmag : b64.mag (IEEE.widen r.toNat) ≠ 0 := by
    intro h0
    have := b64.val_abs (IEEE.widen r.toNat)
    rw [h0, IEEE.Fmt.magVal_zero, w2, abs_of_pos r4] at this
    linarith
  have hsg : IEEE.Fmt.SignOk (b64.neg (IEEE.widen r.toNat)) (1 / b64.val (IEEE.widen r.toNat)) := by
    have := b64.val_sign (IEEE.widen r.toNat)
    revert this
    cases b64.neg (IEEE.widen r.toNat)
    · simp only [IEEE.Fmt.SignOk, Bool.false_eq_true, if_false]; intro h; positivity
    · simp only [IEEE.Fmt.SignOk, if_true]; intro h; rw [w2] at h; linarith
  have hd : IEEE.mult64 r = b64.ofRat (b64.neg (IEEE.widen r.toNat)) (1 / b64.val (IEEE.widen r.toNat)) := by
    unfold IEEE.mult64 IEEE.Fmt.recip
    simp [(b64.fin_not_nan w1).1, (b64.fin_not_nan w1).2, hmag]
  have hq0 : 0 < 1 / b32.val r.toNat := by positivity
  obtain ⟨d1, d2⟩ := nearest64 hsg (by rw [w2, abs_of_pos hq0]; exact i2.trans (IEEE.zpow_le_of_le (by norm_num)))
  rw [← hd] at d1 d2
  rw [w2] at d1
  rw [IEEE.real32_eq]
  exact ⟨d1, d2⟩

/-- `1.0F / resolution` in `float`. -/
theorem recip_nearest32 {r : BitVec 32} (hr : GoodRes r) :
    Nearest32 (BitVec.ofNat 32 (IEEE.multV r)) (1 / real32 r) ∧ (BitVec.ofNat 32 (IEEE.multV r)).toNat = IEEE.multV r := by
  obtain ⟨r1, r2, r3, r4⟩ := IEEE.good_res hr
  obtain ⟨i1, i2⟩ := IEEE.recip_range hr
  have hmag : b32.mag r.toNat ≠ 0 := by
    intro h0
    have := b32.val_abs r.toNat
    rw [h0, IEEE.Fmt.magVal_zero, abs_of_pos r4] at this
    linarith
  have hsg : IEEE.Fmt.SignOk (b32.neg r.toNat) (1 / b32.val r.toNat) := by
    have := b32.val_sign r.toNat
    revert this
    cases b32.neg r.toNat
    · simp only [IEEE.Fmt.SignOk, Bool.false_eq_true, if_false]; intro h; positivity
    · simp only [IEEE.Fmt.SignOk, if_true]; intro h; linarith
  have hd : IEEE.multV r = b32.ofRat (b32.neg r.toNat) (1 / b32.val r.toNat) := by
    unfold IEEE.multV IEEE.Fmt.recip
    simp [(b32.fin_not_nan r1).1, (b32.fin_not_nan r1).2, hmag]
  have hq0 : 0 < 1 / b32.val r.toNat := by positivity
  obtain ⟨d1, d2⟩ := nearest32 hsg (by rw [abs_of_pos hq0]; exact i2.trans (IEEE.zpow_le_of_le (by norm_num)))
  rw [← hd] at d1 d2
  rw [IEEE.real32_eq]
  exact ⟨d1, d2⟩

/-- A value of at most `B` steps times a multiplier within a factor 2 of `1/r`. -/
theorem product_bound {x r m B : ℚ} (hr : 0 < r) (hB : 0 ≤ B) (h : |x| ≤ B * r) (hm : |m - 1 / r| ≤ 1 * (1 / r)) : |x * m| ≤ 2 * B := by
  have hq0 : 0 < 1 / r := by positivity
  have hm' : |m| ≤ 2 * (1 / r) := by
    have := abs_sub_abs_le_abs_sub m (1 / r)
    rw [abs_of_pos hq0] at this
    linarith
  rw [abs_mul]
  calc |x| * |m| ≤ (B * r) * (2 * (1 / r)) := mul_le_mul h hm' (abs_nonneg _) (by positivity)
    _ = 2 * B := by field_simp

/-- The encoder's arithmetic, `float`: the reciprocal in `double`, rounded to `float`; the product in `float`; then
`std::round`. -/
theorem C11_arithmetic_encode32 (r x : BitVec 32) (hr : GoodRes r) (hx : Finite32 x) (h : |real32 x| ≤ 2 ^ 61 * real32 r) :
    ∃ (d : BitVec 64) (m p : BitVec 32) (n : BitVec 64), Nearest64 d (1 / real32 r) ∧ Nearest32 m (real64 d) ∧
      Nearest32 p (real32 x * real32 m) ∧ ops.quant32 r x = some n ∧ RoundsAway n.toInt (real32 p) := by
  obtain ⟨r1, r2, r3, r4⟩ := IEEE.good_res hr
  obtain ⟨i1, i2⟩ := IEEE.recip_range hr
  obtain ⟨k1, k2, k3⟩ := IEEE.mult64_spec r1 (le_trans (IEEE.zpow_le_of_le (by norm_num)) r2) (r3.trans (IEEE.zpow_le_of_le (by norm_num)))
  obtain ⟨m1, m2⟩ := IEEE.mult32_spec r1 r2 r3
  have hx' := (IEEE.fin32_iff x).2 hx
  have hq0 : 0 < 1 / b32.val r.toNat := by positivity
  obtain ⟨d1, d2⟩ := recip_nearest64 hr
  -- the float multiplier
  have e53 : (2 : ℚ) ^ (-53 : Int) = 1 / 9007199254740992 := by norm_num
  have s1 : (2 : ℚ) ^ (127 : Int) = 4 * 2 ^ (125 : Int) := by norm_num
  have hk := abs_le.1 k2
  rw [e53] at hk
  have he : IEEE.mult32 r = b32.ofRat (b64.neg (IEEE.mult64 r)) (b64.val (IEEE.mult64 r)) := by
    show IEEE.narrow (IEEE.mult64 r) = _
    unfold IEEE.narrow
    simp [(b64.fin_not_nan k1).1, (b64.fin_not_nan k1).2]
  obtain ⟨f1, f2⟩ := nearest32 (b64.val_sign (IEEE.mult64 r)) (by rw [abs_of_nonneg k3, s1]; linarith)
  rw [← he] at f1 f2
  -- the product
  rw [IEEE.real32_eq x, IEEE.real32_eq r] at h
  have hxb := product_bound r4 (by norm_num) h
    (m2.trans (mul_le_mul_of_nonneg_right (by unfold IEEE.a32; norm_num) hq0.le))
  have hxm : |b32.val x.toNat * b32.val (IEEE.mult32 r)| ≤ 2 ^ (127 : Int) := hxb.trans (by norm_num)
  obtain ⟨p1, p2⟩ := nearest32 (IEEE.Fmt.sign_mul (b32.val_sign x.toNat) (b32.val_sign (IEEE.mult32 r))) hxm
  rw [← b32.mul_eq hx' m1] at p1 p2
  obtain ⟨q1, _, q3⟩ := b32.mul_spec IEEE.Fmt.b32_ok hx' m1 (by rw [IEEE.b32_top]; exact hxm)
  have hpb : |b32.val (b32.mul x.toNat (IEEE.mult32 r))| ≤ 2 ^ 62 + 2 ^ 61 := by
    have h1 := abs_sub_abs_le_abs_sub (b32.val (b32.mul x.toNat (IEEE.mult32 r))) (b32.val x.toNat * b32.val (IEEE.mult32 r))
    have hu : b32.u ≤ 1 / 4 := by rw [IEEE.b32_u]; norm_num
    have hh : b32.h ≤ 1 := by rw [IEEE.b32_h]; exact zpow_le_one_of_nonpos₀ (by norm_num) (by norm_num)
    have h2 : b32.u * |b32.val x.toNat * b32.val (IEEE.mult32 r)| ≤ 1 / 4 * (2 * 2 ^ 61) := mul_le_mul hu hxb (abs_nonneg _) (by norm_num)
    norm_num at *; linarith
  have hpb2 := abs_le.1 hpb
  have z1 := IEEE.roundAway_mono_lb (z := -(2 ^ 62 + 2 ^ 61)) (q := b32.val (b32.mul x.toNat (IEEE.mult32 r))) (by push_cast; linarith)
  have z2 := IEEE.roundAway_mono_ub (z := 2 ^ 62 + 2 ^ 61) (q := b32.val (b32.mul x.toNat (IEEE.mult32 r))) (by push_cast; linarith)
  refine ⟨BitVec.ofNat 64 (IEEE.mult64 r), BitVec.ofNat 32 (IEEE.mult32 r), BitVec.ofNat 32 (b32.mul x.toNat (IEEE.mult32 r)), _, d1, ?_, ?_,
    IEEE.toI64_eq b32 q1 rfl (by omega) (by omega), ?_⟩
  · rw [IEEE.real64_eq, d2]; exact f1
  · rw [IEEE.real32_eq, IEEE.real32_eq, f2]; exact p1
  · rw [IEEE.ofInt64_toInt (by omega) (by omega), IEEE.real32_eq, p2]
    exact roundsAway _

/-- The encoder's arithmetic, `double`. -/
theorem C11_arithmetic_encode64 (r : BitVec 32) (x : BitVec 64) (hr : GoodRes r) (hx : Finite64 x) (h : |real64 x| ≤ 2 ^ 61 * real32 r) :
    ∃ (m p : BitVec 64) (n : BitVec 64), Nearest64 m (1 / real32 r) ∧ Nearest64 p (real64 x * real64 m) ∧
      ops.quant64 r x = some n ∧ RoundsAway n.toInt (real64 p) := by
  obtain ⟨r1, r2, r3, r4⟩ := IEEE.good_res hr
  obtain ⟨k1, k2, k3⟩ := IEEE.mult64_spec r1 (le_trans (IEEE.zpow_le_of_le (by norm_num)) r2) (r3.trans (IEEE.zpow_le_of_le (by norm_num)))
  have hx' := (IEEE.fin64_iff x).2 hx
  have hq0 : 0 < 1 / b32.val r.toNat := by positivity
  obtain ⟨d1, d2⟩ := recip_nearest64 hr
  rw [IEEE.real64_eq x, IEEE.real32_eq r] at h
  have hxb := product_bound r4 (by norm_num) h (k2.trans (mul_le_mul_of_nonneg_right (by norm_num) hq0.le))
  have hxm : |b64.val x.toNat * b64.val (IEEE.mult64 r)| ≤ 2 ^ (1023 : Int) :=
    (hxb.trans (by norm_num : (2 : ℚ) * 2 ^ 61 ≤ 2 ^ (62 : Int))).trans (IEEE.zpow_le_of_le (by norm_num))
  obtain ⟨p1, p2⟩ := nearest64 (IEEE.Fmt.sign_mul (b64.val_sign x.toNat) (b64.val_sign (IEEE.mult64 r))) hxm
  rw [← b64.mul_eq hx' k1] at p1 p2
  obtain ⟨q1, _, q3⟩ := b64.mul_spec IEEE.Fmt.b64_ok hx' k1 (by rw [IEEE.b64_top]; exact hxm)
  have hpb : |b64.val (b64.mul x.toNat (IEEE.mult64 r))| ≤ 2 ^ 62 + 2 ^ 61 := by
    have h1 := abs_sub_abs_le_abs_sub (b64.val (b64.mul x.toNat (IEEE.mult64 r))) (b64.val x.toNat * b64.val (IEEE.mult64 r))
    have hu : b64.u ≤ 1 / 4 := by rw [IEEE.b64_u]; norm_num
    have hh : b64.h ≤ 1 := by rw [IEEE.b64_h]; exact zpow_le_one_of_nonpos₀ (by norm_num) (by norm_num)
    have h2 : b64.u * |b64.val x.toNat * b64.val (IEEE.mult64 r)| ≤ 1 / 4 * (2 * 2 ^ 61) := mul_le_mul hu hxb (abs_nonneg _) (by norm_num)
    clear hxm
    norm_num at *; linarith
  have hpb2 := abs_le.1 hpb
  have z1 := IEEE.roundAway_mono_lb (z := -(2 ^ 62 + 2 ^ 61)) (q := b64.val (b64.mul x.toNat (IEEE.mult64 r))) (by push_cast; linarith)
  have z2 := IEEE.roundAway_mono_ub (z := 2 ^ 62 + 2 ^ 61) (q := b64.val (b64.mul x.toNat (IEEE.mult64 r))) (by push_cast; linarith)
  refine ⟨BitVec.ofNat 64 (IEEE.mult64 r), BitVec.ofNat 64 (b64.mul x.toNat (IEEE.mult64 r)), _, d1, ?_,
    IEEE.toI64_eq b64 q1 rfl (by omega) (by omega), ?_⟩
  · rw [IEEE.real64_eq, IEEE.real64_eq, d2]; exact p1
  · rw [IEEE.ofInt64_toInt (by omega) (by omega), IEEE.real64_eq, p2]
    exact roundsAway _

/-- The vector encoder's arithmetic: one `float` division, one product, rounded to nearest even. -/
theorem C11_arithmetic_encodeV (r x : BitVec 32) (hr : GoodRes r) (hx : Finite32 x) (h : |real32 x| ≤ 2 ^ 29 * real32 r) :
    ∃ (m p : BitVec 32), Nearest32 m (1 / real32 r) ∧ Nearest32 p (real32 x * real32 m) ∧
      RoundsEven (ops.quantV r x).toInt (real32 p) := by
  obtain ⟨r1, r2, r3, r4⟩ := IEEE.good_res hr
  obtain ⟨m1, m2, _⟩ := IEEE.multV_spec r1 (le_trans (IEEE.zpow_le_of_le (by norm_num)) r2) (r3.trans (IEEE.zpow_le_of_le (by norm_num)))
  have hx' := (IEEE.fin32_iff x).2 hx
  have hq0 : 0 < 1 / b32.val r.toNat := by positivity
  obtain ⟨d1, d2⟩ := recip_nearest32 hr
  rw [IEEE.real32_eq x, IEEE.real32_eq r] at h
  have hxb := product_bound r4 (by norm_num) h (m2.trans (mul_le_mul_of_nonneg_right (by norm_num) hq0.le))
  have hxm : |b32.val x.toNat * b32.val (IEEE.multV r)| ≤ 2 ^ (127 : Int) := hxb.trans (by norm_num)
  obtain ⟨p1, p2⟩ := nearest32 (IEEE.Fmt.sign_mul (b32.val_sign x.toNat) (b32.val_sign (IEEE.multV r))) hxm
  rw [← b32.mul_eq hx' m1] at p1 p2
  obtain ⟨q1, _, q3⟩ := b32.mul_spec IEEE.Fmt.b32_ok hx' m1 (by rw [IEEE.b32_top]; exact hxm)
  have hpb : |b32.val (b32.mul x.toNat (IEEE.multV r))| ≤ 2 ^ 30 + 2 ^ 29 := by
    have h1 := abs_sub_abs_le_abs_sub (b32.val (b32.mul x.toNat (IEEE.multV r))) (b32.val x.toNat * b32.val (IEEE.multV r))
    have hu : b32.u ≤ 1 / 4 := by rw [IEEE.b32_u]; norm_num
    have hh : b32.h ≤ 1 := by rw [IEEE.b32_h]; exact zpow_le_one_of_nonpos₀ (by norm_num) (by norm_num)
    have h2 : b32.u * |b32.val x.toNat * b32.val (IEEE.multV r)| ≤ 1 / 4 * (2 * 2 ^ 29) := mul_le_mul hu hxb (abs_nonneg _) (by norm_num)
    norm_num at *; linarith
  have hpb2 := abs_le.1 hpb
  have z1 := IEEE.roundEven_mono_lb (z := -(2 ^ 30 + 2 ^ 29)) (q := b32.val (b32.mul x.toNat (IEEE.multV r))) (by push_cast; linarith)
  have z2 := IEEE.roundEven_mono_ub (z := 2 ^ 30 + 2 ^ 29) (q := b32.val (b32.mul x.toNat (IEEE.multV r))) (by push_cast; linarith)
  refine ⟨BitVec.ofNat 32 (IEEE.multV r), BitVec.ofNat 32 (b32.mul x.toNat (IEEE.multV r)), d1, ?_, ?_⟩
  · rw [IEEE.real32_eq, IEEE.real32_eq, d2]; exact p1
  · show RoundsEven (IEEE.toI32 (b32.mul x.toNat (IEEE.multV r))).toInt _
    rw [IEEE.toI32_eq q1 rfl (by omega) (by omega), IEEE.ofInt32_toInt (by omega) (by omega), IEEE.real32_eq, p2]
    exact roundsEven _

/-! ## C11 the error bound -/

/-- A value in range: at most 2^61 steps, and away from the overflow threshold of `float`. -/
theorem C11_float32 (r x : BitVec 32) (hr : GoodRes r) (hx : Finite32 x) (hx1 : |real32 x| ≤ 2 ^ (126 : Int))
    (hx2 : |real32 x| ≤ 2 ^ 61 * real32 r) :
    Finite32 (memoryless32 ops r x) ∧
    |real32 (memoryless32 ops r x) - real32 x| ≤
      real32 r / 2 + 2 ^ (-22 : Int) * real32 r + (2 ^ (-22 : Int) + 2 ^ (-44 : Int)) * |real32 x| := by
  obtain ⟨n, h1, _, _, _, h5, h6⟩ := IEEE.cycle32 hr hx hx1 hx2
  have hm : memoryless32 ops r x = ops.dequant32 r (BitVec.ofInt 64 n) := by
    unfold memoryless32
    rw [IEEE.fin32_not_nan hx, h1]
    rfl
  rw [hm]
  refine ⟨h5, h6.trans ?_⟩
  obtain ⟨_, r2, _⟩ := hr
  have hr0 : 0 < real32 r := lt_of_lt_of_le (IEEE.two_zpow_pos _) r2
  have c1 : (1 + b32.u) ^ 2 * (IEEE.a32 + b32.u * (1 + IEEE.a32)) + 2 * b32.u + b32.u ^ 2 ≤ 2 ^ (-22 : Int) + 2 ^ (-44 : Int) := by
    rw [IEEE.b32_u]; unfold IEEE.a32; norm_num
  have hh : b32.h ≤ 2 ^ (-25 : Int) := by rw [IEEE.b32_h]; exact IEEE.zpow_le_of_le (by norm_num)
  have hh2 : b32.h ≤ 2 ^ (-25 : Int) * real32 r := by
    rw [IEEE.b32_h]
    calc (2 : ℚ) ^ (-150 : Int) = 2 ^ (-25 : Int) * 2 ^ (-125 : Int) := by rw [← zpow_add₀ (by norm_num)]; norm_num
      _ ≤ _ := mul_le_mul_of_nonneg_left r2 (by positivity)
  have c2 : (1 + b32.u) ^ 2 * (1 / 2 + b32.h) ≤ 1 / 2 + 2 ^ (-22 : Int) - 2 ^ (-25 : Int) := by
    have := mul_le_mul_of_nonneg_left (show 1 / 2 + b32.h ≤ 1 / 2 + 2 ^ (-25 : Int) by gcongr) (show 0 ≤ (1 + b32.u) ^ 2 by positivity)
    refine this.trans ?_
    rw [IEEE.b32_u]; norm_num
  have d1 := mul_le_mul_of_nonneg_right c1 (abs_nonneg (real32 x))
  have d2 := mul_le_mul_of_nonneg_right c2 hr0.le
  clear c1 c2 hh
  generalize (2 : ℚ) ^ (-25 : Int) = k1 at hh2 d1 d2 ⊢
  generalize (2 : ℚ) ^ (-22 : Int) = k2 at hh2 d1 d2 ⊢
  generalize (2 : ℚ) ^ (-44 : Int) = k3 at hh2 d1 d2 ⊢
  linarith

/-- The vector path: at most 2^29 steps. -/
theorem C11_vector (r x : BitVec 32) (hr : GoodRes r) (hx : Finite32 x) (hx1 : |real32 x| ≤ 2 ^ (126 : Int))
    (hx2 : |real32 x| ≤ 2 ^ 29 * real32 r) :
    Finite32 (memorylessV ops r x) ∧
    |real32 (memorylessV ops r x) - real32 x| ≤
      real32 r / 2 + 2 ^ (-22 : Int) * real32 r + (2 ^ (-22 : Int) + 2 ^ (-44 : Int)) * |real32 x| := by
  obtain ⟨n, h1, _, _, _, h5, h6⟩ := IEEE.cycleV hr hx hx1 hx2
  have hm : memorylessV ops r x = ops.dequantV r (BitVec.ofInt 32 n) := by
    unfold memorylessV
    rw [IEEE.fin32_not_nan hx, h1]
    rfl
  rw [hm]
  refine ⟨h5, h6.trans ?_⟩
  obtain ⟨_, r2, _⟩ := hr
  have hr0 : 0 < real32 r := lt_of_lt_of_le (IEEE.two_zpow_pos _) r2
  have c1 : (1 + b32.u) ^ 2 * (b32.u + b32.u * (1 + b32.u)) + 2 * b32.u + b32.u ^ 2 ≤ 2 ^ (-22 : Int) + 2 ^ (-44 : Int) := by
    rw [IEEE.b32_u]; norm_num
  have hh : b32.h ≤ 2 ^ (-25 : Int) := by rw [IEEE.b32_h]; exact IEEE.zpow_le_of_le (by norm_num)
  have hh2 : b32.h ≤ 2 ^ (-25 : Int) * real32 r := by
    rw [IEEE.b32_h]
    calc (2 : ℚ) ^ (-150 : Int) = 2 ^ (-25 : Int) * 2 ^ (-125 : Int) := by rw [← zpow_add₀ (by norm_num)]; norm_num
      _ ≤ _ := mul_le_mul_of_nonneg_left r2 (by positivity)
  have c2 : (1 + b32.u) ^ 2 * (1 / 2 + b32.h) ≤ 1 / 2 + 2 ^ (-22 : Int) - 2 ^ (-25 : Int) := by
    have := mul_le_mul_of_nonneg_left (show 1 / 2 + b32.h ≤ 1 / 2 + 2 ^ (-25 : Int) by gcongr) (show 0 ≤ (1 + b32.u) ^ 2 by positivity)
    refine this.trans ?_
    rw [IEEE.b32_u]; norm_num
  have d1 := mul_le_mul_of_nonneg_right c1 (abs_nonneg (real32 x))
  have d2 := mul_le_mul_of_nonneg_right c2 hr0.le
  clear c1 c2 hh
  generalize (2 : ℚ) ^ (-25 : Int) = k1 at hh2 d1 d2 ⊢
  generalize (2 : ℚ) ^ (-22 : Int) = k2 at hh2 d1 d2 ⊢
  generalize (2 : ℚ) ^ (-44 : Int) = k3 at hh2 d1 d2 ⊢
  linarith

/-- FLOAT64 fields. -/
theorem C11_float64 (r : BitVec 32) (x : BitVec 64) (hr : GoodRes r) (hx : Finite64 x) (hx2 : |real64 x| ≤ 2 ^ 61 * real32 r) :
    Finite64 (memoryless64 ops r x) ∧
    |real64 (memoryless64 ops r x) - real64 x| ≤
      real32 r / 2 + 2 ^ (-51 : Int) * real32 r + (2 ^ (-51 : Int) + 2 ^ (-102 : Int)) * |real64 x| := by
  obtain ⟨n, h1, _, _, _, h5, h6⟩ := IEEE.cycle64 hr hx hx2
  have hm : memoryless64 ops r x = ops.dequant64 r (BitVec.ofInt 64 n) := by
    unfold memoryless64
    rw [IEEE.fin64_not_nan hx, h1]
    rfl
  rw [hm]
  refine ⟨h5, h6.trans ?_⟩
  obtain ⟨_, r2, _⟩ := hr
  have hr0 : 0 < real32 r := lt_of_lt_of_le (IEEE.two_zpow_pos _) r2
  have c1 : (1 + b64.u) ^ 2 * (b64.u + b64.u * (1 + b64.u)) + 2 * b64.u + b64.u ^ 2 ≤ 2 ^ (-51 : Int) + 2 ^ (-102 : Int) := by
    rw [IEEE.b64_u]; norm_num
  have hh : b64.h ≤ 2 ^ (-55 : Int) := by rw [IEEE.b64_h]; exact IEEE.zpow_le_of_le (by norm_num)
  have hh2 : b64.h ≤ 2 ^ (-55 : Int) * real32 r := by
    rw [IEEE.b64_h]
    calc (2 : ℚ) ^ (-1075 : Int) ≤ 2 ^ (-180 : Int) := IEEE.zpow_le_of_le (by norm_num)
      _ = 2 ^ (-55 : Int) * 2 ^ (-125 : Int) := by rw [← zpow_add₀ (by norm_num)]; norm_num
      _ ≤ _ := mul_le_mul_of_nonneg_left r2 (by positivity)
  have c2 : (1 + b64.u) ^ 2 * (1 / 2 + b64.h) ≤ 1 / 2 + 2 ^ (-51 : Int) - 2 ^ (-55 : Int) := by
    have := mul_le_mul_of_nonneg_left (show 1 / 2 + b64.h ≤ 1 / 2 + 2 ^ (-55 : Int) by gcongr) (show 0 ≤ (1 + b64.u) ^ 2 by positivity)
    refine this.trans ?_
    rw [IEEE.b64_u]; norm_num
  have d1 := mul_le_mul_of_nonneg_right c1 (abs_nonneg (real64 x))
  have d2 := mul_le_mul_of_nonneg_right c2 hr0.le
  clear c1 c2 hh
  generalize (2 : ℚ) ^ (-55 : Int) = k1 at hh2 d1 d2 ⊢
  generalize (2 : ℚ) ^ (-51 : Int) = k2 at hh2 d1 d2 ⊢
  generalize (2 : ℚ) ^ (-102 : Int) = k3 at hh2 d1 d2 ⊢
  linarith

/-- 12.345f with a resolution of 0.001f meets the hypotheses. -/
example : GoodRes 0x3a83126f#32 ∧ Finite32 0x41458525#32 ∧ |real32 0x41458525#32| ≤ 2 ^ (126 : Int) ∧
    |real32 0x41458525#32| ≤ 2 ^ 29 * real32 0x3a83126f#32 := by decide +kernel

/-- The bound of half a step alone, without the rounding terms, is false: 0.0035f at resolution 0.001f. -/
theorem C11_half_step_fails :
    ¬ ∀ r x : BitVec 32, GoodRes r → Finite32 x → |real32 x| ≤ 2 ^ 10 * real32 r →
      |real32 (memoryless32 ops r x) - real32 x| ≤ real32 r / 2 := by
  intro h
  have := h 0x3a83126f#32 0x3b656042#32 (by decide +kernel) (by decide +kernel) (by decide +kernel)
  revert this
  decide +kernel

/-- So is it on the vector path (0.0025f + one ulp at 0.001f). -/
theorem C11_half_step_vector_fails :
    ¬ ∀ r x : BitVec 32, GoodRes r → Finite32 x → |real32 x| ≤ 2 ^ 10 * real32 r →
      |real32 (memorylessV ops r x) - real32 x| ≤ real32 r / 2 := by
  intro h
  have := h 0x3a83126f#32 0x3b23d70b#32 (by decide +kernel) (by decide +kernel) (by decide +kernel)
  revert this
  decide +kernel

/-- Beyond 2^31 steps the vector path is not even close: 3000000.0f at resolution 0.001f decodes to -2147483.75. -/
theorem C11_vector_overflow :
    ¬ ∀ r x : BitVec 32, GoodRes r → Finite32 x → |real32 x| ≤ 2 ^ 32 * real32 r →
      |real32 (memorylessV ops r x) - real32 x| ≤ |real32 x| := by
  intro h
  have := h 0x3a83126f#32 0x4a371b00#32 (by decide +kernel) (by decide +kernel) (by decide +kernel)
  revert this
  decide +kernel

/-! ## C12 stability -/

/-- **C12, integers, `float`**: quantising what was dequantised gives the same integer, below a quarter of the range in which
`float` is exact on integers. -/
theorem C12_float32_integers (r : BitVec 32) (hr : GoodRes r) (n : BitVec 64) (hn : |n.toInt| < 2 ^ 22)
    (hv : |(n.toInt : ℚ)| * real32 r ≤ 2 ^ (127 : Int)) : ops.quant32 r (ops.dequant32 r n) = some n :=
  (IEEE.stable32 hr n hn hv).2

theorem C12_vector_integers (r : BitVec 32) (hr : GoodRes r) (n : BitVec 32) (hn : |n.toInt| < 2 ^ 22)
    (hv : |(n.toInt : ℚ)| * real32 r ≤ 2 ^ (127 : Int)) : ops.quantV r (ops.dequantV r n) = n :=
  (IEEE.stableV hr n hn hv).2

theorem C12_float64_integers (r : BitVec 32) (hr : GoodRes r) (n : BitVec 64) (hn : |n.toInt| < 2 ^ 51) :
    ops.quant64 r (ops.dequant64 r n) = some n :=
  (IEEE.stable64 hr n hn).2

example : GoodRes 0x3a83126f#32 ∧ |(4194303#64).toInt| < 2 ^ 22 ∧ |((4194303#64).toInt : ℚ)| * real32 0x3a83126f#32 ≤ 2 ^ (127 : Int) := by
  decide +kernel

/-- The limit 2^22 is sharp (to within 64): 4194368 steps of 0.009984306 re-quantise to 4194369 steps. -/
theorem C12_float32_fails :
    ¬ ∀ (r : BitVec 32) (n : BitVec 64), GoodRes r → |n.toInt| ≤ 2 ^ 22 + 64 → |(n.toInt : ℚ)| * real32 r ≤ 2 ^ (127 : Int) →
      ops.quant32 r (ops.dequant32 r n) = some n := by
  intro h
  have := h 0x3c239537#32 4194368#64 (by decide +kernel) (by decide +kernel) (by decide +kernel)
  revert this
  decide +kernel

/-- With the usual resolution of 0.001f (a millimetre) it happens at 8192.006 m. -/
theorem C12_millimetre_fails :
    ¬ ∀ n : BitVec 64, |n.toInt| ≤ 8192005 → ops.quant32 0x3a83126f#32 (ops.dequant32 0x3a83126f#32 n) = some n := by
  intro h
  have := h 8192005#64 (by decide +kernel)
  revert this
  decide +kernel

/-! ## The theorems applied to concrete data: 12.345f and -7.0 at resolution 0.001f -/

example : ∃ (d : BitVec 64) (m p : BitVec 32) (n : BitVec 64), Nearest64 d (1 / real32 0x3a83126f#32) ∧ Nearest32 m (real64 d) ∧
    Nearest32 p (real32 0x41458525#32 * real32 m) ∧ ops.quant32 0x3a83126f#32 0x41458525#32 = some n ∧ RoundsAway n.toInt (real32 p) :=
  C11_arithmetic_encode32 _ _ (by decide +kernel) (by decide +kernel) (by decide +kernel)
example : ∃ (m p : BitVec 32), Nearest32 m (1 / real32 0x3a83126f#32) ∧ Nearest32 p (real32 0x41458525#32 * real32 m) ∧
    RoundsEven (ops.quantV 0x3a83126f#32 0x41458525#32).toInt (real32 p) :=
  C11_arithmetic_encodeV _ _ (by decide +kernel) (by decide +kernel) (by decide +kernel)
example : ∃ (m p : BitVec 64) (n : BitVec 64), Nearest64 m (1 / real32 0x3a83126f#32) ∧ Nearest64 p (real64 0xc01c000000000000#64 * real64 m) ∧
    ops.quant64 0x3a83126f#32 0xc01c000000000000#64 = some n ∧ RoundsAway n.toInt (real64 p) :=
  C11_arithmetic_encode64 _ _ (by decide +kernel) (by decide +kernel) (by decide +kernel)
example : ops.quant32 0x3a83126f#32 0x41458525#32 = some 12345#64 ∧ ops.quant64 0x3a83126f#32 0xc01c000000000000#64 = some (BitVec.ofInt 64 (-7000)) := by
  decide +kernel
example : Finite32 (memoryless32 ops 0x3a83126f#32 0x41458525#32) :=
  (C11_float32 _ _ (by decide +kernel) (by decide +kernel) (by decide +kernel) (by decide +kernel)).1
example : Finite32 (memorylessV ops 0x3a83126f#32 0x41458525#32) :=
  (C11_vector _ _ (by decide +kernel) (by decide +kernel) (by decide +kernel) (by decide +kernel)).1
example : Finite64 (memoryless64 ops 0x3a83126f#32 0xc01c000000000000#64) :=
  (C11_float64 _ _ (by decide +kernel) (by decide +kernel) (by decide +kernel)).1
example : ops.quant32 0x3a83126f#32 (ops.dequant32 0x3a83126f#32 12345#64) = some 12345#64 :=
  C12_float32_integers _ (by decide +kernel) _ (by decide +kernel) (by decide +kernel)
example : ops.quantV 0x3a83126f#32 (ops.dequantV 0x3a83126f#32 4194303#32) = 4194303#32 :=
  C12_vector_integers _ (by decide +kernel) _ (by decide +kernel) (by decide +kernel)
example : ops.quant64 0x3a83126f#32 (ops.dequant64 0x3a83126f#32 (BitVec.ofInt 64 (-7000000000001))) = some (BitVec.ofInt 64 (-7000000000001)) :=
  C12_float64_integers _ (by decide +kernel) _ (by decide +kernel)

end Cloudini.Props
