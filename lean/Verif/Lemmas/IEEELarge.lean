import Verif.Lemmas.IEEEOrder

/-!
# Products too large for the integers of the codec
-/

namespace Cloudini.IEEE
open Cloudini.Props

theorem rnd_large (F : Fmt) (hF : F.Ok) {B : Int} {q : ℚ} (hB : 0 ≤ B) (ht : (B : ℚ) ≤ 2 ^ F.top) (h : (B : ℚ) ≤ |q|) :
    (1 - F.u) * B - F.h ≤ |F.rnd q| := by
  have hB' : (0 : ℚ) ≤ B := by exact_mod_cast hB
  have key : ∀ q : ℚ, (B : ℚ) ≤ q → (1 - F.u) * B - F.h ≤ F.rnd q := by
    intro q hq
    have h1 := F.rnd_mono hq
    have hs : Fmt.SignOk false (B : ℚ) := by simpa [Fmt.SignOk] using hB'
    have h2 := (F.ofRat_spec hF hs (by rw [abs_of_nonneg hB']; exact ht)).2.2.1
    rw [F.val_ofRat hs, abs_of_nonneg hB'] at h2
    have := (abs_le.1 h2).1
    linarith
  rcases abs_cases q with ⟨h1, h2⟩ | ⟨h1, h2⟩
  · exact (key q (by rw [← h1]; exact h)).trans (le_abs_self _)
  · have := key (-q) (by rw [← h1]; exact h)
    rw [F.rnd_neg] at this
    exact this.trans (neg_le_abs _)

theorem round_out {v : ℚ} {B : Int} (h : (B : ℚ) + 1 ≤ |v|) : ∀ z : Int, |(z : ℚ) - v| ≤ 1 / 2 → ¬ (-B ≤ z ∧ z < B) := by
  rintro z hz ⟨h1, h2⟩
  have h1' : -(B : ℚ) ≤ z := by exact_mod_cast h1
  have h2' : (z : ℚ) < B := by exact_mod_cast h2
  have := abs_le.1 hz
  rcases abs_cases v with ⟨e, _⟩ | ⟨e, _⟩ <;> rw [e] at h <;> linarith

theorem product_large {X m r a : ℚ} {c : ℚ} (hr : 0 < r) (ha : a ≤ 1) (hm : |m - 1 / r| ≤ a * (1 / r)) (hX : c * r ≤ |X|) :
    (1 - a) * c ≤ |X * m| := by
  have h1 : (1 - a) * (1 / r) ≤ |m| := by
    have := abs_sub_abs_le_abs_sub (1 / r) m
    rw [abs_of_pos (by positivity : (0 : ℚ) < 1 / r), abs_sub_comm] at this
    linarith
  have hnn : 0 ≤ (1 - a) * (1 / r) := mul_nonneg (by linarith) (by positivity)
  rw [abs_mul]
  calc (1 - a) * c = (c * r) * ((1 - a) * (1 / r)) := by field_simp
    _ ≤ |X| * ((1 - a) * (1 / r)) := mul_le_mul_of_nonneg_right hX hnn
    _ ≤ |X| * |m| := mul_le_mul_of_nonneg_left h1 (abs_nonneg _)

theorem quant32_large {r x : BitVec 32} (hr : GoodRes r) (hx : Finite32 x) (h : (2 ^ 63 + 2 ^ 41) * real32 r ≤ |real32 x|) : ops.quant32 r x = none := by
  obtain ⟨r1, r2, r3, r4⟩ := good_res hr
  obtain ⟨m1, m2⟩ := mult32_spec r1 r2 r3
  rw [real32_eq, real32_eq] at h
  have hx' := (fin32_iff x).2 hx
  have e24 : (2 : ℚ) ^ (-24 : Int) = 1 / 16777216 := by norm_num
  have e52 : (2 : ℚ) ^ (-52 : Int) = 1 / 4503599627370496 := by norm_num
  have h1 := product_large r4 (by unfold a32; rw [e24, e52]; norm_num) m2 h
  have h2 : (((2 ^ 63 + 2 ^ 40 : Int)) : ℚ) ≤ |b32.val x.toNat * b32.val (mult32 r)| := by
    refine le_trans ?_ h1
    unfold a32
    rw [e24, e52]
    norm_num
  have h3 := rnd_large b32 Fmt.b32_ok (by norm_num) (by rw [b32_top]; norm_num) h2
  rw [← b32.val_mul hx' m1] at h3
  have h4 : (((2 ^ 63 : Int)) : ℚ) + 1 ≤ |b32.val (b32.mul x.toNat (mult32 r))| := by
    refine le_trans ?_ h3
    rw [b32_u, b32_h, e24]
    have : (2 : ℚ) ^ (-150 : Int) ≤ 1 := by norm_num
    have e : (((2 ^ 63 + 2 ^ 40 : Int)) : ℚ) = 2 ^ 63 + 2 ^ 40 := by norm_num
    have e' : (((2 ^ 63 : Int)) : ℚ) = 2 ^ 63 := by norm_num
    rw [e, e']
    linarith
  show toI64 b32 (b32.mul x.toNat (mult32 r)) = none
  unfold toI64
  rw [if_neg]
  rintro ⟨_, h5, h6⟩
  exact round_out h4 _ (roundAway_err _) ⟨h5, h6⟩

theorem quantV_large {r x : BitVec 32} (hr : GoodRes r) (hx : Finite32 x) (h : (2 ^ 31 + 2 ^ 9) * real32 r ≤ |real32 x|) :
    ops.quantV r x = BitVec.intMin 32 := by
  obtain ⟨r1, r2, r3, r4⟩ := good_res hr
  obtain ⟨m1, m2, _⟩ := multV_spec r1 (le_trans (zpow_le_of_le (by norm_num)) r2) (r3.trans (zpow_le_of_le (by norm_num)))
  rw [real32_eq, real32_eq] at h
  have hx' := (fin32_iff x).2 hx
  have e24 : (2 : ℚ) ^ (-24 : Int) = 1 / 16777216 := by norm_num
  have h1 := product_large r4 (by rw [e24]; norm_num) m2 h
  have h2 : (((2 ^ 31 + 2 ^ 8 : Int)) : ℚ) ≤ |b32.val x.toNat * b32.val (multV r)| := by
    refine le_trans ?_ h1
    rw [e24]
    norm_num
  have h3 := rnd_large b32 Fmt.b32_ok (by norm_num) (by rw [b32_top]; norm_num) h2
  rw [← b32.val_mul hx' m1] at h3
  have h4 : (((2 ^ 31 : Int)) : ℚ) + 1 ≤ |b32.val (b32.mul x.toNat (multV r))| := by
    refine le_trans ?_ h3
    rw [b32_u, b32_h, e24]
    have : (2 : ℚ) ^ (-150 : Int) ≤ 1 := by norm_num
    have e : (((2 ^ 31 + 2 ^ 8 : Int)) : ℚ) = 2 ^ 31 + 2 ^ 8 := by norm_num
    have e' : (((2 ^ 31 : Int)) : ℚ) = 2 ^ 31 := by norm_num
    rw [e, e']
    linarith
  show toI32 (b32.mul x.toNat (multV r)) = _
  unfold toI32
  rw [if_neg]
  rintro ⟨_, h5, h6⟩
  exact round_out h4 _ (roundEven_err _) ⟨h5, h6⟩

theorem quant64_large {r : BitVec 32} {x : BitVec 64} (hr : GoodRes r) (hx : Finite64 x) (h : (2 ^ 63 + 2 ^ 12) * real32 r ≤ |real64 x|) :
    ops.quant64 r x = none := by
  obtain ⟨r1, r2, r3, r4⟩ := good_res hr
  obtain ⟨m1, m2, _⟩ := mult64_spec r1 (le_trans (zpow_le_of_le (by norm_num)) r2) (r3.trans (zpow_le_of_le (by norm_num)))
  rw [real32_eq, real64_eq] at h
  have hx' := (fin64_iff x).2 hx
  have e53 : (2 : ℚ) ^ (-53 : Int) = 1 / 9007199254740992 := by norm_num
  have h1 := product_large r4 (by rw [e53]; norm_num) m2 h
  have h2 : (((2 ^ 63 + 2 ^ 11 : Int)) : ℚ) ≤ |b64.val x.toNat * b64.val (mult64 r)| := by
    refine le_trans ?_ h1
    rw [e53]
    norm_num
  have h3 := rnd_large b64 Fmt.b64_ok (by norm_num) (by rw [b64_top]; exact le_trans (by norm_num) (zpow_le_of_le (show (64 : Int) ≤ 1023 by norm_num))) h2
  rw [← b64.val_mul hx' m1] at h3
  have h4 : (((2 ^ 63 : Int)) : ℚ) + 1 ≤ |b64.val (b64.mul x.toNat (mult64 r))| := by
    refine le_trans ?_ h3
    rw [b64_u, b64_h, e53]
    have : (2 : ℚ) ^ (-1075 : Int) ≤ 1 := le_trans (zpow_le_of_le (show (-1075 : Int) ≤ 0 by norm_num)) (by norm_num)
    have e : (((2 ^ 63 + 2 ^ 11 : Int)) : ℚ) = 2 ^ 63 + 2 ^ 11 := by norm_num
    have e' : (((2 ^ 63 : Int)) : ℚ) = 2 ^ 63 := by norm_num
    rw [e, e']
    generalize (2 : ℚ) ^ (-1075 : Int) = t at *
    linarith
  show toI64 b64 (b64.mul x.toNat (mult64 r)) = none
  unfold toI64
  rw [if_neg]
  rintro ⟨_, h5, h6⟩
  exact round_out h4 _ (roundAway_err _) ⟨h5, h6⟩

/-- A product with an infinity is no finite number. -/
theorem mul_inf_fin (F : Fmt) (hF : F.isFin F.indefinite = false) (hi : ∀ s, F.isFin (F.infinity s) = false) {a b : Nat} (hb : F.isFin b = true)
    (ha : F.isInf a = true) (hn : F.isNaN a = false) : F.isFin (F.mul a b) = false := by
  obtain ⟨b1, b2⟩ := F.fin_not_nan hb
  unfold Fmt.mul
  rw [hn, b1, ha]
  simp only [Bool.false_eq_true, if_false, if_true]
  split
  · exact hF
  · exact hi _

theorem inf32_of {x : BitVec 32} (hn : isNaN32 x = false) (hx : ¬ Finite32 x) : b32.isInf x.toNat = true ∧ b32.isNaN x.toNat = false := by
  have := split32 x.toNat x.isLt
  rw [show b32.isInf x.toNat = decide (x.toNat % 2 ^ 31 = 255 * 2 ^ 23) from rfl,
    show b32.isNaN x.toNat = decide (255 * 2 ^ 23 < x.toNat % 2 ^ 31) from rfl, decide_eq_true_eq, decide_eq_false_iff_not]
  unfold isNaN32 at hn
  unfold Finite32 at hx
  simp only [decide_eq_false_iff_not] at hn
  omega

theorem inf64_of {x : BitVec 64} (hn : isNaN64 x = false) (hx : ¬ Finite64 x) : b64.isInf x.toNat = true ∧ b64.isNaN x.toNat = false := by
  have := split64 x.toNat x.isLt
  rw [show b64.isInf x.toNat = decide (x.toNat % 2 ^ 63 = 2047 * 2 ^ 52) from rfl,
    show b64.isNaN x.toNat = decide (2047 * 2 ^ 52 < x.toNat % 2 ^ 63) from rfl, decide_eq_true_eq, decide_eq_false_iff_not]
  unfold isNaN64 at hn
  unfold Finite64 at hx
  simp only [decide_eq_false_iff_not] at hn
  omega

theorem quant32_inf {r x : BitVec 32} (hr : GoodRes r) (hn : isNaN32 x = false) (hx : ¬ Finite32 x) : ops.quant32 r x = none := by
  obtain ⟨r1, r2, r3, _⟩ := good_res hr
  obtain ⟨m1, _⟩ := mult32_spec r1 r2 r3
  obtain ⟨i1, i2⟩ := inf32_of hn hx
  have := mul_inf_fin b32 (by decide) (by decide) m1 i1 i2
  show toI64 b32 (b32.mul x.toNat (mult32 r)) = none
  unfold toI64
  rw [if_neg (by rw [this]; simp)]

theorem quantV_inf {r x : BitVec 32} (hr : GoodRes r) (hn : isNaN32 x = false) (hx : ¬ Finite32 x) : ops.quantV r x = BitVec.intMin 32 := by
  obtain ⟨r1, r2, r3, _⟩ := good_res hr
  obtain ⟨m1, _⟩ := multV_spec r1 (le_trans (zpow_le_of_le (by norm_num)) r2) (r3.trans (zpow_le_of_le (by norm_num)))
  obtain ⟨i1, i2⟩ := inf32_of hn hx
  have := mul_inf_fin b32 (by decide) (by decide) m1 i1 i2
  show toI32 (b32.mul x.toNat (multV r)) = _
  unfold toI32
  rw [if_neg (by rw [this]; simp)]

theorem quant64_inf {r : BitVec 32} {x : BitVec 64} (hr : GoodRes r) (hn : isNaN64 x = false) (hx : ¬ Finite64 x) : ops.quant64 r x = none := by
  obtain ⟨r1, r2, r3, _⟩ := good_res hr
  obtain ⟨m1, _⟩ := mult64_spec r1 (le_trans (zpow_le_of_le (by norm_num)) r2) (r3.trans (zpow_le_of_le (by norm_num)))
  obtain ⟨i1, i2⟩ := inf64_of hn hx
  have := mul_inf_fin b64 (by decide) (by decide) m1 i1 i2
  show toI64 b64 (b64.mul x.toNat (mult64 r)) = none
  unfold toI64
  rw [if_neg (by rw [this]; simp)]

/-- INT_MIN steps. -/
theorem dequantV_intMin {r : BitVec 32} (hr : GoodRes r) (h : real32 r ≤ 2 ^ (90 : Int)) :
    real32 (ops.dequantV r (BitVec.intMin 32)) ≤ -(2 ^ 30) * real32 r := by
  have hr0 : 0 < real32 r := lt_of_lt_of_le (two_zpow_pos _) hr.2.1
  rw [dequantV_val hr.1, show (BitVec.intMin 32).toInt = -2147483648 by decide]
  have e24 : (2 : ℚ) ^ (-24 : Int) = 1 / 16777216 := by norm_num
  have e150 : (2 : ℚ) ^ (-150 : Int) ≤ 1 := by norm_num
  have n1 : Fmt.SignOk true (((-2147483648 : Int)) : ℚ) := by simp [Fmt.SignOk]
  have h1 := (b32.ofRat_spec Fmt.b32_ok n1 (by rw [b32_top]; norm_num)).2.2.1
  rw [b32.val_ofRat n1, b32_u, b32_h, e24] at h1
  have e : (((-2147483648 : Int)) : ℚ) = -2147483648 := by norm_num
  rw [e] at h1 ⊢
  generalize b32.rnd (-2147483648) = v at *
  rw [abs_of_neg (show (-2147483648 : ℚ) < 0 by norm_num)] at h1
  obtain ⟨h2, h3⟩ := abs_le.1 h1
  have hv : v ≤ -2147483000 := by linarith
  have hv' : -2147484000 ≤ v := by linarith
  have n2 : Fmt.SignOk true (v * real32 r) := by
    simp only [Fmt.SignOk, if_true]
    nlinarith
  have hb : |v * real32 r| ≤ 2 ^ b32.top := by
    rw [b32_top, abs_mul, abs_of_pos hr0]
    have : |v| ≤ 2147484000 := abs_le.2 ⟨hv', by linarith⟩
    calc |v| * real32 r ≤ 2147484000 * 2 ^ (90 : Int) := mul_le_mul this h hr0.le (by norm_num)
      _ ≤ _ := by norm_num
  have h4 := (b32.ofRat_spec Fmt.b32_ok n2 hb).2.2.1
  rw [b32.val_ofRat n2, b32_u, b32_h, e24] at h4
  have hneg : v * real32 r ≤ -2147483000 * real32 r := mul_le_mul_of_nonneg_right hv hr0.le
  have hnp : v * real32 r ≤ 0 := hneg.trans (by nlinarith)
  rw [abs_of_nonpos hnp] at h4
  have h5 := (abs_le.1 h4).2
  have hh : (2 : ℚ) ^ (-150 : Int) ≤ real32 r := le_trans (zpow_le_of_le (by norm_num)) hr.2.1
  generalize (2 : ℚ) ^ (-150 : Int) = t at *
  nlinarith

end Cloudini.IEEE
