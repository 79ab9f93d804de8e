import Verif.Spec.Float
import Verif.Spec.Cloud
import Verif.Lemmas.IEEEStable

/-!
# The model's arithmetic in terms of `real32` / `real64`
-/

namespace Cloudini.IEEE
open Cloudini.Props

theorem split32 (x : Nat) (hx : x < 2 ^ 32) : x % 2 ^ 31 / 2 ^ 23 = x / 2 ^ 23 % 2 ^ 8 ∧ x % 2 ^ 31 % 2 ^ 23 = x % 2 ^ 23 ∧
    x % 2 ^ 31 < 2 ^ 31 ∧ (x / 2 ^ 31 = 0 ∨ x / 2 ^ 31 = 1) ∧ (2 ^ 31 ≤ x ↔ x / 2 ^ 31 = 1) := by omega
theorem split64 (x : Nat) (hx : x < 2 ^ 64) : x % 2 ^ 63 / 2 ^ 52 = x / 2 ^ 52 % 2 ^ 11 ∧ x % 2 ^ 63 % 2 ^ 52 = x % 2 ^ 52 ∧
    x % 2 ^ 63 < 2 ^ 63 ∧ (x / 2 ^ 63 = 0 ∨ x / 2 ^ 63 = 1) ∧ (2 ^ 63 ≤ x ↔ x / 2 ^ 63 = 1) := by omega

theorem real32_eq (x : BitVec 32) : real32 x = b32.val x.toNat := by
  obtain ⟨h1, h2, _, h4, h5⟩ := split32 x.toNat x.isLt
  have hneg : b32.neg x.toNat = decide (2 ^ 31 ≤ x.toNat) := rfl
  have hmag : b32.mag x.toNat = x.toNat % 2 ^ 31 := rfl
  have hval : ∀ m, b32.magVal m = if m / 2 ^ 23 = 0 then (m : ℚ) * 2 ^ (-149 : Int)
    else ((m % 2 ^ 23 + 2 ^ 23 : Nat) : ℚ) * 2 ^ ((m / 2 ^ 23 : Nat) - 1 + -149 : Int) := fun _ => rfl
  unfold real32 Fmt.val
  rw [hneg, hmag, hval, h1, h2]
  have hm : x.toNat / 2 ^ 23 % 2 ^ 8 = 0 → x.toNat % 2 ^ 31 = x.toNat % 2 ^ 23 := by omega
  have e1 : ∀ e : Nat, ((e : Int) - 150) = (e : Int) - 1 + -149 := by intro e; ring
  rcases h4 with h4 | h4
  · rw [h4]
    have : ¬ 2 ^ 31 ≤ x.toNat := by omega
    simp only [this, decide_false, Bool.false_eq_true, if_false, pow_zero, one_mul]
    split
    · rename_i hc; rw [hm hc]
    · rw [e1]; push_cast; ring
  · rw [h4]
    have : 2 ^ 31 ≤ x.toNat := by omega
    simp only [this, decide_true, if_true, pow_one, neg_mul, one_mul]
    congr 1
    split
    · rename_i hc; rw [hm hc]
    · rw [e1]; push_cast; ring

theorem real64_eq (x : BitVec 64) : real64 x = b64.val x.toNat := by
  obtain ⟨h1, h2, _, h4, h5⟩ := split64 x.toNat x.isLt
  have hneg : b64.neg x.toNat = decide (2 ^ 63 ≤ x.toNat) := rfl
  have hmag : b64.mag x.toNat = x.toNat % 2 ^ 63 := rfl
  have hval : ∀ m, b64.magVal m = if m / 2 ^ 52 = 0 then (m : ℚ) * 2 ^ (-1074 : Int)
    else ((m % 2 ^ 52 + 2 ^ 52 : Nat) : ℚ) * 2 ^ ((m / 2 ^ 52 : Nat) - 1 + -1074 : Int) := fun _ => rfl
  unfold real64 Fmt.val
  rw [hneg, hmag, hval, h1, h2]
  have hm : x.toNat / 2 ^ 52 % 2 ^ 11 = 0 → x.toNat % 2 ^ 63 = x.toNat % 2 ^ 52 := by omega
  have e1 : ∀ e : Nat, ((e : Int) - 1075) = (e : Int) - 1 + -1074 := by intro e; ring
  rcases h4 with h4 | h4
  · rw [h4]
    have : ¬ 2 ^ 63 ≤ x.toNat := by omega
    simp only [this, decide_false, Bool.false_eq_true, if_false, pow_zero, one_mul]
    split
    · rename_i hc; rw [hm hc]
    · rw [e1]; push_cast; ring
  · rw [h4]
    have : 2 ^ 63 ≤ x.toNat := by omega
    simp only [this, decide_true, if_true, pow_one, neg_mul, one_mul]
    congr 1
    split
    · rename_i hc; rw [hm hc]
    · rw [e1]; push_cast; ring

theorem fin32_iff (x : BitVec 32) : b32.isFin x.toNat = true ↔ Finite32 x := by
  have := split32 x.toNat x.isLt
  rw [show b32.isFin x.toNat = decide (x.toNat % 2 ^ 31 < 255 * 2 ^ 23) from rfl, decide_eq_true_eq]
  unfold Finite32
  constructor <;> intro h <;> omega

theorem fin64_iff (x : BitVec 64) : b64.isFin x.toNat = true ↔ Finite64 x := by
  have := split64 x.toNat x.isLt
  rw [show b64.isFin x.toNat = decide (x.toNat % 2 ^ 63 < 2047 * 2 ^ 52) from rfl, decide_eq_true_eq]
  unfold Finite64
  constructor <;> intro h <;> omega

theorem fin32_not_nan {x : BitVec 32} (h : Finite32 x) : isNaN32 x = false := by
  unfold isNaN32 Finite32 at *
  simp only [decide_eq_false_iff_not]
  omega
theorem fin64_not_nan {x : BitVec 64} (h : Finite64 x) : isNaN64 x = false := by
  unfold isNaN64 Finite64 at *
  simp only [decide_eq_false_iff_not]
  omega

theorem toNat_ofNat32 {n : Nat} (h : n < 2 * b32.sgn) : (BitVec.ofNat 32 n).toNat = n := by
  rw [BitVec.toNat_ofNat]
  exact Nat.mod_eq_of_lt (by simpa [b32, Fmt.sgn] using h)
theorem toNat_ofNat64 {n : Nat} (h : n < 2 * b64.sgn) : (BitVec.ofNat 64 n).toNat = n := by
  rw [BitVec.toNat_ofNat]
  exact Nat.mod_eq_of_lt (by simpa [b64, Fmt.sgn] using h)

/-- A rounded number within ±B fits. -/
theorem abs_int_le {z : Int} {B : Nat} (h : |(z : ℚ)| < B + 1) : -(B : Int) ≤ z ∧ z ≤ B := by
  rw [abs_lt] at h
  constructor
  · have : (-(B : Int) - 1 : Int) < z := by
      have h1 : ((-(B : Int) - 1 : Int) : ℚ) < z := by push_cast; linarith [h.1]
      exact_mod_cast h1
    omega
  · have : z < (B : Int) + 1 := by
      have h1 : (z : ℚ) < (((B : Int) + 1 : Int) : ℚ) := by push_cast; exact h.2
      exact_mod_cast h1
    omega

theorem toI64_eq (F : Fmt) {p : Nat} (hp : F.isFin p = true) {z : Int} (hz : roundAway (F.val p) = z)
    (h1 : -2 ^ 63 ≤ z) (h2 : z < 2 ^ 63) : toI64 F p = some (BitVec.ofInt 64 z) := by
  unfold toI64
  rw [hz, if_pos ⟨hp, h1, h2⟩]

theorem toI32_eq {p : Nat} (hp : b32.isFin p = true) {z : Int} (hz : roundEven (b32.val p) = z)
    (h1 : -2 ^ 31 ≤ z) (h2 : z < 2 ^ 31) : toI32 p = BitVec.ofInt 32 z := by
  unfold toI32
  rw [hz, if_pos ⟨hp, h1, h2⟩]

theorem ofInt64_toInt {z : Int} (h1 : -2 ^ 63 ≤ z) (h2 : z < 2 ^ 63) : (BitVec.ofInt 64 z).toInt = z := by
  rw [BitVec.toInt_ofInt]
  apply Int.bmod_eq_of_le <;> omega
theorem ofInt32_toInt {z : Int} (h1 : -2 ^ 31 ≤ z) (h2 : z < 2 ^ 31) : (BitVec.ofInt 32 z).toInt = z := by
  rw [BitVec.toInt_ofInt]
  apply Int.bmod_eq_of_le <;> omega

/-! ### `cycle` on the three paths -/

theorem n_small {n : Int} {r x c d : ℚ} {B : Nat} (hr : 0 < r) (hB : |x| ≤ B * r) (h : |(n : ℚ) * r - x| ≤ c * |x| + d * r)
    (hc : 0 ≤ c) (hcd : c * B + d < 1) : |(n : ℚ)| < B + 1 := by
  have h1 := abs_sub_abs_le_abs_sub ((n : ℚ) * r) x
  rw [abs_mul, abs_of_pos hr] at h1
  have h2 : c * |x| ≤ c * (B * r) := mul_le_mul_of_nonneg_left hB hc
  have h3 : |(n : ℚ)| * r < (B + 1) * r := by nlinarith
  exact lt_of_mul_lt_mul_right h3 hr.le

theorem le0_of_pos {F : Fmt} {a : Nat} (h : 0 < F.val a) : F.le0 a = false := by
  have h1 := F.val_sign a
  have h2 := F.val_abs a
  unfold Fmt.le0
  have hn : F.neg a = false := by
    by_contra hc
    simp only [Bool.not_eq_false] at hc
    rw [hc] at h1
    simp only [Fmt.SignOk, if_true] at h1
    linarith
  have hm : F.mag a ≠ 0 := by
    intro h0
    rw [h0, Fmt.magVal_zero, abs_of_pos h] at h2
    linarith
  simp [hn, hm]

theorem good_res {r : BitVec 32} (h : GoodRes r) : b32.isFin r.toNat = true ∧ (2 : ℚ) ^ (-125 : Int) ≤ b32.val r.toNat ∧
    b32.val r.toNat ≤ 2 ^ (125 : Int) ∧ 0 < b32.val r.toNat := by
  obtain ⟨h1, h2, h3⟩ := h
  rw [real32_eq] at h2 h3
  exact ⟨(fin32_iff r).2 h1, h2, h3, lt_of_lt_of_le (two_zpow_pos _) h2⟩

theorem a32_nonneg : 0 ≤ a32 := by unfold a32; positivity

/-- The scalar float path. -/
theorem cycle32 {r x : BitVec 32} (hr : GoodRes r) (hx : Finite32 x) (hx1 : |real32 x| ≤ 2 ^ (126 : Int))
    (hx2 : |real32 x| ≤ 2 ^ 61 * real32 r) :
    ∃ n : Int, ops.quant32 r x = some (BitVec.ofInt 64 n) ∧ (BitVec.ofInt 64 n).toInt = n ∧ Fits62 (BitVec.ofInt 64 n) ∧
      |(n : ℚ) * real32 r - real32 x| ≤ (a32 + b32.u * (1 + a32)) * |real32 x| + (1 / 2 + b32.h) * real32 r ∧
      Finite32 (ops.dequant32 r (BitVec.ofInt 64 n)) ∧
      |real32 (ops.dequant32 r (BitVec.ofInt 64 n)) - real32 x| ≤
        ((1 + b32.u) ^ 2 * (a32 + b32.u * (1 + a32)) + 2 * b32.u + b32.u ^ 2) * |real32 x| +
        (1 + b32.u) ^ 2 * (1 / 2 + b32.h) * real32 r + b32.h := by
  obtain ⟨r1, r2, r3, r4⟩ := good_res hr
  obtain ⟨m1, m2⟩ := mult32_spec r1 r2 r3
  rw [real32_eq, real32_eq] at *
  have hx' := (fin32_iff x).2 hx
  obtain ⟨p1, p2⟩ := cycle b32 Fmt.b32_ok (by decide) (by decide) (by rw [b32_u]) (by rw [b32_h]; exact zpow_le_of_le (by norm_num))
    a32_nonneg (by unfold a32; norm_num) hx' r1 m1 r4 m2 (by rw [b32_top]; exact hx1)
    (by rw [b32_top]; exact r3.trans (zpow_le_of_le (by norm_num)))
    (hx2.trans (mul_le_mul_of_nonneg_right (by norm_num) r4.le))
  obtain ⟨q1, q2, q3, q4⟩ := p2 _ (roundAway_err _)
  set n := roundAway (b32.val (b32.mul x.toNat (mult32 r))) with hn
  have hb : |(n : ℚ)| < ((2 ^ 62 - 1 : Nat) : ℚ) + 1 := by
    have h1 := abs_sub_abs_le_abs_sub ((n : ℚ) * b32.val r.toNat) (b32.val x.toNat)
    rw [abs_mul, abs_of_pos r4] at h1
    have hc : a32 + b32.u * (1 + a32) ≤ 1 / 4 := by rw [b32_u]; unfold a32; norm_num
    have hh : b32.h ≤ 1 := by rw [b32_h]; exact zpow_le_one_of_nonpos₀ (by norm_num) (by norm_num)
    have h2 : (a32 + b32.u * (1 + a32)) * |b32.val x.toNat| ≤ 1 / 4 * |b32.val x.toNat| := mul_le_mul_of_nonneg_right hc (abs_nonneg _)
    have h3 : (1 / 2 + b32.h) * b32.val r.toNat ≤ (3 / 2) * b32.val r.toNat := mul_le_mul_of_nonneg_right (by linarith) r4.le
    have h4 : |(n : ℚ)| * b32.val r.toNat < 2 ^ 62 * b32.val r.toNat := by
      have : |(n : ℚ)| * b32.val r.toNat ≤ (5 / 4 * 2 ^ 61 + 3 / 2) * b32.val r.toNat := by linarith
      refine lt_of_le_of_lt this (mul_lt_mul_of_pos_right (by norm_num) r4)
    have := lt_of_mul_lt_mul_right h4 r4.le
    norm_num at this ⊢; exact this
  obtain ⟨b1, b2⟩ := abs_int_le hb
  have hi := ofInt64_toInt (z := n) (by omega) (by omega)
  have hv : (ops.dequant32 r (BitVec.ofInt 64 n)) = BitVec.ofNat 32 (b32.mul (b32.ofInt n) r.toNat) := by
    show BitVec.ofNat 32 _ = _; rw [hi]
  have hvn : (ops.dequant32 r (BitVec.ofInt 64 n)).toNat = b32.mul (b32.ofInt n) r.toNat := by
    rw [hv]; exact toNat_ofNat32 q3
  refine ⟨n, toI64_eq b32 p1 rfl (by omega) (by omega), hi, ?_, q1, ?_, ?_⟩
  · unfold Fits62; rw [hi]; omega
  · rw [← fin32_iff, hvn]; exact q2
  · rw [real32_eq, hvn]; exact q4

/-- The vector path. -/
theorem cycleV {r x : BitVec 32} (hr : GoodRes r) (hx : Finite32 x) (hx1 : |real32 x| ≤ 2 ^ (126 : Int))
    (hx2 : |real32 x| ≤ 2 ^ 29 * real32 r) :
    ∃ n : Int, ops.quantV r x = BitVec.ofInt 32 n ∧ (BitVec.ofInt 32 n).toInt = n ∧ Fits30 (BitVec.ofInt 32 n) ∧
      |(n : ℚ) * real32 r - real32 x| ≤ (b32.u + b32.u * (1 + b32.u)) * |real32 x| + (1 / 2 + b32.h) * real32 r ∧
      Finite32 (ops.dequantV r (BitVec.ofInt 32 n)) ∧
      |real32 (ops.dequantV r (BitVec.ofInt 32 n)) - real32 x| ≤
        ((1 + b32.u) ^ 2 * (b32.u + b32.u * (1 + b32.u)) + 2 * b32.u + b32.u ^ 2) * |real32 x| +
        (1 + b32.u) ^ 2 * (1 / 2 + b32.h) * real32 r + b32.h := by
  obtain ⟨r1, r2, r3, r4⟩ := good_res hr
  obtain ⟨m1, m2, _⟩ := multV_spec r1 (le_trans (zpow_le_of_le (by norm_num)) r2) (r3.trans (zpow_le_of_le (by norm_num)))
  rw [real32_eq, real32_eq] at *
  have hx' := (fin32_iff x).2 hx
  rw [← b32_u] at m2
  obtain ⟨p1, p2⟩ := cycle b32 Fmt.b32_ok (by decide) (by decide) (by rw [b32_u]) (by rw [b32_h]; exact zpow_le_of_le (by norm_num))
    b32.u_pos.le (by rw [b32_u]; norm_num) hx' r1 m1 r4 m2 (by rw [b32_top]; exact hx1)
    (by rw [b32_top]; exact r3.trans (zpow_le_of_le (by norm_num)))
    (hx2.trans (mul_le_mul_of_nonneg_right (by norm_num) r4.le))
  obtain ⟨q1, q2, q3, q4⟩ := p2 _ (roundEven_err _)
  set n := roundEven (b32.val (b32.mul x.toNat (multV r))) with hn
  have hb : |(n : ℚ)| < ((2 ^ 30 - 1 : Nat) : ℚ) + 1 := by
    have h1 := abs_sub_abs_le_abs_sub ((n : ℚ) * b32.val r.toNat) (b32.val x.toNat)
    rw [abs_mul, abs_of_pos r4] at h1
    have hc : b32.u + b32.u * (1 + b32.u) ≤ 1 / 4 := by rw [b32_u]; norm_num
    have hh : b32.h ≤ 1 := by rw [b32_h]; exact zpow_le_one_of_nonpos₀ (by norm_num) (by norm_num)
    have h2 : (b32.u + b32.u * (1 + b32.u)) * |b32.val x.toNat| ≤ 1 / 4 * |b32.val x.toNat| := mul_le_mul_of_nonneg_right hc (abs_nonneg _)
    have h3 : (1 / 2 + b32.h) * b32.val r.toNat ≤ (3 / 2) * b32.val r.toNat := mul_le_mul_of_nonneg_right (by linarith) r4.le
    have h4 : |(n : ℚ)| * b32.val r.toNat < 2 ^ 30 * b32.val r.toNat := by
      have : |(n : ℚ)| * b32.val r.toNat ≤ (5 / 4 * 2 ^ 29 + 3 / 2) * b32.val r.toNat := by linarith
      refine lt_of_le_of_lt this (mul_lt_mul_of_pos_right (by norm_num) r4)
    have := lt_of_mul_lt_mul_right h4 r4.le
    norm_num at this ⊢; exact this
  obtain ⟨b1, b2⟩ := abs_int_le hb
  have hi := ofInt32_toInt (z := n) (by omega) (by omega)
  have hv : (ops.dequantV r (BitVec.ofInt 32 n)) = BitVec.ofNat 32 (b32.mul (b32.ofInt n) r.toNat) := by
    show BitVec.ofNat 32 _ = _; rw [hi]
  have hvn : (ops.dequantV r (BitVec.ofInt 32 n)).toNat = b32.mul (b32.ofInt n) r.toNat := by
    rw [hv]; exact toNat_ofNat32 q3
  refine ⟨n, toI32_eq p1 rfl (by omega) (by omega), hi, ?_, q1, ?_, ?_⟩
  · unfold Fits30; rw [hi]; omega
  · rw [← fin32_iff, hvn]; exact q2
  · rw [real32_eq, hvn]; exact q4

/-- The double path. -/
theorem cycle64 {r : BitVec 32} {x : BitVec 64} (hr : GoodRes r) (hx : Finite64 x)
    (hx2 : |real64 x| ≤ 2 ^ 61 * real32 r) :
    ∃ n : Int, ops.quant64 r x = some (BitVec.ofInt 64 n) ∧ (BitVec.ofInt 64 n).toInt = n ∧ Fits62 (BitVec.ofInt 64 n) ∧
      |(n : ℚ) * real32 r - real64 x| ≤ (b64.u + b64.u * (1 + b64.u)) * |real64 x| + (1 / 2 + b64.h) * real32 r ∧
      Finite64 (ops.dequant64 r (BitVec.ofInt 64 n)) ∧
      |real64 (ops.dequant64 r (BitVec.ofInt 64 n)) - real64 x| ≤
        ((1 + b64.u) ^ 2 * (b64.u + b64.u * (1 + b64.u)) + 2 * b64.u + b64.u ^ 2) * |real64 x| +
        (1 + b64.u) ^ 2 * (1 / 2 + b64.h) * real32 r + b64.h := by
  obtain ⟨r1, r2, r3, r4⟩ := good_res hr
  obtain ⟨m1, m2, _⟩ := mult64_spec r1 (le_trans (zpow_le_of_le (by norm_num)) r2) (r3.trans (zpow_le_of_le (by norm_num)))
  obtain ⟨w1, w2⟩ := widen_spec r1
  rw [real32_eq, real64_eq] at *
  rw [← w2] at r2 r3 r4 m2 hx2 ⊢
  have hx' := (fin64_iff x).2 hx
  rw [← b64_u] at m2
  obtain ⟨p1, p2⟩ := cycle b64 Fmt.b64_ok (by decide) (by decide) (by rw [b64_u]; exact zpow_le_of_le (by norm_num)) (by rw [b64_h]; exact zpow_le_of_le (by norm_num))
    b64.u_pos.le (by rw [b64_u]; exact zpow_le_of_le (by norm_num)) hx' w1 m1 r4 m2
    (by rw [b64_top]
        refine hx2.trans ?_
        calc 2 ^ 61 * b64.val (widen r.toNat) ≤ 2 ^ 61 * 2 ^ (125 : Int) := mul_le_mul_of_nonneg_left r3 (by norm_num)
          _ = 2 ^ (186 : Int) := by norm_num
          _ ≤ _ := zpow_le_of_le (by norm_num))
    (by rw [b64_top]; exact r3.trans (zpow_le_of_le (by norm_num)))
    (hx2.trans (mul_le_mul_of_nonneg_right (by norm_num) r4.le))
  obtain ⟨q1, q2, q3, q4⟩ := p2 _ (roundAway_err _)
  set n := roundAway (b64.val (b64.mul x.toNat (mult64 r))) with hn
  have hb : |(n : ℚ)| < ((2 ^ 62 - 1 : Nat) : ℚ) + 1 := by
    have h1 := abs_sub_abs_le_abs_sub ((n : ℚ) * b64.val (widen r.toNat)) (b64.val x.toNat)
    rw [abs_mul, abs_of_pos r4] at h1
    have hc : b64.u + b64.u * (1 + b64.u) ≤ 1 / 4 := by rw [b64_u]; norm_num
    have hh : b64.h ≤ 1 := by rw [b64_h]; exact zpow_le_one_of_nonpos₀ (by norm_num) (by norm_num)
    have h2 : (b64.u + b64.u * (1 + b64.u)) * |b64.val x.toNat| ≤ 1 / 4 * |b64.val x.toNat| := mul_le_mul_of_nonneg_right hc (abs_nonneg _)
    have h3 : (1 / 2 + b64.h) * b64.val (widen r.toNat) ≤ (3 / 2) * b64.val (widen r.toNat) := mul_le_mul_of_nonneg_right (by linarith) r4.le
    have h4 : |(n : ℚ)| * b64.val (widen r.toNat) < 2 ^ 62 * b64.val (widen r.toNat) := by
      have : |(n : ℚ)| * b64.val (widen r.toNat) ≤ (5 / 4 * 2 ^ 61 + 3 / 2) * b64.val (widen r.toNat) := by linarith
      refine lt_of_le_of_lt this (mul_lt_mul_of_pos_right (by norm_num) r4)
    have := lt_of_mul_lt_mul_right h4 r4.le
    norm_num at this ⊢; exact this
  obtain ⟨b1, b2⟩ := abs_int_le hb
  have hi := ofInt64_toInt (z := n) (by omega) (by omega)
  have hv : (ops.dequant64 r (BitVec.ofInt 64 n)) = BitVec.ofNat 64 (b64.mul (b64.ofInt n) (widen r.toNat)) := by
    show BitVec.ofNat 64 _ = _; rw [hi]
  have hvn : (ops.dequant64 r (BitVec.ofInt 64 n)).toNat = b64.mul (b64.ofInt n) (widen r.toNat) := by
    rw [hv]; exact toNat_ofNat64 q3
  refine ⟨n, toI64_eq b64 p1 rfl (by omega) (by omega), hi, ?_, q1, ?_, ?_⟩
  · unfold Fits62; rw [hi]; omega
  · rw [← fin64_iff, hvn]; exact q2
  · rw [real64_eq, hvn]; exact q4

end Cloudini.IEEE

namespace Cloudini.IEEE
open Cloudini.Props

/-! ### `stable` on the three paths -/

theorem expo_normal (F : Fmt) {q : ℚ} (hq : 0 < q) (h : (2 : ℚ) ^ (F.lo + F.mb) ≤ q) : F.expo q = ilog2 q - F.mb := by
  apply max_eq_left
  have := ilog2_spec hq
  by_contra hc
  have h1 : ilog2 q + 1 ≤ F.lo + F.mb := by omega
  have h2 := zpow_le_of_le h1
  linarith

theorem recip_ulp (F : Fmt) (hF : F.Ok) {a : Nat} (ha : F.isFin a = true) (hp : 0 < F.val a)
    (h1 : 1 / F.val a ≤ 2 ^ F.top) (h2 : (2 : ℚ) ^ (F.lo + F.mb) ≤ 1 / F.val a) :
    |F.val (F.recip a) - 1 / F.val a| ≤ 2 ^ (ilog2 (1 / F.val a) - (F.mb + 1) : Int) := by
  have hq : 0 < 1 / F.val a := by positivity
  have hm : F.mag a ≠ 0 := by
    intro h
    have := F.val_abs a
    rw [h, Fmt.magVal_zero, abs_of_pos hp] at this
    linarith
  have hsn : F.neg a = false := by
    by_contra hc
    have := F.val_sign a
    simp only [Bool.not_eq_false] at hc
    rw [hc] at this
    simp only [Fmt.SignOk, if_true] at this
    linarith
  have he : F.recip a = F.ofRat false (1 / F.val a) := by
    unfold Fmt.recip
    simp [(F.fin_not_nan ha).1, (F.fin_not_nan ha).2, hm, hsn]
  have hs : Fmt.SignOk false (1 / F.val a) := by simp only [Fmt.SignOk, Bool.false_eq_true, if_false]; exact hq.le
  have := (F.ofRat_spec hF hs (by rw [abs_of_pos hq]; exact h1)).2.2.2.2.2.2.2 hq.ne'
  rw [abs_of_pos hq, expo_normal F hq h2, ← he] at this
  rw [show ilog2 (1 / F.val a) - ((F.mb : Int) + 1) = ilog2 (1 / F.val a) - F.mb - 1 by ring]
  exact this

theorem recip_range {r : BitVec 32} (h : GoodRes r) : (2 : ℚ) ^ (-125 : Int) ≤ 1 / b32.val r.toNat ∧ 1 / b32.val r.toNat ≤ 2 ^ (125 : Int) := by
  obtain ⟨_, h1, h2, hpos⟩ := good_res h
  constructor
  · rw [le_div_iff₀ hpos]
    calc (2 : ℚ) ^ (-125 : Int) * b32.val r.toNat ≤ 2 ^ (-125 : Int) * 2 ^ (125 : Int) :=
          mul_le_mul_of_nonneg_left h2 (two_zpow_pos _).le
      _ = 1 := by rw [← zpow_add₀ (by norm_num)]; norm_num
  · rw [div_le_iff₀ hpos]
    calc (1 : ℚ) = 2 ^ (125 : Int) * 2 ^ (-125 : Int) := by rw [← zpow_add₀ (by norm_num)]; norm_num
      _ ≤ _ := mul_le_mul_of_nonneg_left h1 (two_zpow_pos _).le

theorem mult32_ulp {r : BitVec 32} (h : GoodRes r) :
    0 < b64.val (mult64 r) ∧ |b32.val r.toNat * b64.val (mult64 r) - 1| ≤ 2 ^ (-53 : Int) ∧
    |b32.val (mult32 r) - b64.val (mult64 r)| ≤ 2 ^ (ilog2 (b64.val (mult64 r)) - (b32.mb + 1) : Int) := by
  obtain ⟨r1, r2, r3, r4⟩ := good_res h
  obtain ⟨i1, i2⟩ := recip_range h
  obtain ⟨m1, m2, m3⟩ := mult64_spec r1 (le_trans (zpow_le_of_le (by norm_num)) r2) (r3.trans (zpow_le_of_le (by norm_num)))
  set m := b64.val (mult64 r) with hm
  set q := 1 / b32.val r.toNat with hq
  have hq0 : 0 < q := by positivity
  have e53 : (2 : ℚ) ^ (-53 : Int) = 1 / 9007199254740992 := by norm_num
  have s2 : (2 : ℚ) ^ (-125 : Int) = 2 * 2 ^ (-126 : Int) := by norm_num
  have s1 : (2 : ℚ) ^ (127 : Int) = 4 * 2 ^ (125 : Int) := by norm_num
  have mb := abs_le.1 m2
  rw [e53] at mb
  have mlow : (2 : ℚ) ^ (-126 : Int) ≤ m := by rw [s2] at i1; linarith
  have mhigh : m ≤ 2 ^ (127 : Int) := by rw [s1]; linarith
  have mpos : 0 < m := lt_of_lt_of_le (two_zpow_pos _) mlow
  refine ⟨mpos, ?_, ?_⟩
  · have : b32.val r.toNat * m - 1 = b32.val r.toNat * (m - q) := by rw [mul_sub, hq]; field_simp
    rw [this, abs_mul, abs_of_pos r4]
    calc b32.val r.toNat * |m - q| ≤ b32.val r.toNat * (2 ^ (-53 : Int) * q) := mul_le_mul_of_nonneg_left m2 r4.le
      _ = 2 ^ (-53 : Int) := by rw [hq]; field_simp
  · have he : mult32 r = b32.ofRat (b64.neg (mult64 r)) m := by
      show narrow (mult64 r) = _
      unfold narrow
      simp [(b64.fin_not_nan m1).1, (b64.fin_not_nan m1).2, hm]
    have := (b32.ofRat_spec Fmt.b32_ok (b64.val_sign (mult64 r)) (by rw [← hm, abs_of_pos mpos, b32_top]; exact mhigh)).2.2.2.2.2.2.2
      mpos.ne'
    rw [← hm, abs_of_pos mpos, expo_normal b32 mpos (show (2 : ℚ) ^ (-126 : Int) ≤ m from mlow), ← he] at this
    rw [show ilog2 m - ((b32.mb : Int) + 1) = ilog2 m - b32.mb - 1 by ring]
    exact this

theorem quant64_def (r : BitVec 32) (x : BitVec 64) : ops.quant64 r x = toI64 b64 (b64.mul x.toNat (mult64 r)) := rfl

theorem stable32 {r : BitVec 32} (h : GoodRes r) (n : BitVec 64) (hn : |n.toInt| < 2 ^ 22)
    (hnr : |(n.toInt : ℚ)| * real32 r ≤ 2 ^ (127 : Int)) :
    Finite32 (ops.dequant32 r n) ∧ ops.quant32 r (ops.dequant32 r n) = some n := by
  obtain ⟨r1, r2, r3, r4⟩ := good_res h
  obtain ⟨m1, _⟩ := mult32_spec r1 r2 r3
  obtain ⟨k1, k2, k3⟩ := mult32_ulp h
  rw [real32_eq] at hnr
  obtain ⟨s1, s2, s3, s4⟩ := stable b32 Fmt.b32_ok (by decide) (by decide) (by decide) (by decide) r1 m1 r4
    (le_trans (zpow_le_of_le (by decide)) r2) k1 k3 (by positivity) (by norm_num [b32]) k2 n.toInt hn (by rw [b32_top]; exact hnr)
  have hvn : (ops.dequant32 r n).toNat = b32.mul (b32.ofInt n.toInt) r.toNat := toNat_ofNat32 s2
  have hb := abs_lt.1 hn
  refine ⟨by rw [← fin32_iff, hvn]; exact s1, ?_⟩
  show toI64 b32 (b32.mul (ops.dequant32 r n).toNat (mult32 r)) = _
  rw [hvn, toI64_eq b32 s3 (roundAway_of_close s4) (by omega) (by omega), BitVec.ofInt_toInt]

theorem stableV {r : BitVec 32} (h : GoodRes r) (n : BitVec 32) (hn : |n.toInt| < 2 ^ 22)
    (hnr : |(n.toInt : ℚ)| * real32 r ≤ 2 ^ (127 : Int)) :
    Finite32 (ops.dequantV r n) ∧ ops.quantV r (ops.dequantV r n) = n := by
  obtain ⟨r1, r2, r3, r4⟩ := good_res h
  obtain ⟨i1, i2⟩ := recip_range h
  obtain ⟨m1, _, _⟩ := multV_spec r1 (le_trans (zpow_le_of_le (by norm_num)) r2) (r3.trans (zpow_le_of_le (by norm_num)))
  rw [real32_eq] at hnr
  have hk := recip_ulp b32 Fmt.b32_ok r1 r4 (by rw [b32_top]; exact i2.trans (zpow_le_of_le (by norm_num)))
    (le_trans (zpow_le_of_le (by decide)) i1)
  obtain ⟨s1, s2, s3, s4⟩ := stable b32 Fmt.b32_ok (by decide) (by decide) (by decide) (by decide) r1 m1 r4
    (le_trans (zpow_le_of_le (by decide)) r2) (m := 1 / b32.val r.toNat) (ε := 0) (by positivity) hk le_rfl (by norm_num)
    (by rw [mul_one_div_cancel r4.ne']; norm_num) n.toInt hn (by rw [b32_top]; exact hnr)
  have hvn : (ops.dequantV r n).toNat = b32.mul (b32.ofInt n.toInt) r.toNat := toNat_ofNat32 s2
  have hb := abs_lt.1 hn
  refine ⟨by rw [← fin32_iff, hvn]; exact s1, ?_⟩
  show toI32 (b32.mul (ops.dequantV r n).toNat (multV r)) = _
  rw [hvn, toI32_eq s3 (roundEven_of_close s4) (by omega) (by omega)]
  exact BitVec.ofInt_toInt

theorem stable64 {r : BitVec 32} (h : GoodRes r) (n : BitVec 64) (hn : |n.toInt| < 2 ^ 51) :
    Finite64 (ops.dequant64 r n) ∧ ops.quant64 r (ops.dequant64 r n) = some n := by
  obtain ⟨r1, r2, r3, r4⟩ := good_res h
  obtain ⟨i1, i2⟩ := recip_range h
  obtain ⟨m1, _, _⟩ := mult64_spec r1 (le_trans (zpow_le_of_le (by norm_num)) r2) (r3.trans (zpow_le_of_le (by norm_num)))
  obtain ⟨w1, w2⟩ := widen_spec r1
  rw [← w2] at r2 r3 r4 i1 i2
  have hk := recip_ulp b64 Fmt.b64_ok w1 r4 (by rw [b64_top]; exact i2.trans (zpow_le_of_le (by norm_num)))
    (le_trans (zpow_le_of_le (by decide)) i1)
  have hnr : |(n.toInt : ℚ)| * b64.val (widen r.toNat) ≤ 2 ^ (1023 : Int) := by
    have h1 : |(n.toInt : ℚ)| ≤ 2 ^ (51 : Int) := by exact_mod_cast hn.le
    calc _ ≤ (2 : ℚ) ^ (51 : Int) * 2 ^ (125 : Int) := mul_le_mul h1 r3 r4.le (by positivity)
      _ = 2 ^ (176 : Int) := by norm_num
      _ ≤ _ := zpow_le_of_le (by norm_num)
  obtain ⟨s1, s2, s3, s4⟩ := stable b64 Fmt.b64_ok (by decide) (by decide) (by decide) (by decide) w1 m1 r4
    (le_trans (zpow_le_of_le (by decide)) r2) (m := 1 / b64.val (widen r.toNat)) (ε := 0) (by positivity) hk le_rfl (by norm_num)
    (by rw [mul_one_div_cancel r4.ne']; norm_num) n.toInt hn (by rw [b64_top]; exact hnr)
  have hvn : (ops.dequant64 r n).toNat = b64.mul (b64.ofInt n.toInt) (widen r.toNat) := toNat_ofNat64 s2
  have hb := abs_lt.1 hn
  refine ⟨by rw [← fin64_iff, hvn]; exact s1, ?_⟩
  rw [quant64_def, hvn, toI64_eq b64 s3 (roundAway_of_close s4) (by omega) (by omega), BitVec.ofInt_toInt]

end Cloudini.IEEE
