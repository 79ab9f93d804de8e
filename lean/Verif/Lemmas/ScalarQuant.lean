import Verif.Lemmas.Scalar
import Verif.Props.C11_cloud

/-!
# The quantisation without SSE, on numbers
-/

namespace Cloudini.Scalar
open IEEE Cloudini.Props

/-- The vector path without SSE. -/
theorem cycleS {r x : BitVec 32} (hr : GoodRes r) (hx : Finite32 x) (hx1 : |real32 x| ≤ 2 ^ (126 : Int))
    (hx2 : |real32 x| ≤ 2 ^ 29 * real32 r) :
    ∃ n : Int, quant r x = some (BitVec.ofInt 32 n) ∧ (BitVec.ofInt 32 n).toInt = n ∧ Fits30 (BitVec.ofInt 32 n) ∧
      |(n : ℚ) * real32 r - real32 x| ≤ (b32.u + b32.u * (1 + b32.u)) * |real32 x| + (1 / 2 + b32.h) * real32 r ∧
      Finite32 (ops.dequantV r (BitVec.ofInt 32 n)) ∧
      |real32 (ops.dequantV r (BitVec.ofInt 32 n)) - real32 x| ≤
        ((1 + b32.u) ^ 2 * (b32.u + b32.u * (1 + b32.u)) + 2 * b32.u + b32.u ^ 2) * |real32 x| +
        (1 + b32.u) ^ 2 * (1 / 2 + b32.h) * real32 r + b32.h := by
  obtain ⟨r1, r2, r3, r4⟩ := good_res hr
  obtain ⟨m1, m2, _⟩ := multV_spec r1 (le_trans (zpow_le_of_le (by norm_num)) r2) (r3.trans (zpow_le_of_le (by norm_num)))
  rw [real32_eq, real32_eq] at *
  have hx' := (fin32_iff x).2 hx
  rw [← b32_u] at m2
  obtain ⟨p1, p2⟩ := cycle b32 Fmt.b32_ok (by decide) (by decide) (by rw [b32_u]) (by rw [b32_h]; exact zpow_le_of_le (by norm_num))
    b32.u_pos.le (by rw [b32_u]; norm_num) hx' r1 m1 r4 m2 (by rw [b32_top]; exact hx1)
    (by rw [b32_top]; exact r3.trans (zpow_le_of_le (by norm_num)))
    (hx2.trans (mul_le_mul_of_nonneg_right (by norm_num) r4.le))
  obtain ⟨q1, q2, q3, q4⟩ := p2 _ (roundAway_err _)
  set n := roundAway (b32.val (b32.mul x.toNat (multV r))) with hn
  have hb : |(n : ℚ)| < ((2 ^ 30 - 1 : Nat) : ℚ) + 1 := by
    have h1 := abs_sub_abs_le_abs_sub ((n : ℚ) * b32.val r.toNat) (b32.val x.toNat)
    rw [abs_mul, abs_of_pos r4] at h1
    have hc : b32.u + b32.u * (1 + b32.u) ≤ 1 / 4 := by rw [b32_u]; norm_num
    have hh : b32.h ≤ 1 := by rw [b32_h]; exact zpow_le_one_of_nonpos₀ (by norm_num) (by norm_num)
    have h2 : (b32.u + b32.u * (1 + b32.u)) * |b32.val x.toNat| ≤ 1 / 4 * |b32.val x.toNat| := mul_le_mul_of_nonneg_right hc (abs_nonneg _)
    have h3 : (1 / 2 + b32.h) * b32.val r.toNat ≤ (3 / 2) * b32.val r.toNat := mul_le_mul_of_nonneg_right (by linarith) r4.le
    have h4 : |(n : ℚ)| * b32.val r.toNat < 2 ^ 30 * b32.val r.toNat := by
      have : |(n : ℚ)| * b32.val r.toNat ≤ (5 / 4 * 2 ^ 29 + 3 / 2) * b32.val r.toNat := by linarith
      refine lt_of_le_of_lt this (mul_lt_mul_of_pos_right (by norm_num) r4)
    have := lt_of_mul_lt_mul_right h4 r4.le
    norm_num at this ⊢; exact this
  obtain ⟨b1, b2⟩ := abs_int_le hb
  have hi := ofInt32_toInt (z := n) (by omega) (by omega)
  have hv : (ops.dequantV r (BitVec.ofInt 32 n)) = BitVec.ofNat 32 (b32.mul (b32.ofInt n) r.toNat) := by
    show BitVec.ofNat 32 (b32.mul (b32.ofInt (BitVec.ofInt 32 n).toInt) r.toNat) = _; rw [hi]
  have hvn : (ops.dequantV r (BitVec.ofInt 32 n)).toNat = b32.mul (b32.ofInt n) r.toNat := by
    rw [hv]; exact toNat_ofNat32 q3
  refine ⟨n, by unfold quant; rw [toI32, if_pos ⟨p1, by omega, by omega⟩], hi, ?_, q1, ?_, ?_⟩
  · unfold Fits30; rw [hi]; omega
  · rw [← fin32_iff, hvn]; exact q2
  · rw [real32_eq, hvn]; exact q4


theorem quantV_of {r x q : BitVec 32} (h : quant r x = some q) : ops.quantV r x = q := by
  show (quant r x).getD 0#32 = q
  rw [h]; rfl

/-- The value a decoder of any platform reconstructs. -/
theorem memorylessS {r x : BitVec 32} {n : Int} (hx : Finite32 x) (h : quant r x = some (BitVec.ofInt 32 n)) :
    memorylessV ops r x = IEEE.ops.dequantV r (BitVec.ofInt 32 n) := by
  unfold memorylessV
  rw [fin32_not_nan hx, quantV_of h]
  rfl

theorem close_scalar (r x : BitVec 32) (hr : GoodRes r) (hx : Finite32 x) (hx1 : |real32 x| ≤ 2 ^ (126 : Int))
    (hx2 : |real32 x| ≤ 2 ^ 29 * real32 r) :
    Finite32 (memorylessV Scalar.ops r x) ∧
    |real32 (memorylessV Scalar.ops r x) - real32 x| ≤
      real32 r / 2 + 2 ^ (-22 : Int) * real32 r + (2 ^ (-22 : Int) + 2 ^ (-44 : Int)) * |real32 x| := by
  obtain ⟨n, h1, _, _, _, h5, h6⟩ := cycleS hr hx hx1 hx2
  rw [memorylessS hx h1]
  refine ⟨h5, h6.trans ?_⟩
  obtain ⟨_, r2, _⟩ := hr
  have hr0 : 0 < real32 r := lt_of_lt_of_le (IEEE.two_zpow_pos _) r2
  have c1 : (1 + b32.u) ^ 2 * (b32.u + b32.u * (1 + b32.u)) + 2 * b32.u + b32.u ^ 2 ≤ 2 ^ (-22 : Int) + 2 ^ (-44 : Int) := by
    rw [IEEE.b32_u]; norm_num
  have hh : b32.h ≤ 2 ^ (-25 : Int) := by rw [IEEE.b32_h]; exact IEEE.zpow_le_of_le (by norm_num)
  have hh2 : b32.h ≤ 2 ^ (-25 : Int) * real32 r := by
    rw [IEEE.b32_h]
    calc (2 : ℚ) ^ (-150 : Int) = 2 ^ (-25 : Int) * 2 ^ (-125 : Int) := by rw [← zpow_add₀ (by norm_num)]; norm_num
      _ ≤ _ := mul_le_mul_of_nonneg_left r2 (by positivity)
  have c2 : (1 + b32.u) ^ 2 * (1 / 2 + b32.h) ≤ 1 / 2 + 2 ^ (-22 : Int) - 2 ^ (-25 : Int) := by
    have := mul_le_mul_of_nonneg_left (show 1 / 2 + b32.h ≤ 1 / 2 + 2 ^ (-25 : Int) by gcongr) (show 0 ≤ (1 + b32.u) ^ 2 by positivity)
    refine this.trans ?_
    rw [IEEE.b32_u]; norm_num
  have d1 := mul_le_mul_of_nonneg_right c1 (abs_nonneg (real32 x))
  have d2 := mul_le_mul_of_nonneg_right c2 hr0.le
  clear c1 c2 hh
  generalize (2 : ℚ) ^ (-25 : Int) = k1 at hh2 d1 d2 ⊢
  generalize (2 : ℚ) ^ (-22 : Int) = k2 at hh2 d1 d2 ⊢
  generalize (2 : ℚ) ^ (-44 : Int) = k3 at hh2 d1 d2 ⊢
  linarith


end Cloudini.Scalar
