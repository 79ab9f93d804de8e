import Verif.Lemmas.IEEEQuant

/-!
# Quantising a dequantised integer gives it back, up to a quarter of the exact-integer range
-/

namespace Cloudini.IEEE

/-- `2^i * 2^j < 2^k` forces `2^i * 2^j = 2^(k-1)` or at most half of that. -/
theorem pow_gap {i j k : Int} (h : (2 : ℚ) ^ i * 2 ^ j < 2 ^ k) :
    (2 : ℚ) ^ i * 2 ^ j = 2 ^ k / 2 ∨ (2 : ℚ) ^ i * 2 ^ j ≤ 2 ^ k / 4 := by
  rw [← zpow_add₀ (by norm_num)] at *
  have h1 : i + j < k := (zpow_lt_zpow_iff_right₀ (by norm_num)).1 h
  have e1 : (2 : ℚ) ^ k / 2 = 2 ^ (k - 1) := by rw [zpow_sub_one₀ (by norm_num)]; ring
  have e2 : (2 : ℚ) ^ k / 4 = 2 ^ (k - 2) := by
    rw [show k - 2 = (k - 1) - 1 by ring, zpow_sub_one₀ (by norm_num), zpow_sub_one₀ (by norm_num)]; ring
  rw [e1, e2]
  rcases eq_or_lt_of_le (show i + j ≤ k - 1 by omega) with h2 | h2
  · left; rw [h2]
  · right; exact zpow_le_of_le (by omega)

/-- The arithmetic heart: `A`, `B` are the powers of two below `|n| r` and `m`. -/
theorem stable_core {n r m m' v A B P ε : ℚ} (hP : 4 ≤ P) (hr : 0 < r) (hA0 : 0 < A) (hB0 : 0 < B)
    (hn : |n| ≤ P - 1) (hA : A ≤ |n| * r) (hA2 : |n| * r < 2 * A) (hB : B ≤ m) (hB2 : m < 2 * B)
    (hgap : A * B < P → A * B = P / 2 ∨ A * B ≤ P / 4)
    (hv : |v - n * r| ≤ A / (4 * P)) (hm : |m' - m| ≤ B / (4 * P)) (he0 : 0 ≤ ε) (he : ε * (64 * P ^ 2) ≤ 1)
    (hrm : |r * m - 1| ≤ ε) : |v * m' - n| < 3 / 8 := by
  have hP0 : 0 < P := by linarith
  have hm0 : 0 < m := lt_of_lt_of_le hB0 hB
  set N := |n| * r * m with hN
  have heP : P * ε ≤ 1 / (64 * P) := by
    rw [le_div_iff₀ (by positivity)]; nlinarith
  have hPi : 1 / (64 * P) ≤ 1 / 256 := by
    rw [div_le_div_iff₀ (by positivity) (by norm_num)]; linarith
  have hn0 := abs_nonneg n
  have hrm' := abs_le.1 hrm
  have hNn : N ≤ |n| + P * ε := by
    have : |n| * (r * m) ≤ |n| * (1 + ε) := mul_le_mul_of_nonneg_left (by linarith) hn0
    have h2 : |n| * ε ≤ P * ε := mul_le_mul_of_nonneg_right (by linarith) he0
    rw [hN]; nlinarith
  have hAB : A * B ≤ N := mul_le_mul hA hB hB0.le (by positivity)
  have hABlt : A * B < P := by linarith
  -- sum of the two half-ulp contributions
  have hS : A * m + |n| * r * B ≤ 3 * P / 2 - 1 + P * ε := by
    rcases hgap hABlt with h | h
    · -- (|n| r - A)(m - B) ≥ 0
      have h1 : 0 ≤ (|n| * r - A) * (m - B) := mul_nonneg (by linarith) (by linarith)
      have h2 : A * m + |n| * r * B ≤ N + A * B := by rw [hN]; nlinarith
      rw [h] at h2
      linarith
    · have h1 : A * m ≤ 2 * (A * B) := by nlinarith
      have h2 : |n| * r * B ≤ 2 * (A * B) := by nlinarith
      have h3 : 0 ≤ P * ε := by positivity
      linarith
  have t1 : |v * m' - n * r * m| ≤ (A * m + |n| * r * B) / (4 * P) + A * B / (4 * P) ^ 2 := by
    have e : v * m' - n * r * m = (v - n * r) * m + n * r * (m' - m) + (v - n * r) * (m' - m) := by ring
    rw [e]
    have a1 : |(v - n * r) * m| ≤ A / (4 * P) * m := by
      rw [abs_mul, abs_of_pos hm0]; exact mul_le_mul_of_nonneg_right hv hm0.le
    have a2 : |n * r * (m' - m)| ≤ |n| * r * (B / (4 * P)) := by
      rw [abs_mul, abs_mul, abs_of_pos hr]; exact mul_le_mul_of_nonneg_left hm (by positivity)
    have a3 : |(v - n * r) * (m' - m)| ≤ A / (4 * P) * (B / (4 * P)) := by
      rw [abs_mul]; exact mul_le_mul hv hm (abs_nonneg _) (by positivity)
    have b1 := abs_add_le ((v - n * r) * m + n * r * (m' - m)) ((v - n * r) * (m' - m))
    have b2 := abs_add_le ((v - n * r) * m) (n * r * (m' - m))
    calc _ ≤ A / (4 * P) * m + |n| * r * (B / (4 * P)) + A / (4 * P) * (B / (4 * P)) := by linarith
      _ = _ := by field_simp
  have t2 : |n * r * m - n| ≤ P * ε := by
    have e : n * r * m - n = n * (r * m - 1) := by ring
    rw [e, abs_mul]
    exact mul_le_mul (by linarith) hrm (abs_nonneg _) hP0.le
  have t3 := abs_sub_le (v * m') (n * r * m) n
  have c1 : (A * m + |n| * r * B) / (4 * P) ≤ 3 / 8 - 1 / (4 * P) + P * ε / (4 * P) := by
    rw [div_le_iff₀ (by positivity)]
    have : (3 / 8 - 1 / (4 * P) + P * ε / (4 * P)) * (4 * P) = 3 * P / 2 - 1 + P * ε := by field_simp; ring
    rw [this]; exact hS
  have c2 : A * B / (4 * P) ^ 2 ≤ 1 / (16 * P) := by
    rw [div_le_div_iff₀ (by positivity) (by positivity)]
    nlinarith [mul_le_mul_of_nonneg_right hABlt.le (show 0 ≤ 16 * P by positivity)]
  have c3 : P * ε / (4 * P) ≤ 1 / (64 * P) := by
    have h4 : P * ε / (4 * P) ≤ P * ε := by
      apply div_le_self (by positivity); linarith
    exact h4.trans heP
  have c4 : 1 / (16 * P) = 4 * (1 / (64 * P)) := by field_simp; norm_num
  have c5 : 1 / (4 * P) = 16 * (1 / (64 * P)) := by field_simp; norm_num
  have c6 : 0 < 1 / (64 * P) := by positivity
  rw [c4] at c2
  rw [c5] at c1
  linarith

theorem stable (F : Fmt) (hF : F.Ok) (hmb : 3 ≤ F.mb) (hlo : F.lo ≤ -2) (hn0 : F.lo + F.mb ≤ -3) (htop : (F.mb : Int) + 1 ≤ F.top)
    {R M : Nat} (hR : F.isFin R = true) (hM : F.isFin M = true) (hr : 0 < F.val R)
    (hr1 : (2 : ℚ) ^ (F.lo + F.mb) ≤ F.val R) {m ε : ℚ} (hm0 : 0 < m)
    (hm : |F.val M - m| ≤ 2 ^ (ilog2 m - (F.mb + 1) : Int)) (he0 : 0 ≤ ε) (he : ε * (64 * (2 ^ (F.mb - 1 : Int)) ^ 2) ≤ 1)
    (hrm : |F.val R * m - 1| ≤ ε) (n : Int) (hn : |n| < 2 ^ (F.mb - 1)) (hnr : |(n : ℚ)| * F.val R ≤ 2 ^ F.top) :
    F.isFin (F.mul (F.ofInt n) R) = true ∧ F.mul (F.ofInt n) R < 2 * F.sgn ∧
    F.isFin (F.mul (F.mul (F.ofInt n) R) M) = true ∧
    |(n : ℚ) - F.val (F.mul (F.mul (F.ofInt n) R) M)| < 1 / 2 := by
  set r := F.val R with hrdef
  set m' := F.val M with hmd
  set P : ℚ := 2 ^ (F.mb - 1 : Int) with hPd
  have hPe : ((2 ^ (F.mb - 1) : Nat) : ℚ) = P := by
    rw [hPd]; push_cast; rw [← zpow_natCast]; congr 1; omega
  have hP4 : 4 ≤ P := by
    rw [hPd]
    calc (4 : ℚ) = 2 ^ (2 : Int) := by norm_num
      _ ≤ _ := zpow_le_of_le (by omega)
  have hP0 : 0 < P := by linarith
  have hnP : |(n : ℚ)| ≤ P - 1 := by
    have h1 : |n| + 1 ≤ 2 ^ (F.mb - 1) := by omega
    have h2 : |(n : ℚ)| + 1 ≤ ((2 ^ (F.mb - 1) : Nat) : ℚ) := by push_cast; exact_mod_cast h1
    rw [hPe] at h2; linarith
  have hPtop : 4 * P ≤ 2 ^ F.top := by
    have : 4 * P = 2 ^ ((F.mb : Int) + 1) := by
      rw [hPd, show ((F.mb : Int) + 1) = (F.mb - 1) + 1 + 1 by ring, zpow_add_one₀ (by norm_num), zpow_add_one₀ (by norm_num)]; ring
    rw [this]; exact zpow_le_of_le htop
  have hnb : |n| ≤ 2 ^ (F.mb + 1) := by
    refine hn.le.trans ?_
    exact pow_le_pow_right₀ (by norm_num) (by omega)
  obtain ⟨f1, _, f3⟩ := F.ofInt_spec hF (by omega) (show |(n : ℚ)| ≤ 2 ^ F.top by linarith)
  have hf := f3 hnb (by omega)
  have habs : |F.val (F.ofInt n) * r| = |(n : ℚ)| * r := by rw [hf, abs_mul, abs_of_pos hr]
  have hq : |F.val (F.ofInt n) * r| ≤ 2 ^ F.top := by rw [habs]; exact hnr
  obtain ⟨v1, v2, _⟩ := F.mul_spec hF f1 hR hq
  have vspec := F.ofRat_spec hF (Fmt.sign_mul (F.val_sign (F.ofInt n)) (F.val_sign R)) hq
  rw [← F.mul_eq f1 hR] at vspec
  set v := F.val (F.mul (F.ofInt n) R) with hvd
  have key : |v * m' - n| < 3 / 8 := by
    by_cases hz : n = 0
    · have : v = 0 := by
        apply abs_eq_zero.1
        have h5 := vspec.2.2.2.2.1
        rw [hf, hz] at h5
        have : v = _ := h5 (by simp [Fmt.round_zero, Fmt.magVal_zero])
        rw [this]; simp
      rw [this, hz]; norm_num
    · have hn1 : (1 : ℚ) ≤ |(n : ℚ)| := by exact_mod_cast Int.one_le_abs hz
      have hpos : 0 < |(n : ℚ)| * r := by positivity
      obtain ⟨l1, l2⟩ := ilog2_spec hpos
      obtain ⟨k1, k2⟩ := ilog2_spec hm0
      have hge : (2 : ℚ) ^ (F.lo + F.mb) ≤ |(n : ℚ)| * r := by
        refine hr1.trans ?_
        nlinarith
      have hexp : F.expo (|(n : ℚ)| * r) = ilog2 (|(n : ℚ)| * r) - F.mb := by
        apply max_eq_left
        by_contra hc
        have h1 : ilog2 (|(n : ℚ)| * r) + 1 ≤ F.lo + F.mb := by omega
        have h2 := zpow_le_of_le h1
        linarith
      have hv := vspec.2.2.2.2.2.2.2 (by rw [hf]; exact mul_ne_zero (by exact_mod_cast hz) hr.ne')
      rw [habs, hexp, hf] at hv
      have hdiv : ∀ k : Int, (2 : ℚ) ^ (k - (F.mb + 1)) = 2 ^ k / (4 * P) := by
        intro k
        have : 4 * P = 2 ^ ((F.mb : Int) + 1) := by
          rw [hPd, show ((F.mb : Int) + 1) = (F.mb - 1) + 1 + 1 by ring, zpow_add_one₀ (by norm_num), zpow_add_one₀ (by norm_num)]; ring
        rw [this, zpow_sub₀ (by norm_num)]
      refine stable_core (A := 2 ^ ilog2 (|(n : ℚ)| * r)) (B := 2 ^ ilog2 m) hP4 hr (two_zpow_pos _) (two_zpow_pos _) hnP l1 ?_ k1 ?_
        (fun h => ?_) ?_ ?_ he0 he hrm
      · rw [zpow_add_one₀ (by norm_num)] at l2; linarith
      · rw [zpow_add_one₀ (by norm_num)] at k2; linarith
      · rw [hPd] at h ⊢; exact pow_gap h
      · rw [← hdiv]; convert hv using 2; ring
      · rw [← hdiv]; exact hm
  -- the last multiplication
  have kb := abs_lt.1 key
  have hvm : |v * m'| < P := by
    have := abs_sub_abs_le_abs_sub (v * m') n
    linarith
  have hvmt : |v * m'| ≤ 2 ^ F.top := by linarith
  obtain ⟨p1, _, _⟩ := F.mul_spec hF v1 hM hvmt
  have pspec := F.ofRat_spec hF (Fmt.sign_mul (F.val_sign (F.mul (F.ofInt n) R)) (F.val_sign M)) hvmt
  rw [← F.mul_eq v1 hM] at pspec
  refine ⟨v1, v2, p1, ?_⟩
  have hp : |F.val (F.mul (F.mul (F.ofInt n) R) M) - v * m'| ≤ 1 / 8 := by
    by_cases hz : v * m' = 0
    · have h5 : F.val (F.mul (F.mul (F.ofInt n) R) M) = v * m' := pspec.2.2.2.2.1 (by
        show F.magVal (F.round |v * m'|) = |v * m'|
        rw [hz]; simp [Fmt.round_zero, Fmt.magVal_zero])
      rw [h5]; norm_num
    · have h6 : |F.val (F.mul (F.mul (F.ofInt n) R) M) - v * m'| ≤ 2 ^ (F.expo |v * m'| - 1) := pspec.2.2.2.2.2.2.2 hz
      refine h6.trans ?_
      have h7 : F.expo |v * m'| ≤ -2 := by
        apply max_le _ hlo
        have := ilog2_spec (abs_pos.2 hz)
        by_contra hc
        have h1 : (F.mb : Int) - 1 ≤ ilog2 |v * m'| := by omega
        have h2 := zpow_le_of_le h1
        linarith
      calc (2 : ℚ) ^ (F.expo |v * m'| - 1) ≤ 2 ^ (-3 : Int) := zpow_le_of_le (by omega)
        _ = 1 / 8 := by norm_num
  have := abs_sub_le (n : ℚ) (v * m') (F.val (F.mul (F.mul (F.ofInt n) R) M))
  rw [abs_sub_comm (n : ℚ) (v * m'), abs_sub_comm (v * m') (F.val (F.mul (F.mul (F.ofInt n) R) M))] at this
  linarith

end Cloudini.IEEE
