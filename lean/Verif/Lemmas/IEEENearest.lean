import Verif.Lemmas.IEEELink

/-!
# `Fmt.round` is rounding to nearest, ties to even
-/

namespace Cloudini.IEEE
open Cloudini.Props

theorem roundEven_nearest (t : ℚ) (z : Int) : |(roundEven t : ℚ) - t| ≤ |(z : ℚ) - t| ∧
    (z ≠ roundEven t → |(roundEven t : ℚ) - t| = |(z : ℚ) - t| → roundEven t % 2 = 0) := by
  have h1 := Int.floor_le t
  have h2 := Int.lt_floor_add_one t
  have far : z ≠ roundEven t → 1 / 2 ≤ |(z : ℚ) - t| := by
    intro hz
    by_contra hc
    exact hz (roundEven_of_close (lt_of_not_ge hc)).symm
  refine ⟨?_, ?_⟩
  · by_cases hz : z = roundEven t
    · rw [hz]
    · exact (roundEven_err t).trans (far hz)
  · intro hz he
    have hhalf : |(roundEven t : ℚ) - t| = 1 / 2 := le_antisymm (roundEven_err t) (by rw [he]; exact far hz)
    unfold roundEven at hhalf ⊢
    by_cases c1 : t - ⌊t⌋ < 1 / 2
    · rw [if_pos c1, abs_sub_comm, abs_of_nonneg (by linarith)] at hhalf
      linarith
    · rw [if_neg c1] at hhalf ⊢
      by_cases c2 : 1 / 2 < t - ⌊t⌋
      · rw [if_pos c2] at hhalf
        push_cast at hhalf
        rw [abs_of_nonneg (by linarith)] at hhalf
        linarith
      · rw [if_neg c2]
        split
        · assumption
        · omega

namespace Fmt
variable (F : Fmt)

theorem round_nearest (hF : F.Ok) {q : ℚ} (h0 : 0 ≤ q) (hq : q ≤ 2 ^ F.top) (m : Nat) (hm : m < F.inf) :
    |F.magVal (F.round q) - q| ≤ |F.magVal m - q| ∧
    (F.magVal m ≠ F.magVal (F.round q) → |F.magVal (F.round q) - q| = |F.magVal m - q| → F.round q % 2 = 0) := by
  rcases eq_or_lt_of_le h0 with h | h
  · subst h
    rw [round_zero, magVal_zero]
    simp
  have hpos : (0 : ℚ) < 2 ^ F.expo q := two_zpow_pos _
  obtain ⟨m1, m2, m3, m4, m5⟩ := F.mant_facts h
  have hv := F.magVal_round hF h hq
  set n := roundEven (q / 2 ^ F.expo q) with hn
  set t := q / 2 ^ F.expo q with ht
  have htq : q = t * 2 ^ F.expo q := by rw [ht]; field_simp
  have hdist : ∀ z : Int, |(z : ℚ) * 2 ^ F.expo q - q| = |(z : ℚ) - t| * 2 ^ F.expo q := by
    intro z
    have : (z : ℚ) * 2 ^ F.expo q - q = ((z : ℚ) - t) * 2 ^ F.expo q := by rw [sub_mul, ← htq]
    rw [this, abs_mul, abs_of_pos hpos]
  have heven : n % 2 = 0 → F.round q % 2 = 0 := by
    intro hn2
    rw [(F.round_lt_inf hF h.le hq).2 h]
    have h2 : F.mant q % 2 = 0 := by
      have : ((F.mant q : Nat) : Int) = n := by exact_mod_cast m1
      omega
    have h3 : 2 ^ F.mb = 2 * 2 ^ (F.mb - 1) := by
      rw [← Nat.pow_succ']; congr 1; have := hF.mb; omega
    rw [h3, ← Nat.mul_assoc, Nat.mul_comm _ 2, Nat.mul_assoc]
    omega
  -- a representable number is a multiple of the unit, or lies below the binade
  have hcase : (∃ z : Int, F.magVal m = (z : ℚ) * 2 ^ F.expo q) ∨ (F.magVal m < 2 ^ F.mb * 2 ^ F.expo q ∧ (2 : ℚ) ^ F.mb ≤ t) := by
    obtain ⟨k, e, hk⟩ := F.magVal_form m hm
    have hk' : k < 2 ^ (F.mb + 1) ∧ F.lo ≤ e ∧ F.magVal m = (k : ℚ) * 2 ^ e := by
      rcases hk with ⟨a, b, _, d⟩ | ⟨a, b, c⟩
      · exact ⟨a, b, d⟩
      · refine ⟨?_, b.ge, c⟩
        rw [Nat.pow_succ]; omega
    obtain ⟨ha, hb, hc⟩ := hk'
    rcases le_or_gt (F.expo q) e with hle | hlt
    · left
      refine ⟨(k : Int) * 2 ^ (e - F.expo q).toNat, ?_⟩
      rw [hc]
      push_cast
      rw [mul_assoc, ← zpow_natCast, ← zpow_add₀ (by norm_num)]
      congr 2
      rw [Int.toNat_of_nonneg (by omega)]; ring
    · right
      have h5 : (2 : ℚ) ^ F.mb ≤ t := by
        rcases m5 with h5 | h5
        · omega
        · exact h5
      refine ⟨?_, h5⟩
      rw [hc]
      have : (k : ℚ) < 2 ^ (F.mb + 1) := by exact_mod_cast ha
      calc (k : ℚ) * 2 ^ e < 2 ^ (F.mb + 1) * 2 ^ e := mul_lt_mul_of_pos_right this (two_zpow_pos _)
        _ = 2 ^ F.mb * 2 ^ (e + 1) := by rw [zpow_add_one₀ (by norm_num), pow_succ]; ring
        _ ≤ 2 ^ F.mb * 2 ^ F.expo q := mul_le_mul_of_nonneg_left (zpow_le_of_le (by omega)) (by positivity)
  rw [hv]
  rcases hcase with ⟨z, hz⟩ | ⟨hlt, hge⟩
  · rw [hz, hdist, hdist]
    obtain ⟨a, b⟩ := roundEven_nearest t z
    refine ⟨mul_le_mul_of_nonneg_right a hpos.le, ?_⟩
    intro hne he
    apply heven
    refine b ?_ (mul_right_cancel₀ hpos.ne' he)
    intro hc
    exact hne (by rw [hc])
  · have hstrict : |(n : ℚ) * 2 ^ F.expo q - q| < |F.magVal m - q| := by
      have h1 := (roundEven_nearest t ((2 ^ F.mb : Nat) : Int)).1
      have h2 : |(n : ℚ) * 2 ^ F.expo q - q| ≤ |(((2 ^ F.mb : Nat) : Int) : ℚ) * 2 ^ F.expo q - q| := by
        rw [hdist, hdist]; exact mul_le_mul_of_nonneg_right h1 hpos.le
      refine lt_of_le_of_lt h2 ?_
      push_cast
      have h3 : (2 : ℚ) ^ F.mb * 2 ^ F.expo q ≤ q := by
        calc (2 : ℚ) ^ F.mb * 2 ^ F.expo q ≤ t * 2 ^ F.expo q := mul_le_mul_of_nonneg_right hge hpos.le
          _ = q := htq.symm
      rw [abs_sub_comm, abs_of_nonneg (by linarith), abs_sub_comm, abs_of_nonneg (by linarith)]
      linarith
    exact ⟨hstrict.le, fun _ he => absurd he hstrict.ne⟩

/-- With signs. -/
theorem ofRat_nearest (hF : F.Ok) {s : Bool} {q : ℚ} (hs : SignOk s q) (hq : |q| ≤ 2 ^ F.top) (d : Nat) (hd : F.isFin d = true) :
    |F.val (F.ofRat s q) - q| ≤ |F.val d - q| ∧
    (F.val d ≠ F.val (F.ofRat s q) → |F.val (F.ofRat s q) - q| = |F.val d - q| → F.ofRat s q % 2 = 0) := by
  have h1 := (F.round_lt_inf hF (abs_nonneg q) hq).1
  have h2 : F.round |q| < F.sgn := lt_trans h1 F.inf_lt_sgn
  have hm := F.mag_ofRat (s := s) h2
  have hn := F.neg_ofRat (s := s) h2
  have hv : F.val (F.ofRat s q) = if s then -F.magVal (F.round |q|) else F.magVal (F.round |q|) := by
    unfold val ofRat
    rw [hm, hn]
  have hd' : F.mag d < F.inf := by simpa [isFin] using hd
  have hi : 0 < F.inf := lt_of_le_of_lt (Nat.zero_le _) hd'
  obtain ⟨a, b⟩ := F.round_nearest hF (abs_nonneg q) hq _ hd'
  obtain ⟨a0, b0⟩ := F.round_nearest hF (abs_nonneg q) hq 0 hi
  have hdd : |F.val (F.ofRat s q) - q| = |F.magVal (F.round |q|) - (|q|)| := by
    rw [hv]
    cases s
    · simp only [SignOk, Bool.false_eq_true, if_false] at hs ⊢
      rw [abs_of_nonneg hs]
    · simp only [SignOk, if_true] at hs ⊢
      rw [abs_of_nonpos hs, ← abs_neg]
      congr 1; ring
  have heven : F.round |q| % 2 = 0 → F.ofRat s q % 2 = 0 := by
    intro h
    unfold ofRat
    have : F.sgn % 2 = 0 := by
      have := hF.mb
      unfold sgn
      rw [show F.mb + F.eb = (F.mb + F.eb - 1) + 1 by omega, Nat.pow_succ]; omega
    split <;> omega
  have hnn := F.magVal_nonneg (F.mag d)
  have hnr := F.magVal_nonneg (F.round |q|)
  rw [hdd]
  rw [magVal_zero, zero_sub, abs_neg, abs_abs] at a0
  -- same sign, or opposite
  have hval : F.val d = if F.neg d then -F.magVal (F.mag d) else F.magVal (F.mag d) := rfl
  by_cases hsame : F.neg d = s
  · have hde : |F.val d - q| = |F.magVal (F.mag d) - (|q|)| := by
      rw [hval, hsame]
      cases s
      · simp only [SignOk, Bool.false_eq_true, if_false] at hs ⊢
        rw [abs_of_nonneg hs]
      · simp only [SignOk, if_true] at hs ⊢
        rw [abs_of_nonpos hs, ← abs_neg]
        congr 1; ring
    rw [hde]
    refine ⟨a, fun hne he => heven (b (fun hc => hne ?_) he)⟩
    rw [hval, hv, hsame, hc]
  · have hde : |F.val d - q| = F.magVal (F.mag d) + |q| := by
      have hns : F.neg d = !s := by cases s <;> cases hh : F.neg d <;> simp_all
      rw [hval, hns]
      cases s
      · simp only [SignOk, Bool.false_eq_true, if_false, Bool.not_false, if_true] at hs ⊢
        rw [abs_of_nonneg hs, abs_of_nonpos (by linarith)]; ring
      · simp only [SignOk, if_true, Bool.not_true, Bool.false_eq_true, if_false] at hs ⊢
        rw [abs_of_nonpos hs, abs_of_nonneg (by linarith)]; ring
    rw [hde]
    refine ⟨by linarith, fun hne he => ?_⟩
    have hz : F.magVal (F.mag d) = 0 := by linarith
    have hd0 : F.val d = 0 := by rw [hval, hz]; split <;> simp
    apply heven
    apply b0
    · rw [magVal_zero]
      intro hc
      apply hne
      rw [hd0, hv, ← hc]; split <;> simp
    · rw [magVal_zero, zero_sub, abs_neg, abs_abs]; linarith

end Fmt
end Cloudini.IEEE
