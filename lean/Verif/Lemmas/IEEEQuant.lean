import Verif.Lemmas.IEEEOps

/-!
# The three quantisation paths
-/

namespace Cloudini.IEEE

theorem b32_top : b32.top = 127 := by decide
theorem b64_top : b64.top = 1023 := by decide
theorem b32_u : b32.u = 2 ^ (-24 : Int) := by unfold Fmt.u; norm_num [b32]
theorem b64_u : b64.u = 2 ^ (-53 : Int) := by unfold Fmt.u; norm_num [b64]
theorem b32_h : b32.h = 2 ^ (-150 : Int) := by unfold Fmt.h; norm_num [b32]
theorem b64_h : b64.h = 2 ^ (-1075 : Int) := by unfold Fmt.h; norm_num [b64]

/-- Quantise `x` with multiplier pattern `M ≈ 1/r`, round to any nearest integer `n`, dequantise with `R`. -/
theorem cycle_wide (F : Fmt) (hF : F.Ok) (hn0 : F.lo + F.mb ≤ 0) (htop : 127 ≤ F.top) (hu : F.u ≤ 2 ^ (-24 : Int))
    (hh : F.h ≤ 2 ^ (-24 : Int)) {x R M : Nat} {a : ℚ} (ha0 : 0 ≤ a) (ha1 : a ≤ 1 / 1000)
    (hx : F.isFin x = true) (hR : F.isFin R = true) (hM : F.isFin M = true) (hr : 0 < F.val R)
    (hm : |F.val M - 1 / F.val R| ≤ a * (1 / F.val R)) (hx1 : |F.val x| ≤ 2 ^ (F.top - 1))
    (hr1 : F.val R ≤ 2 ^ (F.top - 1)) (hx2 : |F.val x| ≤ 2 ^ 62 * F.val R) :
    F.isFin (F.mul x M) = true ∧ ∀ n : Int, |(n : ℚ) - F.val (F.mul x M)| ≤ 1 / 2 →
      |(n : ℚ) * F.val R - F.val x| ≤ (a + F.u * (1 + a)) * |F.val x| + (1 / 2 + F.h) * F.val R ∧
      F.isFin (F.mul (F.ofInt n) R) = true ∧ F.mul (F.ofInt n) R < 2 * F.sgn ∧
      |F.val (F.mul (F.ofInt n) R) - F.val x| ≤ ((1 + F.u) ^ 2 * (a + F.u * (1 + a)) + 2 * F.u + F.u ^ 2) * |F.val x| +
        (1 + F.u) ^ 2 * (1 / 2 + F.h) * F.val R + F.h := by
  have hu0 := F.u_pos
  have hh0 := F.h_pos
  set r := F.val R with hrdef
  set X := F.val x with hX
  set m := F.val M with hmd
  have hM0 : 0 ≤ 1 / r := by positivity
  have hu1 : F.u ≤ 1 / 16777216 := by refine hu.trans (le_of_eq ?_); norm_num
  have hh1 : F.h ≤ 1 / 16777216 := by refine hh.trans (le_of_eq ?_); norm_num
  have hXr : |X| * (1 / r) ≤ 2 ^ 62 := by
    rw [mul_one_div, div_le_iff₀ hr]; exact hx2
  have hmabs : |m| ≤ (1 + a) * (1 / r) := by
    have := abs_sub_abs_le_abs_sub m (1 / r)
    rw [abs_of_nonneg hM0] at this
    linarith
  have hXm : |X * m| ≤ 2 ^ 63 := by
    rw [abs_mul]
    calc |X| * |m| ≤ |X| * ((1 + a) * (1 / r)) := mul_le_mul_of_nonneg_left hmabs (abs_nonneg _)
      _ = (1 + a) * (|X| * (1 / r)) := by ring
      _ ≤ (1 + a) * 2 ^ 62 := mul_le_mul_of_nonneg_left hXr (by linarith)
      _ ≤ 2 ^ 63 := by norm_num; linarith
  have t127 : (2 : ℚ) ^ (127 : Int) ≤ 2 ^ F.top := zpow_le_of_le htop
  have h63 : (2 : ℚ) ^ 63 ≤ 2 ^ F.top := le_trans (by norm_num) t127
  obtain ⟨p1, _, p3⟩ := F.mul_spec hF hx hM (hXm.trans h63)
  refine ⟨p1, fun n hn => ?_⟩
  -- the integer
  have hb1 : |(n : ℚ)| ≤ 2 ^ 64 := by
    have q1 := abs_sub_abs_le_abs_sub (n : ℚ) (F.val (F.mul x M))
    have q2 := abs_sub_abs_le_abs_sub (F.val (F.mul x M)) (X * m)
    have q3 : F.u * |X * m| ≤ 1 / 16777216 * 2 ^ 63 :=
      mul_le_mul hu1 hXm (abs_nonneg _) (by norm_num)
    norm_num at *
    linarith
  have h64 : (2 : ℚ) ^ 64 ≤ 2 ^ F.top := le_trans (by norm_num) t127
  obtain ⟨f1, f2, _⟩ := F.ofInt_spec hF hn0 (hb1.trans h64)
  set f := F.val (F.ofInt n) with hfd
  -- bound the exact product
  have base := fun v hv => cycle_budget (x := X) (r := r) (m := m) (p := F.val (F.mul x M)) (n := n) (f := f) (v := v)
    (u := F.u) (a := a) (h := F.h) (h' := F.h) hr hu0.le ha0 hh0.le hm p3 hn f2 hv
  have hpow : (2 : ℚ) ^ F.top = 2 * 2 ^ (F.top - 1) := by
    rw [← zpow_one_add₀ (by norm_num)]; congr 1; ring
  have hfr : |f * r| ≤ 2 ^ F.top := by
    have b := (base (f * r) (by simp; positivity)).2
    have q1 := abs_sub_abs_le_abs_sub (f * r) X
    have hsq : (1 + F.u) ^ 2 ≤ 1 + 1 / 4194304 := by nlinarith
    have hb : a + F.u * (1 + a) ≤ 1 / 500 := by
      have : F.u * (1 + a) ≤ 1 / 16777216 * 2 := mul_le_mul hu1 (by linarith) (by positivity) (by norm_num)
      linarith
    have c1 : ((1 + F.u) ^ 2 * (a + F.u * (1 + a)) + 2 * F.u + F.u ^ 2) ≤ 1 / 100 := by
      have := mul_le_mul hsq hb (by positivity) (by norm_num)
      have h2 : F.u ^ 2 ≤ F.u := by nlinarith
      norm_num at *
      linarith
    have c2 : (1 + F.u) ^ 2 * (1 / 2 + F.h) ≤ 51 / 100 := by
      have := mul_le_mul hsq (show 1 / 2 + F.h ≤ 1 / 2 + 1 / 16777216 by linarith) (by positivity) (by norm_num)
      norm_num at *
      linarith
    have d1 := mul_le_mul c1 hx1 (abs_nonneg _) (by norm_num)
    have d2 := mul_le_mul c2 hr1 hr.le (by norm_num)
    have d3 : (1 : ℚ) ≤ 2 ^ (F.top - 1) := one_le_zpow₀ (by norm_num) (by omega)
    rw [hpow]
    linarith
  obtain ⟨v1, v2, v3⟩ := F.mul_spec hF f1 hR hfr
  obtain ⟨w1, w2⟩ := base _ v3
  exact ⟨w1, v1, v2, w2⟩

theorem cycle (F : Fmt) (hF : F.Ok) (hn0 : F.lo + F.mb ≤ 0) (htop : 127 ≤ F.top) (hu : F.u ≤ 2 ^ (-24 : Int))
    (hh : F.h ≤ 2 ^ (-24 : Int)) {x R M : Nat} {a : ℚ} (ha0 : 0 ≤ a) (ha : a ≤ 2 ^ (-23 : Int))
    (hx : F.isFin x = true) (hR : F.isFin R = true) (hM : F.isFin M = true) (hr : 0 < F.val R)
    (hm : |F.val M - 1 / F.val R| ≤ a * (1 / F.val R)) (hx1 : |F.val x| ≤ 2 ^ (F.top - 1))
    (hr1 : F.val R ≤ 2 ^ (F.top - 1)) (hx2 : |F.val x| ≤ 2 ^ 62 * F.val R) :
    F.isFin (F.mul x M) = true ∧ ∀ n : Int, |(n : ℚ) - F.val (F.mul x M)| ≤ 1 / 2 →
      |(n : ℚ) * F.val R - F.val x| ≤ (a + F.u * (1 + a)) * |F.val x| + (1 / 2 + F.h) * F.val R ∧
      F.isFin (F.mul (F.ofInt n) R) = true ∧ F.mul (F.ofInt n) R < 2 * F.sgn ∧
      |F.val (F.mul (F.ofInt n) R) - F.val x| ≤ ((1 + F.u) ^ 2 * (a + F.u * (1 + a)) + 2 * F.u + F.u ^ 2) * |F.val x| +
        (1 + F.u) ^ 2 * (1 / 2 + F.h) * F.val R + F.h :=
  cycle_wide F hF hn0 htop hu hh ha0 (ha.trans (by norm_num)) hx hR hM hr hm hx1 hr1 hx2

/-- Dequantise an exactly representable integer with `R`, then multiply by `M ≈ 1/r`. -/
theorem back (F : Fmt) (hF : F.Ok) (hn0 : F.lo + F.mb ≤ 0) (hlo : F.lo ≤ 0) (htop : 127 ≤ F.top) (hu : F.u ≤ 2 ^ (-24 : Int))
    (hh : F.h ≤ 2 ^ (-24 : Int)) {R M : Nat} {a : ℚ} (ha0 : 0 ≤ a) (ha : a ≤ 2 ^ (-23 : Int))
    (hR : F.isFin R = true) (hM : F.isFin M = true) (hr : 0 < F.val R)
    (hm : |F.val M - 1 / F.val R| ≤ a * (1 / F.val R)) (hr2 : F.h ≤ 2 ^ (-24 : Int) * F.val R)
    (n : Int) (hn : |n| ≤ 2 ^ (F.mb + 1)) (hn2 : |n| ≤ 2 ^ 62) (hnr : |(n : ℚ)| * F.val R ≤ 2 ^ F.top) :
    F.isFin (F.mul (F.ofInt n) R) = true ∧ F.mul (F.ofInt n) R < 2 * F.sgn ∧
    F.isFin (F.mul (F.mul (F.ofInt n) R) M) = true ∧
    |F.val (F.mul (F.mul (F.ofInt n) R) M) - n| ≤ ((a + F.u * (1 + a)) * (1 + F.u) + F.u) * |(n : ℚ)| + 2 ^ (-20 : Int) := by
  have hu0 := F.u_pos
  have hh0 := F.h_pos
  set r := F.val R with hrdef
  set m := F.val M with hmd
  have hM0 : 0 ≤ 1 / r := by positivity
  have ha1 : a ≤ 1 / 8388608 := by refine ha.trans (le_of_eq ?_); norm_num
  have hu1 : F.u ≤ 1 / 16777216 := by refine hu.trans (le_of_eq ?_); norm_num
  have hh1 : F.h ≤ 1 / 16777216 := by refine hh.trans (le_of_eq ?_); norm_num
  have t127 : (2 : ℚ) ^ (127 : Int) ≤ 2 ^ F.top := zpow_le_of_le htop
  have hn2q : |(n : ℚ)| ≤ 2 ^ 62 := by exact_mod_cast hn2
  have h62 : (2 : ℚ) ^ 62 ≤ 2 ^ F.top := le_trans (by norm_num) t127
  have h64 : (2 : ℚ) ^ 64 ≤ 2 ^ F.top := le_trans (by norm_num) t127
  obtain ⟨f1, _, f3⟩ := F.ofInt_spec hF hn0 (hn2q.trans h62)
  have hf := f3 hn hlo
  obtain ⟨v1, v2, v3⟩ := F.mul_spec hF f1 hR (by rw [hf, abs_mul, abs_of_pos hr]; exact hnr)
  rw [hf] at v3
  set v := F.val (F.mul (F.ofInt n) R) with hvd
  have hv' : |v| ≤ ((1 + F.u) * |(n : ℚ)| + 1 / 16777216) * r := by
    have q := abs_sub_abs_le_abs_sub v (n * r)
    rw [abs_mul, abs_of_pos hr] at v3 q
    have hr3 : F.h ≤ 1 / 16777216 * r := by refine hr2.trans (le_of_eq ?_); norm_num
    linarith
  have hmabs : |m| ≤ (1 + a) * (1 / r) := by
    have := abs_sub_abs_le_abs_sub m (1 / r)
    rw [abs_of_nonneg hM0] at this
    linarith
  have hvm : |v * m| ≤ 2 ^ 64 := by
    rw [abs_mul]
    calc |v| * |m| ≤ (((1 + F.u) * |(n : ℚ)| + 1 / 16777216) * r) * ((1 + a) * (1 / r)) :=
          mul_le_mul hv' hmabs (abs_nonneg _) (by positivity)
      _ = (1 + a) * ((1 + F.u) * |(n : ℚ)| + 1 / 16777216) := by field_simp
      _ ≤ 2 * (2 * 2 ^ 62 - 1) := by
          apply mul_le_mul (by linarith) _ (by positivity) (by norm_num)
          have : (1 + F.u) * |(n : ℚ)| ≤ (1 + 1 / 16777216) * 2 ^ 62 :=
            mul_le_mul (by linarith) hn2q (abs_nonneg _) (by norm_num)
          norm_num at *; linarith
      _ ≤ 2 ^ 64 := by norm_num
  obtain ⟨p1, _, p3⟩ := F.mul_spec hF v1 hM (hvm.trans h64)
  refine ⟨v1, v2, p1, ?_⟩
  have b := back_budget hr hu0.le ha0 v3 hm p3
  refine b.trans ?_
  have e1 : F.h * (1 / r) ≤ 1 / 16777216 := by
    rw [mul_one_div, div_le_iff₀ hr]
    refine hr2.trans (le_of_eq ?_); norm_num
  have e2 : (1 + a + F.u * (1 + a)) * (F.h * (1 / r)) ≤ 2 * (1 / 16777216) := by
    apply mul_le_mul _ e1 (by positivity) (by norm_num)
    have : F.u * (1 + a) ≤ 1 / 16777216 * 2 := mul_le_mul hu1 (by linarith) (by positivity) (by norm_num)
    linarith
  have e3 : (2 : ℚ) ^ (-20 : Int) = 1 / 1048576 := by norm_num
  rw [e3]
  linarith

/-! ### The multipliers -/

theorem mult64_spec {r : BitVec 32} (hr : b32.isFin r.toNat = true) (h1 : (2 : ℚ) ^ (-126 : Int) ≤ b32.val r.toNat)
    (h2 : b32.val r.toNat ≤ 2 ^ (126 : Int)) :
    b64.isFin (mult64 r) = true ∧
    |b64.val (mult64 r) - 1 / b32.val r.toNat| ≤ 2 ^ (-53 : Int) * (1 / b32.val r.toNat) ∧ 0 ≤ b64.val (mult64 r) := by
  obtain ⟨w1, w2⟩ := widen_spec hr
  have hpos : 0 < b32.val r.toNat := lt_of_lt_of_le (two_zpow_pos _) h1
  have i1 : 1 / b32.val r.toNat ≤ 2 ^ (126 : Int) := by
    rw [div_le_iff₀ hpos]
    calc (1 : ℚ) = 2 ^ (126 : Int) * 2 ^ (-126 : Int) := by rw [← zpow_add₀ (by norm_num)]; norm_num
      _ ≤ _ := mul_le_mul_of_nonneg_left h1 (two_zpow_pos _).le
  have i2 : (2 : ℚ) ^ (-126 : Int) ≤ 1 / b32.val r.toNat := by
    rw [le_div_iff₀ hpos]
    calc (2 : ℚ) ^ (-126 : Int) * b32.val r.toNat ≤ 2 ^ (-126 : Int) * 2 ^ (126 : Int) :=
          mul_le_mul_of_nonneg_left h2 (two_zpow_pos _).le
      _ = 1 := by rw [← zpow_add₀ (by norm_num)]; norm_num
  have := b64.recip_spec Fmt.b64_ok w1 (by rw [w2]; exact hpos)
    (by rw [w2, b64_top]; exact i1.trans (zpow_le_of_le (by norm_num)))
    (by rw [w2]; exact le_trans (zpow_le_of_le (by norm_num [b64])) i2)
  rw [w2, b64_u] at this
  exact this

theorem multV_spec {r : BitVec 32} (hr : b32.isFin r.toNat = true) (h1 : (2 : ℚ) ^ (-126 : Int) ≤ b32.val r.toNat)
    (h2 : b32.val r.toNat ≤ 2 ^ (126 : Int)) :
    b32.isFin (multV r) = true ∧
    |b32.val (multV r) - 1 / b32.val r.toNat| ≤ 2 ^ (-24 : Int) * (1 / b32.val r.toNat) ∧ 0 ≤ b32.val (multV r) := by
  have hpos : 0 < b32.val r.toNat := lt_of_lt_of_le (two_zpow_pos _) h1
  have i1 : 1 / b32.val r.toNat ≤ 2 ^ (126 : Int) := by
    rw [div_le_iff₀ hpos]
    calc (1 : ℚ) = 2 ^ (126 : Int) * 2 ^ (-126 : Int) := by rw [← zpow_add₀ (by norm_num)]; norm_num
      _ ≤ _ := mul_le_mul_of_nonneg_left h1 (two_zpow_pos _).le
  have i2 : (2 : ℚ) ^ (-126 : Int) ≤ 1 / b32.val r.toNat := by
    rw [le_div_iff₀ hpos]
    calc (2 : ℚ) ^ (-126 : Int) * b32.val r.toNat ≤ 2 ^ (-126 : Int) * 2 ^ (126 : Int) :=
          mul_le_mul_of_nonneg_left h2 (two_zpow_pos _).le
      _ = 1 := by rw [← zpow_add₀ (by norm_num)]; norm_num
  have := b32.recip_spec Fmt.b32_ok hr hpos
    (by rw [b32_top]; exact i1.trans (zpow_le_of_le (by norm_num)))
    (le_trans (zpow_le_of_le (by norm_num [b32])) i2)
  rw [b32_u] at this
  exact this

/-- The relative error of the scalar `float` multiplier. -/
def a32 : ℚ := 2 ^ (-24 : Int) + 2 ^ (-52 : Int)

theorem mult32_spec {r : BitVec 32} (hr : b32.isFin r.toNat = true) (h1 : (2 : ℚ) ^ (-125 : Int) ≤ b32.val r.toNat)
    (h2 : b32.val r.toNat ≤ 2 ^ (125 : Int)) :
    b32.isFin (mult32 r) = true ∧
    |b32.val (mult32 r) - 1 / b32.val r.toNat| ≤ a32 * (1 / b32.val r.toNat) := by
  obtain ⟨m1, m2, m3⟩ := mult64_spec hr (le_trans (zpow_le_of_le (by norm_num)) h1) (h2.trans (zpow_le_of_le (by norm_num)))
  have hpos : 0 < b32.val r.toNat := lt_of_lt_of_le (two_zpow_pos _) h1
  have i1 : 1 / b32.val r.toNat ≤ 2 ^ (125 : Int) := by
    rw [div_le_iff₀ hpos]
    calc (1 : ℚ) = 2 ^ (125 : Int) * 2 ^ (-125 : Int) := by rw [← zpow_add₀ (by norm_num)]; norm_num
      _ ≤ _ := mul_le_mul_of_nonneg_left h1 (two_zpow_pos _).le
  have i2 : (2 : ℚ) ^ (-125 : Int) ≤ 1 / b32.val r.toNat := by
    rw [le_div_iff₀ hpos]
    calc (2 : ℚ) ^ (-125 : Int) * b32.val r.toNat ≤ 2 ^ (-125 : Int) * 2 ^ (125 : Int) :=
          mul_le_mul_of_nonneg_left h2 (two_zpow_pos _).le
      _ = 1 := by rw [← zpow_add₀ (by norm_num)]; norm_num
  set q := 1 / b32.val r.toNat with hq
  have hq0 : 0 < q := by positivity
  set m := b64.val (mult64 r) with hm
  have e53 : (2 : ℚ) ^ (-53 : Int) = 1 / 9007199254740992 := by norm_num
  have e24 : (2 : ℚ) ^ (-24 : Int) = 1 / 16777216 := by norm_num
  have e52 : (2 : ℚ) ^ (-52 : Int) = 1 / 4503599627370496 := by norm_num
  rw [e53] at m2
  have mb := abs_le.1 m2
  have s1 : (2 : ℚ) ^ (127 : Int) = 4 * 2 ^ (125 : Int) := by norm_num
  have s2 : (2 : ℚ) ^ (-125 : Int) = 2 * 2 ^ (-126 : Int) := by norm_num
  obtain ⟨n1, n2⟩ := narrow_spec m1 (by rw [abs_of_nonneg m3, b32_top, s1]; linarith)
    (by rw [abs_of_nonneg m3]
        show (2 : ℚ) ^ (-126 : Int) ≤ _
        rw [s2] at i2
        linarith)
  refine ⟨n1, ?_⟩
  rw [abs_of_nonneg m3, b32_u, e24] at n2
  have t := abs_sub_le (b32.val (mult32 r)) m q
  unfold a32
  rw [e24, e52]
  have : |b32.val (mult32 r) - m| ≤ 1 / 16777216 * m := n2
  linarith

end Cloudini.IEEE
