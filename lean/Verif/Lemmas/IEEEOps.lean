import Verif.Lemmas.IEEE

/-!
# Facts about the operations, and the error of quantising and dequantising
-/

namespace Cloudini.IEEE

namespace Fmt
variable (F : Fmt)

theorem inf_lt_sgn : F.inf < F.sgn := by
  unfold inf sgn
  rw [Nat.pow_add, Nat.mul_comm]
  have : 0 < 2 ^ F.eb := Nat.two_pow_pos _
  exact Nat.mul_lt_mul_of_pos_left (by omega) (Nat.two_pow_pos _)

theorem sgn_pos : 0 < F.sgn := Nat.two_pow_pos _

/-- Unit roundoff and half the smallest positive number. -/
def u : ℚ := 2 ^ (-(F.mb + 1) : Int)
def h : ℚ := 2 ^ (F.lo - 1)

theorem u_pos : 0 < F.u := two_zpow_pos _
theorem h_pos : 0 < F.h := two_zpow_pos _

theorem mag_ofRat {s : Bool} {m : Nat} (hm : m < F.sgn) : F.mag ((if s then F.sgn else 0) + m) = m := by
  unfold mag
  cases s
  · simp [Nat.mod_eq_of_lt hm]
  · simp [Nat.mod_eq_of_lt hm]

theorem neg_ofRat {s : Bool} {m : Nat} (hm : m < F.sgn) : F.neg ((if s then F.sgn else 0) + m) = s := by
  unfold neg
  cases s
  · simp [hm]
  · simp

/-- The sign agrees with the number. -/
def SignOk (s : Bool) (q : ℚ) : Prop := if s then q ≤ 0 else 0 ≤ q

theorem ofRat_spec (hF : F.Ok) {s : Bool} {q : ℚ} (hs : SignOk s q) (hq : |q| ≤ 2 ^ F.top) :
    F.isFin (F.ofRat s q) = true ∧ F.ofRat s q < 2 * F.sgn ∧ |F.val (F.ofRat s q) - q| ≤ F.u * |q| + F.h ∧
    ((2 : ℚ) ^ (F.lo + F.mb) ≤ |q| → |F.val (F.ofRat s q) - q| ≤ F.u * |q|) ∧
    (F.magVal (F.round |q|) = |q| → F.val (F.ofRat s q) = q) ∧ SignOk s (F.val (F.ofRat s q)) ∧
    F.neg (F.ofRat s q) = s ∧ (q ≠ 0 → |F.val (F.ofRat s q) - q| ≤ 2 ^ (F.expo |q| - 1)) := by
  have h1 := (F.round_lt_inf hF (abs_nonneg q) hq).1
  have h2 : F.round |q| < F.sgn := lt_trans h1 F.inf_lt_sgn
  obtain ⟨e1, e2⟩ := F.round_err hF (abs_nonneg q) hq
  have hm := F.mag_ofRat (s := s) h2
  have hn := F.neg_ofRat (s := s) h2
  have hnn := F.magVal_nonneg (F.round |q|)
  have hv : F.val (F.ofRat s q) = if s then -F.magVal (F.round |q|) else F.magVal (F.round |q|) := by
    unfold val ofRat
    rw [hm, hn]
  have hd : |F.val (F.ofRat s q) - q| = |F.magVal (F.round |q|) - (|q|)| := by
    rw [hv]
    cases s
    · simp only [SignOk, Bool.false_eq_true, if_false] at hs ⊢
      rw [abs_of_nonneg hs]
    · simp only [SignOk, if_true] at hs ⊢
      rw [abs_of_nonpos hs, ← abs_neg]
      congr 1; ring
  refine ⟨?_, ?_, ?_, ?_, ?_, ?_, hn, ?_⟩
  · unfold isFin ofRat; rw [hm]; simpa using h1
  · unfold ofRat; split <;> omega
  · rw [hd]; exact e1
  · rw [hd]; exact e2
  · intro he
    have : |F.val (F.ofRat s q) - q| = 0 := by rw [hd, he]; simp
    have := abs_eq_zero.1 this
    linarith
  · rw [hv]
    cases s <;> simp only [SignOk, Bool.false_eq_true, if_false, if_true] <;> linarith
  · intro h
    rw [hd]
    exact F.round_err_ulp hF (abs_pos.2 h) hq

theorem val_sign (x : Nat) : SignOk (F.neg x) (F.val x) := by
  unfold val SignOk
  have := F.magVal_nonneg (F.mag x)
  cases F.neg x <;> simp <;> assumption

theorem sign_mul {s t : Bool} {a b : ℚ} (ha : SignOk s a) (hb : SignOk t b) : SignOk (s != t) (a * b) := by
  cases s <;> cases t <;> simp only [SignOk, bne_self_eq_false, Bool.false_eq_true, if_false, if_true, Bool.bne_false, Bool.true_bne, Bool.bne_true, Bool.not_true, Bool.not_false] at *
  · exact mul_nonneg ha hb
  · exact mul_nonpos_of_nonneg_of_nonpos ha hb
  · exact mul_nonpos_of_nonpos_of_nonneg ha hb
  · exact mul_nonneg_of_nonpos_of_nonpos ha hb

theorem fin_not_nan {x : Nat} (h : F.isFin x = true) : F.isNaN x = false ∧ F.isInf x = false := by
  unfold isFin at h; unfold isNaN isInf
  simp only [decide_eq_true_eq, decide_eq_false_iff_not] at *
  omega

theorem mul_eq {a b : Nat} (ha : F.isFin a = true) (hb : F.isFin b = true) :
    F.mul a b = F.ofRat (F.neg a != F.neg b) (F.val a * F.val b) := by
  unfold mul
  simp [(F.fin_not_nan ha).1, (F.fin_not_nan hb).1, (F.fin_not_nan ha).2, (F.fin_not_nan hb).2]

/-- `a * b` for finite operands without overflow. -/
theorem mul_spec (hF : F.Ok) {a b : Nat} (ha : F.isFin a = true) (hb : F.isFin b = true)
    (hq : |F.val a * F.val b| ≤ 2 ^ F.top) :
    F.isFin (F.mul a b) = true ∧ F.mul a b < 2 * F.sgn ∧
    |F.val (F.mul a b) - F.val a * F.val b| ≤ F.u * |F.val a * F.val b| + F.h := by
  rw [F.mul_eq ha hb]
  have := F.ofRat_spec hF (sign_mul (F.val_sign a) (F.val_sign b)) hq
  exact ⟨this.1, this.2.1, this.2.2.1⟩

theorem magVal_form (m : Nat) (hm : m < F.inf) :
    ∃ (n : Nat) (e : Int), n < 2 ^ (F.mb + 1) ∧ F.lo ≤ e ∧ e ≤ F.top - F.mb ∧ F.magVal m = (n : ℚ) * 2 ^ e ∨
      n < 2 ^ F.mb ∧ e = F.lo ∧ F.magVal m = (n : ℚ) * 2 ^ e := by
  have hp : 0 < 2 ^ F.mb := Nat.two_pow_pos _
  have hmod := Nat.mod_lt m hp
  unfold magVal
  by_cases h : m / 2 ^ F.mb = 0
  · refine ⟨m, F.lo, Or.inr ⟨?_, rfl, by rw [if_pos h]⟩⟩
    rcases (Nat.div_eq_zero_iff).1 h with h | h
    · omega
    · exact h
  · refine ⟨m % 2 ^ F.mb + 2 ^ F.mb, (m / 2 ^ F.mb : Nat) - 1 + F.lo, Or.inl ⟨?_, ?_, ?_, by rw [if_neg h]⟩⟩
    · rw [Nat.pow_succ]; omega
    · generalize m / 2 ^ F.mb = E at h; omega
    · have : m / 2 ^ F.mb < 2 ^ F.eb - 1 := by
        unfold inf at hm
        exact (Nat.div_lt_iff_lt_mul hp).2 hm
      have h1 := Nat.two_pow_pos F.eb
      unfold top
      have hcast : ((2 ^ F.eb : Nat) : Int) = 2 ^ F.eb := by push_cast; rfl
      rw [← hcast]
      omega

theorem magVal_lt (hF : F.Ok) (m : Nat) (hm : m < F.inf) : F.magVal m < 2 ^ (F.top + 1) := by
  obtain ⟨n, e, h⟩ := F.magVal_form m hm
  have he4 : 4 ≤ 2 ^ F.eb := Nat.pow_le_pow_right (show 0 < 2 by decide) hF.eb
  have hcast : ((2 ^ F.eb : Nat) : Int) = 2 ^ F.eb := by push_cast; rfl
  have ht : F.lo + F.mb ≤ F.top := by unfold top; rw [← hcast]; omega
  have key : n < 2 ^ (F.mb + 1) ∧ e ≤ F.top - F.mb ∧ F.magVal m = (n : ℚ) * 2 ^ e := by
    rcases h with ⟨a, b, c, d⟩ | ⟨a, b, c⟩
    · exact ⟨a, c, d⟩
    · refine ⟨?_, by omega, c⟩
      rw [Nat.pow_succ]; omega
  obtain ⟨a, b, c⟩ := key
  rw [c]
  have h1 : (n : ℚ) < 2 ^ (F.mb + 1) := by exact_mod_cast a
  calc (n : ℚ) * 2 ^ e < 2 ^ (F.mb + 1) * 2 ^ e := mul_lt_mul_of_pos_right h1 (two_zpow_pos _)
    _ = 2 ^ ((F.mb + 1 : Nat) + e : Int) := by rw [← zpow_natCast, ← zpow_add₀ (by norm_num)]
    _ ≤ 2 ^ (F.top + 1) := zpow_le_of_le (by push_cast; omega)

theorem val_abs (x : Nat) : |F.val x| = F.magVal (F.mag x) := by
  unfold val
  split
  · rw [abs_neg, abs_of_nonneg (F.magVal_nonneg _)]
  · rw [abs_of_nonneg (F.magVal_nonneg _)]

/-- Conversion of an integer. -/
theorem ofInt_spec (hF : F.Ok) (hn : F.lo + F.mb ≤ 0) {z : Int} (hz : |(z : ℚ)| ≤ 2 ^ F.top) :
    F.isFin (F.ofInt z) = true ∧ |F.val (F.ofInt z) - z| ≤ F.u * |(z : ℚ)| ∧
    (|z| ≤ 2 ^ (F.mb + 1) → F.lo ≤ 0 → F.val (F.ofInt z) = z) := by
  have hs : SignOk (decide (z < 0)) (z : ℚ) := by
    unfold SignOk
    by_cases h : z < 0
    · simp only [h, decide_true, if_true]; exact_mod_cast h.le
    · simp only [h, decide_false, Bool.false_eq_true, if_false]; exact_mod_cast (not_lt.1 h)
  obtain ⟨a1, _, a3, a4, a5, _⟩ := F.ofRat_spec hF hs hz
  refine ⟨a1, ?_, ?_⟩
  · by_cases h : z = 0
    · subst h
      have : F.val (F.ofInt 0) = 0 := by
        have := a5 (by simp [round_zero, magVal_zero])
        exact_mod_cast this
      rw [this]; simp
    · apply a4
      have h1 : (1 : ℚ) ≤ |(z : ℚ)| := by exact_mod_cast Int.one_le_abs h
      have h2 : (2 : ℚ) ^ (F.lo + F.mb) ≤ 2 ^ (0 : Int) := zpow_le_of_le hn
      rw [zpow_zero] at h2
      linarith
  · intro hb hl
    apply a5
    have e1 : |(z : ℚ)| = ((z.natAbs : Nat) : ℚ) * 2 ^ (0 : Int) := by
      rw [zpow_zero, mul_one]
      have : ((z.natAbs : Nat) : Int) = |z| := Int.natCast_natAbs z
      rw [← Int.cast_abs, ← this]; simp
    apply F.round_exact hF z.natAbs 0 _ hl e1 hz
    have : ((z.natAbs : Nat) : Int) = |z| := Int.natCast_natAbs z
    have h3 : ((z.natAbs : Nat) : Int) ≤ ((2 ^ (F.mb + 1) : Nat) : Int) := by rw [this]; push_cast; exact hb
    exact_mod_cast h3

theorem magVal_pos {m : Nat} (h : m ≠ 0) : 0 < F.magVal m := by
  unfold magVal
  have hp : 0 < 2 ^ F.mb := Nat.two_pow_pos _
  split
  · have : (0 : ℚ) < m := by exact_mod_cast Nat.pos_of_ne_zero h
    positivity
  · have : (0 : ℚ) < ((m % 2 ^ F.mb + 2 ^ F.mb : Nat) : ℚ) := by exact_mod_cast (by omega)
    positivity

/-- `1.0 / a`, away from overflow and underflow. -/
theorem recip_spec (hF : F.Ok) {a : Nat} (ha : F.isFin a = true) (hp : 0 < F.val a)
    (h1 : 1 / F.val a ≤ 2 ^ F.top) (h2 : (2 : ℚ) ^ (F.lo + F.mb) ≤ 1 / F.val a) :
    F.isFin (F.recip a) = true ∧ |F.val (F.recip a) - 1 / F.val a| ≤ F.u * (1 / F.val a) ∧ 0 ≤ F.val (F.recip a) := by
  have hq : 0 < 1 / F.val a := by positivity
  have hm : F.mag a ≠ 0 := by
    intro h
    have := F.val_abs a
    rw [h, magVal_zero, abs_of_pos hp] at this
    linarith
  have hsn : F.neg a = false := by
    by_contra hc
    have := F.val_sign a
    simp only [Bool.not_eq_false] at hc
    rw [hc] at this
    simp only [SignOk, if_true] at this
    linarith
  have he : F.recip a = F.ofRat false (1 / F.val a) := by
    unfold recip
    simp [(F.fin_not_nan ha).1, (F.fin_not_nan ha).2, hm, hsn]
  rw [he]
  have hs : SignOk false (1 / F.val a) := by simp only [SignOk, Bool.false_eq_true, if_false]; exact hq.le
  obtain ⟨a1, _, _, a4, _, a6, _⟩ := F.ofRat_spec hF hs (by rw [abs_of_pos hq]; exact h1)
  rw [abs_of_pos hq] at a4
  exact ⟨a1, a4 h2, by simpa [SignOk] using a6⟩

end Fmt

theorem widen_spec {r : Nat} (hr : b32.isFin r = true) :
    b64.isFin (widen r) = true ∧ b64.val (widen r) = b32.val r := by
  have hm : b32.mag r < b32.inf := by simpa [Fmt.isFin] using hr
  have he : widen r = b64.ofRat (b32.neg r) (b32.val r) := by
    unfold widen
    simp [(b32.fin_not_nan hr).1, (b32.fin_not_nan hr).2]
  have hlt := b32.magVal_lt Fmt.b32_ok _ hm
  have htop : b64.top = 1023 := by decide
  have htop32 : b32.top = 127 := by decide
  have hle : |b32.val r| ≤ 2 ^ b64.top := by
    rw [b32.val_abs, htop]
    rw [htop32] at hlt
    exact hlt.le.trans (zpow_le_of_le (by norm_num))
  obtain ⟨a1, _, _, _, a5, _⟩ := b64.ofRat_spec Fmt.b64_ok (b32.val_sign r) hle
  rw [he]
  refine ⟨a1, a5 ?_⟩
  obtain ⟨n, e, h⟩ := b32.magVal_form _ hm
  have key : n ≤ 2 ^ 24 ∧ -149 ≤ e ∧ b32.magVal (b32.mag r) = (n : ℚ) * 2 ^ e := by
    rcases h with ⟨a, b, c, d⟩ | ⟨a, b, c⟩
    · exact ⟨by simpa [b32] using a.le, by simpa [b32] using b, d⟩
    · refine ⟨?_, by rw [b]; decide, c⟩
      have : n < 2 ^ 23 := by simpa [b32] using a
      omega
  apply b64.round_exact Fmt.b64_ok n e _ _ (by rw [b32.val_abs]; exact key.2.2) hle
  · have := key.1
    show n ≤ 2 ^ 53
    omega
  · show -1074 ≤ e
    omega

theorem narrow_spec {x : Nat} (hx : b64.isFin x = true) (h1 : |b64.val x| ≤ 2 ^ b32.top)
    (h2 : (2 : ℚ) ^ (b32.lo + b32.mb) ≤ |b64.val x|) :
    b32.isFin (narrow x) = true ∧ |b32.val (narrow x) - b64.val x| ≤ b32.u * |b64.val x| := by
  have he : narrow x = b32.ofRat (b64.neg x) (b64.val x) := by
    unfold narrow
    simp [(b64.fin_not_nan hx).1, (b64.fin_not_nan hx).2]
  rw [he]
  obtain ⟨a1, _, _, a4, _⟩ := b32.ofRat_spec Fmt.b32_ok (b64.val_sign x) h1
  exact ⟨a1, a4 h2⟩

/-! ### The error budget -/

/-- One multiplication in error-budget form. -/
theorem mul_budget {x m M p u a h : ℚ} (hM : 0 ≤ M) (hu : 0 ≤ u) (ha : 0 ≤ a) (hm : |m - M| ≤ a * M)
    (hp : |p - x * m| ≤ u * |x * m| + h) : |p - x * M| ≤ (a + u * (1 + a)) * (|x| * M) + h := by
  have h1 : |m| ≤ (1 + a) * M := by
    have := abs_sub_abs_le_abs_sub m M
    rw [abs_of_nonneg hM] at this
    linarith
  have h2 : |x * m - x * M| ≤ a * (|x| * M) := by
    rw [← mul_sub, abs_mul]
    calc |x| * |m - M| ≤ |x| * (a * M) := mul_le_mul_of_nonneg_left hm (abs_nonneg x)
      _ = a * (|x| * M) := by ring
  have h3 : u * |x * m| ≤ u * (1 + a) * (|x| * M) := by
    rw [abs_mul]
    calc u * (|x| * |m|) ≤ u * (|x| * ((1 + a) * M)) := by
          apply mul_le_mul_of_nonneg_left _ hu
          exact mul_le_mul_of_nonneg_left h1 (abs_nonneg x)
      _ = u * (1 + a) * (|x| * M) := by ring
  have h4 := abs_sub_le p (x * m) (x * M)
  nlinarith

/-- The error of a whole quantise/dequantise cycle. -/
theorem cycle_budget {x r m p n f v u a h h' : ℚ} (hr : 0 < r) (hu : 0 ≤ u) (ha : 0 ≤ a) (hh : 0 ≤ h)
    (hm : |m - 1 / r| ≤ a * (1 / r)) (hp : |p - x * m| ≤ u * |x * m| + h) (hn : |n - p| ≤ 1 / 2)
    (hf : |f - n| ≤ u * |n|) (hv : |v - f * r| ≤ u * |f * r| + h') :
    |n * r - x| ≤ (a + u * (1 + a)) * |x| + (1 / 2 + h) * r ∧
    |v - x| ≤ ((1 + u) ^ 2 * (a + u * (1 + a)) + 2 * u + u ^ 2) * |x| + (1 + u) ^ 2 * (1 / 2 + h) * r + h' := by
  have hM : 0 ≤ 1 / r := by positivity
  have b1 := mul_budget hM hu ha hm hp
  set b := a + u * (1 + a) with hb
  have hb0 : 0 ≤ b := by positivity
  have hX : |x| * (1 / r) * r = |x| := by field_simp
  have hX0 : 0 ≤ |x| * (1 / r) := by positivity
  have b2 : |n - x * (1 / r)| ≤ b * (|x| * (1 / r)) + h + 1 / 2 := by
    have := abs_sub_le n p (x * (1 / r)); linarith
  have b3 : |n| ≤ |x| * (1 / r) + |n - x * (1 / r)| := by
    have := abs_sub_abs_le_abs_sub n (x * (1 / r))
    rw [abs_mul, abs_of_nonneg hM] at this
    linarith
  have b4 : |f - x * (1 / r)| ≤ (1 + u) * (b * (|x| * (1 / r)) + h + 1 / 2) + u * (|x| * (1 / r)) := by
    have h1 := abs_sub_le f n (x * (1 / r))
    have h2 : u * |n| ≤ u * (|x| * (1 / r) + |n - x * (1 / r)|) := mul_le_mul_of_nonneg_left b3 hu
    have h3 : u * |n - x * (1 / r)| ≤ u * (b * (|x| * (1 / r)) + h + 1 / 2) := mul_le_mul_of_nonneg_left b2 hu
    linarith
  have b5 : |f * r - x| ≤ (1 + u) * (b * |x| + (h + 1 / 2) * r) + u * |x| := by
    have e1 : f * r - x = (f - x * (1 / r)) * r := by field_simp
    rw [e1, abs_mul, abs_of_pos hr]
    calc |f - x * (1 / r)| * r ≤ ((1 + u) * (b * (|x| * (1 / r)) + h + 1 / 2) + u * (|x| * (1 / r))) * r :=
          mul_le_mul_of_nonneg_right b4 hr.le
      _ = (1 + u) * (b * (|x| * (1 / r) * r) + (h + 1 / 2) * r) + u * (|x| * (1 / r) * r) := by ring
      _ = _ := by rw [hX]
  have b6 : |f * r| ≤ |x| + |f * r - x| := by
    have := abs_sub_abs_le_abs_sub (f * r) x; linarith
  constructor
  · have e1 : n * r - x = (n - x * (1 / r)) * r := by field_simp
    rw [e1, abs_mul, abs_of_pos hr]
    calc |n - x * (1 / r)| * r ≤ (b * (|x| * (1 / r)) + h + 1 / 2) * r := mul_le_mul_of_nonneg_right b2 hr.le
      _ = b * (|x| * (1 / r) * r) + (1 / 2 + h) * r := by ring
      _ = _ := by rw [hX]
  · have h1 := abs_sub_le v (f * r) x
    have h2 : u * |f * r| ≤ u * (|x| + |f * r - x|) := mul_le_mul_of_nonneg_left b6 hu
    have h3 : u * |f * r - x| ≤ u * ((1 + u) * (b * |x| + (h + 1 / 2) * r) + u * |x|) := mul_le_mul_of_nonneg_left b5 hu
    have h4 : |v - x| ≤ (1 + u) * ((1 + u) * (b * |x| + (h + 1 / 2) * r) + u * |x|) + u * |x| + h' := by linarith
    calc |v - x| ≤ _ := h4
      _ = _ := by ring

/-- Dequantise, then quantise: how far the product is from the integer. -/
theorem back_budget {n r m v p u a h h' : ℚ} (hr : 0 < r) (hu : 0 ≤ u) (ha : 0 ≤ a)
    (hv : |v - n * r| ≤ u * |n * r| + h') (hm : |m - 1 / r| ≤ a * (1 / r)) (hp : |p - v * m| ≤ u * |v * m| + h) :
    |p - n| ≤ ((a + u * (1 + a)) * (1 + u) + u) * |n| + (1 + a + u * (1 + a)) * (h' * (1 / r)) + h := by
  have hM : 0 ≤ 1 / r := by positivity
  have b1 := mul_budget hM hu ha hm hp
  set b := a + u * (1 + a) with hb
  have hb0 : 0 ≤ b := by positivity
  have hnr : |n * r| = |n| * r := by rw [abs_mul, abs_of_pos hr]
  have hv2 : |v * (1 / r) - n| ≤ u * |n| + h' * (1 / r) := by
    have e1 : v * (1 / r) - n = (v - n * r) * (1 / r) := by field_simp
    rw [e1, abs_mul, abs_of_nonneg hM]
    calc |v - n * r| * (1 / r) ≤ (u * |n * r| + h') * (1 / r) := mul_le_mul_of_nonneg_right hv hM
      _ = u * (|n| * r * (1 / r)) + h' * (1 / r) := by rw [hnr]; ring
      _ = _ := by congr 2; field_simp
  have hv3 : |v| * (1 / r) ≤ (1 + u) * |n| + h' * (1 / r) := by
    have h1 := abs_sub_abs_le_abs_sub (v * (1 / r)) n
    rw [abs_mul, abs_of_nonneg hM] at h1
    linarith
  have h4 := abs_sub_le p (v * (1 / r)) n
  have h5 : b * (|v| * (1 / r)) ≤ b * ((1 + u) * |n| + h' * (1 / r)) := mul_le_mul_of_nonneg_left hv3 hb0
  calc |p - n| ≤ b * ((1 + u) * |n| + h' * (1 / r)) + h + (u * |n| + h' * (1 / r)) := by linarith
    _ = _ := by ring

end Cloudini.IEEE
