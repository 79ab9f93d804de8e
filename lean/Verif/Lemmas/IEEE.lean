import Mathlib.Tactic.Linarith
import Mathlib.Tactic.Positivity
import Mathlib.Tactic.FieldSimp
import Mathlib.Tactic.Ring
import Mathlib.Tactic.NormNum
import Verif.Model.IEEE

/-!
# Facts about rounding
-/

namespace Cloudini.IEEE

theorem two_zpow_pos (k : Int) : (0 : ℚ) < 2 ^ k := by positivity

theorem zpow_le_of_le {a b : Int} (h : a ≤ b) : (2 : ℚ) ^ a ≤ 2 ^ b := zpow_le_zpow_right₀ (by norm_num) h
theorem zpow_lt_of_lt {a b : Int} (h : a < b) : (2 : ℚ) ^ a < 2 ^ b := zpow_lt_zpow_right₀ (by norm_num) h

theorem ilog2_spec {q : ℚ} (hq : 0 < q) : (2 : ℚ) ^ ilog2 q ≤ q ∧ q < 2 ^ (ilog2 q + 1) := by
  have hnum : 0 < q.num := Rat.num_pos.2 hq
  have hn0 : q.num.toNat ≠ 0 := by omega
  have hd0 : q.den ≠ 0 := q.den_nz
  have a1 := Nat.log2_self_le hn0
  have a2 := Nat.lt_log2_self (n := q.num.toNat)
  have b1 := Nat.log2_self_le hd0
  have b2 := Nat.lt_log2_self (n := q.den)
  have hq' : q = (q.num.toNat : ℚ) / (q.den : ℚ) := by
    conv_lhs => rw [← Rat.num_div_den q]
    congr 1
    exact_mod_cast (Int.toNat_of_nonneg hnum.le).symm
  set n := q.num.toNat
  set d := q.den
  set a := n.log2
  set b := d.log2
  have A1 : (2 : ℚ) ^ (a : Int) ≤ n := by exact_mod_cast a1
  have A2 : (n : ℚ) < 2 ^ ((a : Int) + 1) := by exact_mod_cast a2
  have B1 : (2 : ℚ) ^ (b : Int) ≤ d := by exact_mod_cast b1
  have B2 : (d : ℚ) < 2 ^ ((b : Int) + 1) := by exact_mod_cast b2
  have hdpos : (0 : ℚ) < d := by exact_mod_cast Nat.pos_of_ne_zero hd0
  have up : q < 2 ^ ((a : Int) - b + 1) := by
    rw [hq', div_lt_iff₀ hdpos]
    calc (n : ℚ) < 2 ^ ((a : Int) + 1) := A2
      _ = 2 ^ ((a : Int) - b + 1) * 2 ^ (b : Int) := by rw [← zpow_add₀ (by norm_num)]; congr 1; ring
      _ ≤ 2 ^ ((a : Int) - b + 1) * d := by
        apply mul_le_mul_of_nonneg_left B1 (two_zpow_pos _).le
  have lo : (2 : ℚ) ^ ((a : Int) - b - 1) ≤ q := by
    rw [hq', le_div_iff₀ hdpos]
    calc (2 : ℚ) ^ ((a : Int) - b - 1) * d ≤ 2 ^ ((a : Int) - b - 1) * 2 ^ ((b : Int) + 1) := by
          apply mul_le_mul_of_nonneg_left B2.le (two_zpow_pos _).le
      _ = 2 ^ (a : Int) := by rw [← zpow_add₀ (by norm_num)]; congr 1; ring
      _ ≤ n := A1
  unfold ilog2
  simp only []
  by_cases h : (2 : ℚ) ^ ((a : Int) - b) ≤ q
  · rw [if_pos h]; exact ⟨h, up⟩
  · rw [if_neg h]
    refine ⟨lo, ?_⟩
    rw [sub_add_cancel]
    exact lt_of_not_ge h

theorem roundEven_err (q : ℚ) : |(roundEven q : ℚ) - q| ≤ 1 / 2 := by
  have h1 := Int.floor_le q
  have h2 := Int.lt_floor_add_one q
  unfold roundEven
  rw [abs_le]
  split
  · constructor <;> linarith
  · split
    · push_cast; constructor <;> linarith
    · split
      · constructor <;> linarith
      · push_cast; constructor <;> linarith

theorem roundAway_err (q : ℚ) : |(roundAway q : ℚ) - q| ≤ 1 / 2 := by
  unfold roundAway
  rw [abs_le]
  split
  · have h1 := Int.floor_le (q + 1 / 2)
    have h2 := Int.lt_floor_add_one (q + 1 / 2)
    constructor <;> linarith
  · have h1 := Int.floor_le (-q + 1 / 2)
    have h2 := Int.lt_floor_add_one (-q + 1 / 2)
    push_cast
    constructor <;> linarith

/-- An integer closer than 1/2 is the rounded one, in both modes. -/
theorem int_unique {a b : Int} {q : ℚ} (h1 : |(a : ℚ) - q| ≤ 1 / 2) (h2 : |(b : ℚ) - q| < 1 / 2) : a = b := by
  rw [abs_le] at h1
  rw [abs_lt] at h2
  have x1 : ((a - b : Int) : ℚ) < 1 := by push_cast; linarith
  have x2 : (-1 : ℚ) < ((a - b : Int) : ℚ) := by push_cast; linarith
  have y1 : a - b < 1 := by exact_mod_cast x1
  have y2 : -1 < a - b := by exact_mod_cast x2
  omega

theorem roundEven_of_close {z : Int} {q : ℚ} (h : |(z : ℚ) - q| < 1 / 2) : roundEven q = z :=
  int_unique (roundEven_err q) h
theorem roundAway_of_close {z : Int} {q : ℚ} (h : |(z : ℚ) - q| < 1 / 2) : roundAway q = z :=
  int_unique (roundAway_err q) h

theorem roundEven_int (z : Int) : roundEven (z : ℚ) = z := roundEven_of_close (by norm_num)

theorem roundEven_mono_lb {z : Int} {q : ℚ} (h : (z : ℚ) ≤ q) : z ≤ roundEven q := by
  have := roundEven_err q
  rw [abs_le] at this
  by_contra hc
  have h1 : roundEven q + 1 ≤ z := by omega
  have h2 : (roundEven q : ℚ) + 1 ≤ z := by exact_mod_cast h1
  linarith

theorem roundEven_mono_ub {z : Int} {q : ℚ} (h : q ≤ (z : ℚ)) : roundEven q ≤ z := by
  have := roundEven_err q
  rw [abs_le] at this
  by_contra hc
  have h1 : z + 1 ≤ roundEven q := by omega
  have h2 : (z : ℚ) + 1 ≤ roundEven q := by exact_mod_cast h1
  linarith

theorem roundAway_mono_lb {z : Int} {q : ℚ} (h : (z : ℚ) ≤ q) : z ≤ roundAway q := by
  have := roundAway_err q
  rw [abs_le] at this
  by_contra hc
  have h1 : roundAway q + 1 ≤ z := by omega
  have h2 : (roundAway q : ℚ) + 1 ≤ z := by exact_mod_cast h1
  linarith

theorem roundAway_mono_ub {z : Int} {q : ℚ} (h : q ≤ (z : ℚ)) : roundAway q ≤ z := by
  have := roundAway_err q
  rw [abs_le] at this
  by_contra hc
  have h1 : z + 1 ≤ roundAway q := by omega
  have h2 : (z : ℚ) + 1 ≤ roundAway q := by exact_mod_cast h1
  linarith

namespace Fmt
variable (F : Fmt)

/-- A sane format: at least 2 exponent bits. -/
structure Ok : Prop where
  mb : 1 ≤ F.mb
  eb : 2 ≤ F.eb

theorem b32_ok : b32.Ok := ⟨by decide, by decide⟩
theorem b64_ok : b64.Ok := ⟨by decide, by decide⟩

/-- Value of a composed pattern. -/
theorem magVal_compose (k n : Nat) (hn : n ≤ 2 ^ (F.mb + 1)) (hk : k = 0 ∨ 2 ^ F.mb ≤ n) :
    F.magVal (k * 2 ^ F.mb + n) = (n : ℚ) * 2 ^ ((k : Int) + F.lo) := by
  have hp : 0 < 2 ^ F.mb := Nat.two_pow_pos _
  rw [Nat.pow_succ] at hn
  unfold magVal
  by_cases h1 : n < 2 ^ F.mb
  · have hk0 : k = 0 := by omega
    subst hk0
    rw [if_pos (by rw [Nat.zero_mul, Nat.zero_add]; exact Nat.div_eq_of_lt h1)]
    simpa using this
  · by_cases h2 : n = 2 ^ F.mb * 2
    · have e1 : k * 2 ^ F.mb + n = (k + 2) * 2 ^ F.mb := by rw [h2]; ring
      rw [e1, Nat.mul_div_cancel _ hp, Nat.mul_mod_left, if_neg (by omega), h2]
      push_cast
      rw [show ((k : Int) + 2 - 1 + F.lo) = ((k : Int) + F.lo) + 1 by ring, zpow_add_one₀ (by norm_num)]
      ring
    · have e1 : k * 2 ^ F.mb + n = (k + 1) * 2 ^ F.mb + (n - 2 ^ F.mb) := by
        rw [Nat.add_mul]; omega
      have h3 : n - 2 ^ F.mb < 2 ^ F.mb := by omega
      have e2 : ((k + 1) * 2 ^ F.mb + (n - 2 ^ F.mb)) / 2 ^ F.mb = k + 1 := by
        rw [Nat.add_comm, Nat.add_mul_div_right _ _ hp, Nat.div_eq_of_lt h3]; omega
      have e3 : ((k + 1) * 2 ^ F.mb + (n - 2 ^ F.mb)) % 2 ^ F.mb = n - 2 ^ F.mb := by
        rw [Nat.add_comm, Nat.add_mul_mod_self_right, Nat.mod_eq_of_lt h3]
      rw [e1, e2, e3, if_neg (by omega), Nat.sub_add_cancel (by omega)]
      congr 2
      push_cast
      ring

theorem magVal_nonneg (m : Nat) : 0 ≤ F.magVal m := by
  unfold magVal
  split <;> positivity

/-- The exponent used for `q`. -/
def expo (q : ℚ) : Int := max (ilog2 q - F.mb) F.lo

/-- The integer mantissa chosen for `q`. -/
def mant (q : ℚ) : Nat := (roundEven (q / 2 ^ F.expo q)).toNat

theorem lo_le_expo (q : ℚ) : F.lo ≤ F.expo q := le_max_right _ _

theorem mant_facts {q : ℚ} (hq : 0 < q) :
    (F.mant q : ℚ) = roundEven (q / 2 ^ F.expo q) ∧ F.mant q ≤ 2 ^ (F.mb + 1) ∧ (F.expo q = F.lo ∨ 2 ^ F.mb ≤ F.mant q) ∧
    q / 2 ^ F.expo q < 2 ^ (F.mb + 1) ∧ (F.expo q = F.lo ∨ (2 : ℚ) ^ F.mb ≤ q / 2 ^ F.expo q) := by
  obtain ⟨l1, l2⟩ := ilog2_spec hq
  have hpos : (0 : ℚ) < 2 ^ F.expo q := two_zpow_pos _
  have t0 : 0 ≤ q / 2 ^ F.expo q := by positivity
  have tlt : q / 2 ^ F.expo q < 2 ^ (F.mb + 1) := by
    rw [div_lt_iff₀ hpos]
    refine lt_of_lt_of_le l2 ?_
    rw [← zpow_natCast, ← zpow_add₀ (by norm_num)]
    apply zpow_le_of_le
    have : ilog2 q - F.mb ≤ F.expo q := le_max_left _ _
    push_cast; omega
  have tge : F.expo q = F.lo ∨ (2 : ℚ) ^ F.mb ≤ q / 2 ^ F.expo q := by
    rcases le_total (ilog2 q - F.mb) F.lo with h | h
    · exact Or.inl (max_eq_right h)
    · right
      have he : F.expo q = ilog2 q - F.mb := max_eq_left h
      rw [he, le_div_iff₀ (two_zpow_pos _), ← zpow_natCast, ← zpow_add₀ (by norm_num)]
      rw [show (F.mb : Int) + (ilog2 q - F.mb) = ilog2 q by ring]; exact l1
  have r0 : 0 ≤ roundEven (q / 2 ^ F.expo q) := roundEven_mono_lb (by exact_mod_cast t0)
  have hc : ((F.mant q : Nat) : Int) = roundEven (q / 2 ^ F.expo q) := Int.toNat_of_nonneg r0
  refine ⟨by exact_mod_cast hc, ?_, ?_, tlt, tge⟩
  · have : roundEven (q / 2 ^ F.expo q) ≤ ((2 ^ (F.mb + 1) : Nat) : Int) := roundEven_mono_ub (by push_cast; exact tlt.le)
    omega
  · rcases tge with h | h
    · exact Or.inl h
    · right
      have : ((2 ^ F.mb : Nat) : Int) ≤ roundEven (q / 2 ^ F.expo q) := roundEven_mono_lb (by push_cast; exact h)
      omega

theorem round_pos {q : ℚ} (hq : 0 < q) :
    F.round q = min ((F.expo q - F.lo).toNat * 2 ^ F.mb + F.mant q) F.inf := by
  unfold round
  rw [if_neg hq.ne']
  rfl

/-- Numbers up to `2^top` do not overflow. -/
def top : Int := F.mb + F.lo + 2 ^ F.eb - 3

theorem round_lt_inf {q : ℚ} (hF : F.Ok) (h0 : 0 ≤ q) (hq : q ≤ 2 ^ F.top) :
    F.round q < F.inf ∧ (0 < q → F.round q = (F.expo q - F.lo).toNat * 2 ^ F.mb + F.mant q) := by
  have hp : 0 < 2 ^ F.mb := Nat.two_pow_pos _
  have he4 : 4 ≤ 2 ^ F.eb := Nat.pow_le_pow_right (show 0 < 2 by decide) hF.eb
  have hi : 0 < F.inf := Nat.mul_pos (by omega) hp
  rcases eq_or_lt_of_le h0 with h | h
  · subst h
    refine ⟨by simpa [round] using hi, fun hh => absurd hh (lt_irrefl _)⟩
  obtain ⟨m1, m2, m3, m4, m5⟩ := F.mant_facts h
  obtain ⟨l1, l2⟩ := ilog2_spec h
  have hlt : (F.expo q - F.lo).toNat * 2 ^ F.mb + F.mant q < F.inf := by
    unfold inf
    have hil : ilog2 q ≤ F.top := by
      by_contra hc
      have : (2 : ℚ) ^ (F.top + 1) ≤ 2 ^ ilog2 q := zpow_le_of_le (by omega)
      have h2 : (2 : ℚ) ^ F.top < 2 ^ (F.top + 1) := zpow_lt_of_lt (by omega)
      linarith
    have hcast : ((2 ^ F.eb : Nat) : Int) = 2 ^ F.eb := by push_cast; rfl
    have hexp : (F.expo q - F.lo).toNat ≤ 2 ^ F.eb - 3 := by
      have : F.expo q ≤ max (F.top - F.mb) F.lo := max_le_max (by omega) le_rfl
      unfold top at this
      rw [← hcast] at this
      omega
    rcases Nat.lt_or_ge (F.expo q - F.lo).toNat (2 ^ F.eb - 3) with hlt | hge
    · calc (F.expo q - F.lo).toNat * 2 ^ F.mb + F.mant q ≤ (2 ^ F.eb - 4) * 2 ^ F.mb + 2 * 2 ^ F.mb := by
            apply Nat.add_le_add
            · apply Nat.mul_le_mul_right; omega
            · rw [Nat.pow_succ] at m2; omega
        _ = (2 ^ F.eb - 2) * 2 ^ F.mb := by rw [← Nat.add_mul]; congr 1; omega
        _ < (2 ^ F.eb - 1) * 2 ^ F.mb := Nat.mul_lt_mul_of_pos_right (by omega) hp
    · -- the topmost exponent: only `2^top` itself
      have hle : F.mant q ≤ 2 ^ F.mb := by
        have e1 : F.expo q = F.top - F.mb := by
          have h1 : F.expo q ≤ max (F.top - F.mb) F.lo := max_le_max (by omega) le_rfl
          unfold top at h1 ⊢
          rw [← hcast] at h1 ⊢
          omega
        have : q / 2 ^ F.expo q ≤ ((2 ^ F.mb : Nat) : Int) := by
          rw [div_le_iff₀ (two_zpow_pos _), e1]
          push_cast
          rw [← zpow_natCast, ← zpow_add₀ (by norm_num)]
          rw [show (F.mb : Int) + (F.top - F.mb) = F.top by ring]; exact hq
        have := roundEven_mono_ub this
        unfold mant
        omega
      calc (F.expo q - F.lo).toNat * 2 ^ F.mb + F.mant q ≤ (2 ^ F.eb - 3) * 2 ^ F.mb + 1 * 2 ^ F.mb := by
            apply Nat.add_le_add
            · apply Nat.mul_le_mul_right; omega
            · omega
        _ = (2 ^ F.eb - 2) * 2 ^ F.mb := by rw [← Nat.add_mul]; congr 1; omega
        _ < (2 ^ F.eb - 1) * 2 ^ F.mb := Nat.mul_lt_mul_of_pos_right (by omega) hp
  rw [F.round_pos h]
  rw [Nat.min_eq_left hlt.le]
  exact ⟨hlt, fun _ => rfl⟩

theorem magVal_round {q : ℚ} (hF : F.Ok) (h0 : 0 < q) (hq : q ≤ 2 ^ F.top) :
    F.magVal (F.round q) = (roundEven (q / 2 ^ F.expo q) : ℚ) * 2 ^ F.expo q := by
  obtain ⟨m1, m2, m3, m4, m5⟩ := F.mant_facts h0
  rw [(F.round_lt_inf hF h0.le hq).2 h0, F.magVal_compose _ _ m2, m1]
  · congr 2
    have := F.lo_le_expo q
    omega
  · rcases m3 with h | h
    · left; rw [h]; omega
    · exact Or.inr h

theorem round_zero : F.round 0 = 0 := by simp [round]

theorem magVal_zero : F.magVal 0 = 0 := by simp [magVal]

/-- The error of one rounding is at most half a unit in the last place. -/
theorem round_err_ulp {q : ℚ} (hF : F.Ok) (h : 0 < q) (hq : q ≤ 2 ^ F.top) :
    |F.magVal (F.round q) - q| ≤ 2 ^ (F.expo q - 1) := by
  have hpos : (0 : ℚ) < 2 ^ F.expo q := two_zpow_pos _
  rw [F.magVal_round hF h hq]
  have e1 : (roundEven (q / 2 ^ F.expo q) : ℚ) * 2 ^ F.expo q - q =
      ((roundEven (q / 2 ^ F.expo q) : ℚ) - q / 2 ^ F.expo q) * 2 ^ F.expo q := by
    field_simp
  rw [e1, abs_mul, abs_of_pos hpos, zpow_sub_one₀ (by norm_num), mul_comm]
  exact mul_le_mul_of_nonneg_left (by simpa using roundEven_err _) hpos.le

/-- The error of one rounding: relative `2^-(mb+1)` or absolute `2^(lo-1)`. -/
theorem round_err {q : ℚ} (hF : F.Ok) (h0 : 0 ≤ q) (hq : q ≤ 2 ^ F.top) :
    |F.magVal (F.round q) - q| ≤ 2 ^ (-(F.mb + 1) : Int) * q + 2 ^ (F.lo - 1) ∧
    ((2 : ℚ) ^ (F.lo + F.mb) ≤ q → |F.magVal (F.round q) - q| ≤ 2 ^ (-(F.mb + 1) : Int) * q) := by
  rcases eq_or_lt_of_le h0 with h | h
  · subst h
    rw [round_zero, magVal_zero]
    have : (0 : ℚ) ≤ 2 ^ (F.lo - 1) := by positivity
    simpa using this
  obtain ⟨l1, l2⟩ := ilog2_spec h
  have key := F.round_err_ulp hF h hq
  have norm : F.expo q = ilog2 q - F.mb → (2 : ℚ) ^ (F.expo q - 1) ≤ 2 ^ (-(F.mb + 1) : Int) * q := by
    intro he
    rw [he]
    calc (2 : ℚ) ^ (ilog2 q - F.mb - 1) = 2 ^ (-(F.mb + 1) : Int) * 2 ^ ilog2 q := by
          rw [← zpow_add₀ (by norm_num)]; congr 1; ring
      _ ≤ _ := mul_le_mul_of_nonneg_left l1 (two_zpow_pos _).le
  constructor
  · rcases le_total (ilog2 q - F.mb) F.lo with hc | hc
    · have he : F.expo q = F.lo := max_eq_right hc
      rw [he] at key
      have : 0 ≤ (2 : ℚ) ^ (-(F.mb + 1) : Int) * q := by positivity
      linarith
    · have := norm (max_eq_left hc)
      have h3 : (0 : ℚ) ≤ 2 ^ (F.lo - 1) := by positivity
      linarith
  · intro hn
    apply key.trans
    apply norm
    apply max_eq_left
    by_contra hc
    have h1 : ilog2 q + 1 ≤ F.lo + F.mb := by omega
    have h2 := zpow_le_of_le h1
    linarith

/-- Rounding is exact on representable numbers. -/
theorem round_exact {q : ℚ} (hF : F.Ok) (n : Nat) (e : Int) (hn : n ≤ 2 ^ (F.mb + 1)) (he : F.lo ≤ e)
    (hqe : q = (n : ℚ) * 2 ^ e) (hq : q ≤ 2 ^ F.top) : F.magVal (F.round q) = q := by
  rcases Nat.eq_zero_or_pos n with h | h
  · subst h
    rw [hqe]; simp [round_zero, magVal_zero]
  have hpos : 0 < q := by
    rw [hqe]
    have : (0 : ℚ) < n := by exact_mod_cast h
    have := two_zpow_pos e
    positivity
  obtain ⟨l1, l2⟩ := ilog2_spec hpos
  rw [F.magVal_round hF hpos hq]
  have key : ∃ z : Int, q / 2 ^ F.expo q = z := by
    have hle : F.expo q ≤ e ∨ n = 2 ^ (F.mb + 1) := by
      by_cases hc : n = 2 ^ (F.mb + 1)
      · exact Or.inr hc
      · left
        apply max_le _ he
        by_contra hcc
        have h1 : e + F.mb + 1 ≤ ilog2 q := by omega
        have h2 := zpow_le_of_le h1
        have h3 : (n : ℚ) < 2 ^ (F.mb + 1) := by exact_mod_cast lt_of_le_of_ne hn hc
        have h4 : q < 2 ^ (F.mb + 1) * 2 ^ e := by
          rw [hqe]; exact mul_lt_mul_of_pos_right h3 (two_zpow_pos _)
        rw [← zpow_natCast, ← zpow_add₀ (by norm_num)] at h4
        have h5 : (2 : ℚ) ^ (((F.mb + 1 : Nat) : Int) + e) = 2 ^ (e + F.mb + 1) := by congr 1; push_cast; ring
        rw [h5] at h4
        linarith
    have split : ∀ (m : Nat) (k : Int), q = (m : ℚ) * 2 ^ k → F.expo q ≤ k → ∃ z : Int, q / 2 ^ F.expo q = z := by
      intro m k hmk hk
      refine ⟨(m : Int) * 2 ^ (k - F.expo q).toNat, ?_⟩
      rw [div_eq_iff (two_zpow_pos _).ne']
      conv_lhs => rw [hmk]
      push_cast
      rw [mul_assoc, ← zpow_natCast, ← zpow_add₀ (by norm_num)]
      congr 2
      rw [Int.toNat_of_nonneg (by omega)]; ring
    rcases hle with hle | hn2
    · exact split n e hqe hle
    · refine split (2 ^ F.mb) (e + 1) ?_ ?_
      · rw [hqe, hn2]
        push_cast
        rw [zpow_add_one₀ (by norm_num), pow_succ]; ring
      · apply max_le _ (by omega)
        by_contra hcc
        have h1 : e + F.mb + 2 ≤ ilog2 q := by omega
        have h2 := zpow_le_of_le h1
        have h4 : q = 2 ^ (e + F.mb + 1) := by
          rw [hqe, hn2]
          push_cast
          rw [← zpow_natCast, ← zpow_add₀ (by norm_num)]; congr 1; push_cast; ring
        have h5 : (2 : ℚ) ^ (e + F.mb + 1) < 2 ^ (e + F.mb + 2) := zpow_lt_of_lt (by omega)
        linarith
  obtain ⟨z, hz⟩ := key
  rw [hz, roundEven_int, ← hz]
  field_simp

end Fmt
end Cloudini.IEEE
