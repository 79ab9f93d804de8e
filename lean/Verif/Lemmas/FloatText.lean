import Verif.Model.FloatText
import Verif.Spec.Header
import Verif.Lemmas.Text
import Verif.Lemmas.YamlTrip
import Verif.Lemmas.IEEENearest

/-!
# Floats as text: what is printed and what is read back
-/

namespace Cloudini.FloatTxt
open IEEE

/-! ## digits -/

theorem ten_zpow_pos (k : Int) : (0 : ℚ) < 10 ^ k := by positivity

theorem decimal_bounds (n : Nat) : n < 10 ^ (decimal n).length ∧ (0 < n → 10 ^ ((decimal n).length - 1) ≤ n) ∧ 1 ≤ (decimal n).length := by
  induction n using Nat.strongRecOn with
  | ind n ih =>
    unfold decimal
    split
    · simp only [List.length_singleton]; omega
    · obtain ⟨h1, h2, h3⟩ := ih (n / 10) (by omega)
      have h2 := h2 (by omega)
      simp only [List.length_append, List.length_singleton, Nat.add_sub_cancel]
      obtain ⟨l, hl⟩ : ∃ l, (decimal (n / 10)).length = l + 1 := ⟨_, (Nat.succ_pred_eq_of_pos h3).symm⟩
      rw [hl] at h1 h2 ⊢
      rw [Nat.add_sub_cancel] at h2
      rw [Nat.pow_succ] at h1 ⊢
      rw [Nat.pow_succ]
      refine ⟨by omega, fun _ => by omega, by omega⟩

theorem decimal_length {n k : Nat} (h1 : 10 ^ k ≤ n) (h2 : n < 10 ^ (k + 1)) : (decimal n).length = k + 1 := by
  obtain ⟨a, b, c⟩ := decimal_bounds n
  have hp : 0 < 10 ^ k := Nat.pow_pos (by decide)
  have b := b (by omega)
  have u : k < (decimal n).length := (Nat.pow_lt_pow_iff_right (by decide)).1 (lt_of_le_of_lt h1 a)
  have v : (decimal n).length - 1 < k + 1 := (Nat.pow_lt_pow_iff_right (by decide)).1 (lt_of_le_of_lt b h2)
  omega

theorem number_app (a b : List Byte) : number (a ++ b) = number a * 10 ^ b.length + number b := by
  induction b using List.reverseRecOn with
  | nil => simp [number]
  | append_singleton b d ih =>
    rw [← List.append_assoc, number_append, number_append, ih, List.length_append, List.length_singleton, Nat.pow_succ]
    ring

theorem number_zeros (k : Nat) : number (List.replicate k 0x30#8) = 0 := by
  induction k with
  | zero => rfl
  | succ k ih => rw [List.replicate_succ', number_append, ih]; rfl

theorem strip_spec (ds : List Byte) : ∃ k, ds = strip ds ++ List.replicate k 0x30#8 := by
  refine ⟨(ds.reverse.takeWhile (· = 0x30#8)).length, ?_⟩
  have h : ds.reverse.takeWhile (· = 0x30#8) = List.replicate (ds.reverse.takeWhile (· = 0x30#8)).length 0x30#8 := by
    apply List.eq_replicate_of_mem
    intro c hc
    have := List.all_eq_true.1 (List.all_takeWhile (p := fun c : Byte => decide (c = 0x30#8)) (l := ds.reverse)) c hc
    simpa using this
  have := congrArg List.reverse (List.takeWhile_append_dropWhile (p := fun c : Byte => decide (c = 0x30#8)) (l := ds.reverse))
  rw [List.reverse_append, List.reverse_reverse, h, List.reverse_replicate] at this
  exact this.symm

theorem strip_digits {ds : List Byte} (h : ∀ c ∈ ds, isDigit c = true) : ∀ c ∈ strip ds, isDigit c = true := by
  obtain ⟨k, hk⟩ := strip_spec ds
  intro c hc
  exact h c (by rw [hk]; simp [hc])

/-! ## what `strtof` makes of a printed number -/

/-- What may follow the digits of a number. -/
def Tail (t : List Byte) : Prop := ∀ c, t.head? = some c → isDigit c = false ∧ c ≠ 0x2E#8

theorem scanDec_fraction {ip rest tail : List Byte} (hi : ∀ c ∈ ip, isDigit c = true) (hi0 : ip ≠ []) (hr : ∀ c ∈ rest, isDigit c = true)
    (ht : Tail tail) : scanDec (ip ++ fraction rest ++ tail) =
      some ((number (ip ++ rest) : ℚ) * 10 ^ (exponent 0x65#8 0x45#8 tail - rest.length)) := by
  have hs := strip_digits hr
  obtain ⟨k, hk⟩ := strip_spec rest
  have e0 : ∀ c, (fraction rest ++ tail).head? = some c → isDigit c = false := by
    intro c hc
    unfold fraction at hc
    split at hc
    · exact (ht c (by simpa using hc)).1
    · simp only [List.cons_append, List.head?_cons, Option.some.injEq] at hc
      subst hc; decide
  have hap : afterPoint isDigit (fraction rest ++ tail) = (strip rest, tail) := by
    unfold fraction
    split
    · rename_i h
      rw [h, List.nil_append]
      cases tail with
      | nil => rfl
      | cons c t => rw [afterPoint, if_neg (ht c rfl).2]
    · rw [List.cons_append, afterPoint, if_pos rfl, takeWhile_of hs fun c h => (ht c h).1, dropWhile_of' hs fun c h => (ht c h).1]
  unfold scanDec
  simp only
  rw [List.append_assoc, takeWhile_of hi e0, dropWhile_of' hi e0, hap]
  rw [if_neg (fun h => hi0 h.1)]
  congr 1
  have hn : number (ip ++ rest) = number (ip ++ strip rest) * 10 ^ k := by
    conv_lhs => rw [hk]
    rw [← List.append_assoc, number_app, number_zeros, List.length_replicate, Nat.add_zero]
  have hl : rest.length = (strip rest).length + k := by
    conv_lhs => rw [hk]
    rw [List.length_append, List.length_replicate]
  rw [hn, hl]
  push_cast
  rw [mul_assoc, ← zpow_natCast (10 : ℚ) k, ← zpow_add₀ (by norm_num)]
  congr 2
  ring

theorem exponent_tail (X : Int) : exponent 0x65#8 0x45#8 ([0x65#8, if X < 0 then 0x2D#8 else 0x2B#8] ++ (if X.natAbs < 10 then [0x30#8] else []) ++
    decimal X.natAbs) = X := by
  have hd : ∀ c ∈ (if X.natAbs < 10 then [0x30#8] else []) ++ decimal X.natAbs, isDigit c = true := by
    intro c hc
    rw [List.mem_append] at hc
    rcases hc with hc | hc
    · split at hc
      · simp only [List.mem_singleton] at hc; subst hc; decide
      · simp at hc
    · exact decimal_digits _ c hc
  have hn : number ((if X.natAbs < 10 then [0x30#8] else []) ++ decimal X.natAbs) = X.natAbs := by
    rw [number_app, number_decimal]
    split
    · simp [number]
    · simp [number]
  rw [List.append_assoc]
  simp only [List.cons_append, List.nil_append, exponent, true_or, if_true]
  by_cases h : X < 0
  · rw [if_pos h]
    have : takeSign (0x2D#8 :: ((if X.natAbs < 10 then [0x30#8] else []) ++ decimal X.natAbs)) =
      (true, (if X.natAbs < 10 then [0x30#8] else []) ++ decimal X.natAbs) := rfl
    rw [this]
    simp only [takeWhile_all hd, hn, if_true]
    omega
  · rw [if_neg h]
    have : takeSign (0x2B#8 :: ((if X.natAbs < 10 then [0x30#8] else []) ++ decimal X.natAbs)) =
      (false, (if X.natAbs < 10 then [0x30#8] else []) ++ decimal X.natAbs) := rfl
    rw [this]
    simp only [takeWhile_all hd, hn]
    simp only [Bool.false_eq_true, if_false]
    omega

theorem scanDec_formatG {n : Nat} (X : Int) (h1 : 10 ^ 5 ≤ n) (h2 : n < 10 ^ 6) :
    scanDec (formatG n X) = some ((n : ℚ) * 10 ^ (X - 5)) := by
  have hl : (decimal n).length = 6 := decimal_length h1 h2
  have hd := decimal_digits n
  have htake : ∀ k, ∀ c ∈ (decimal n).take k, isDigit c = true := fun k c hc => hd c (List.mem_of_mem_take hc)
  have hdrop : ∀ k, ∀ c ∈ (decimal n).drop k, isDigit c = true := fun k c hc => hd c (List.mem_of_mem_drop hc)
  have hne : ∀ k, 0 < k → (decimal n).take k ≠ [] := fun k hk h => by
    have := congrArg List.length h
    rw [List.length_take, hl] at this
    simp only [List.length_nil] at this
    omega
  unfold formatG
  simp only
  split
  · have ht : Tail ([0x65#8, if X < 0 then 0x2D#8 else 0x2B#8] ++ (if X.natAbs < 10 then [0x30#8] else []) ++ decimal X.natAbs) := by
      intro c hc
      simp only [List.cons_append, List.head?_cons, Option.some.injEq] at hc
      subst hc; decide
    have e := scanDec_fraction (htake 1) (hne 1 (by decide)) (hdrop 1) ht
    rw [exponent_tail, List.take_append_drop, number_decimal, List.length_drop, hl] at e
    rw [List.append_assoc, List.append_assoc, ← List.append_assoc [0x65#8, _]]
    rw [e]
    norm_num
  · split
    · rename_i hX hneg
      have hz : ∀ c ∈ List.replicate (X.natAbs - 1) 0x30#8 ++ decimal n, isDigit c = true := by
        intro c hc
        rw [List.mem_append] at hc
        rcases hc with hc | hc
        · rw [(List.mem_replicate.1 hc).2]; decide
        · exact hd c hc
      have e := scanDec_fraction (ip := ascii "0") (tail := []) (by decide) (by decide) hz (fun c hc => by simp at hc)
      rw [List.append_nil] at e
      rw [e, number_app, number_app, number_zeros, number_decimal]
      have h0 : number (ascii "0") = 0 := rfl
      rw [h0, Nat.zero_mul, Nat.zero_mul, Nat.zero_add, Nat.zero_add, List.length_append, List.length_replicate, hl]
      congr 3
      simp only [exponent]
      push_cast
      omega
    · rename_i hX hneg
      have e := scanDec_fraction (tail := []) (htake (X.toNat + 1)) (hne _ (by omega)) (hdrop (X.toNat + 1)) (fun c hc => by simp at hc)
      rw [List.append_nil] at e
      rw [e, List.take_append_drop, number_decimal, List.length_drop, hl]
      congr 3
      simp only [exponent]
      push_cast
      omega

/-- The characters of a printed number. -/
theorem formatG_chars (n : Nat) (X : Int) : ∀ c ∈ formatG n X, isDigit c = true ∨ c ∈ ascii "+-.e" := by
  have hd := decimal_digits n
  have hfr : ∀ ds : List Byte, (∀ c ∈ ds, isDigit c = true) → ∀ c ∈ fraction ds, isDigit c = true ∨ c ∈ ascii "+-.e" := by
    intro ds h c hc
    unfold fraction at hc
    split at hc
    · simp at hc
    · rcases List.mem_cons.1 hc with rfl | hc
      · right; decide
      · exact Or.inl (strip_digits h c hc)
  intro c hc
  unfold formatG at hc
  simp only at hc
  split at hc
  · simp only [List.mem_append] at hc
    rcases hc with (((hc | hc) | hc) | hc) | hc
    · exact Or.inl (hd c (List.mem_of_mem_take hc))
    · exact hfr _ (fun c hc => hd c (List.mem_of_mem_drop hc)) c hc
    · simp only [List.mem_cons, List.not_mem_nil, or_false] at hc
      right
      rcases hc with rfl | rfl
      · decide
      · split <;> decide
    · split at hc
      · simp only [List.mem_singleton] at hc; subst hc; left; decide
      · simp at hc
    · exact Or.inl (decimal_digits _ c hc)
  · split at hc
    · rcases List.mem_append.1 hc with hc | hc
      · left
        have : c = 0x30#8 := by simpa [ascii] using hc
        rw [this]; decide
      · refine hfr _ ?_ c hc
        intro c hc
        rcases List.mem_append.1 hc with hc | hc
        · rw [(List.mem_replicate.1 hc).2]; decide
        · exact hd c hc
    · rcases List.mem_append.1 hc with hc | hc
      · exact Or.inl (hd c (List.mem_of_mem_take hc))
      · exact hfr _ (fun c hc => hd c (List.mem_of_mem_drop hc)) c hc

/-- It starts with a digit. -/
theorem formatG_head (n : Nat) (X : Int) : ∃ c t, formatG n X = c :: t ∧ isDigit c = true := by
  cases hds : decimal n with
  | nil => exact absurd hds (decimal_ne n)
  | cons d ds =>
    have hd : isDigit d = true := decimal_digits n d (by rw [hds]; simp)
    unfold formatG
    simp only [hds]
    split
    · exact ⟨d, _, rfl, hd⟩
    · split
      · exact ⟨0x30#8, _, rfl, by decide⟩
      · exact ⟨d, _, rfl, hd⟩

theorem lower_digit {c : Byte} (h : isDigit c = true) : lower c = c := by
  unfold isDigit at h
  simp only [Bool.and_eq_true, decide_eq_true_eq] at h
  unfold lower
  rw [if_neg (by omega)]

theorem lower_x {c : Byte} (h : lower c = 0x78#8) : c = 0x78#8 ∨ c = 0x58#8 := by
  revert c; decide +kernel

/-- `strtof` sees a decimal number. -/
theorem scan_dec {t : List Byte} (h : ∀ c ∈ t, isDigit c = true ∨ c ∈ ascii "+-.e") : scan t = scanDec t := by
  unfold scan
  rw [if_neg]
  rintro ⟨h1, _⟩
  have : lower 0x78#8 = 0x78#8 := by decide
  have hm : (0x78#8 : Byte) ∈ (t.take 2).map lower := by rw [h1]; decide
  obtain ⟨c, hc, he⟩ := List.mem_map.1 hm
  have hc := h c (List.mem_of_mem_take hc)
  rcases lower_x he with rfl | rfl
  · revert hc; decide
  · revert hc; decide

theorem parse_number {s t : List Byte} {b : Bool} {q : ℚ} (hs : s.dropWhile isSpace = s) (hsg : takeSign s = (b, t))
    (hd : ∃ c u, t = c :: u ∧ isDigit c = true) (h : scan t = some q) : parse s = toFloat b q := by
  obtain ⟨c, u, hc, hcd⟩ := hd
  unfold parse
  rw [hs, hsg]
  simp only
  have hne : ∀ w : List Byte, (t.take 3).map lower = w → w.head? = some c := by
    rintro w rfl
    rw [hc]
    simp [lower_digit hcd]
  rw [if_neg, if_neg, h]
  · intro e
    have := hne _ e
    have hh : (0x6E#8 : Byte) = c := Option.some.inj this
    subst hh; revert hcd; decide
  · intro e
    have := hne _ e
    have hh : (0x69#8 : Byte) = c := Option.some.inj this
    subst hh; revert hcd; decide

/-! ## the six digits -/

theorem ten_le {a b : Int} (h : a ≤ b) : (10 : ℚ) ^ a ≤ 10 ^ b := zpow_le_zpow_right₀ (by norm_num) h
theorem ten_lt {a b : Int} (h : a < b) : (10 : ℚ) ^ a < 10 ^ b := zpow_lt_zpow_right₀ (by norm_num) h

theorem ilog10_spec {q : ℚ} (hq : 0 < q) : (10 : ℚ) ^ ilog10 q ≤ q ∧ q < 10 ^ (ilog10 q + 1) := by
  have hnum : 0 < q.num := Rat.num_pos.2 hq
  have hn0 : 0 < q.num.toNat := by omega
  have hd0 : 0 < q.den := Nat.pos_of_ne_zero q.den_nz
  obtain ⟨a2, a1, a0⟩ := decimal_bounds q.num.toNat
  obtain ⟨b2, b1, b0⟩ := decimal_bounds q.den
  have a1 := a1 hn0
  have b1 := b1 hd0
  have hq' : q = (q.num.toNat : ℚ) / (q.den : ℚ) := by
    conv_lhs => rw [← Rat.num_div_den q]
    congr 1
    exact_mod_cast (Int.toNat_of_nonneg hnum.le).symm
  unfold ilog10
  simp only
  generalize hA : (decimal q.num.toNat).length = A at *
  generalize hB : (decimal q.den).length = B at *
  obtain ⟨a, rfl⟩ : ∃ a, A = a + 1 := ⟨A - 1, by omega⟩
  obtain ⟨b, rfl⟩ : ∃ b, B = b + 1 := ⟨B - 1, by omega⟩
  rw [Nat.add_sub_cancel] at a1 b1
  generalize q.num.toNat = n at *
  generalize q.den = d at *
  have A1 : (10 : ℚ) ^ (a : Int) ≤ n := by exact_mod_cast a1
  have A2 : (n : ℚ) < 10 ^ ((a : Int) + 1) := by exact_mod_cast a2
  have B1 : (10 : ℚ) ^ (b : Int) ≤ d := by exact_mod_cast b1
  have B2 : (d : ℚ) < 10 ^ ((b : Int) + 1) := by exact_mod_cast b2
  have hdpos : (0 : ℚ) < d := by exact_mod_cast hd0
  have hk : ((a + 1 : Nat) : Int) - ((b + 1 : Nat) : Int) = (a : Int) - b := by push_cast; ring
  rw [hk]
  have up : q < 10 ^ ((a : Int) - b + 1) := by
    rw [hq', div_lt_iff₀ hdpos]
    calc (n : ℚ) < 10 ^ ((a : Int) + 1) := A2
      _ = 10 ^ ((a : Int) - b + 1) * 10 ^ (b : Int) := by rw [← zpow_add₀ (by norm_num)]; congr 1; ring
      _ ≤ 10 ^ ((a : Int) - b + 1) * d := mul_le_mul_of_nonneg_left B1 (ten_zpow_pos _).le
  have lo : (10 : ℚ) ^ ((a : Int) - b - 1) ≤ q := by
    rw [hq', le_div_iff₀ hdpos]
    calc (10 : ℚ) ^ ((a : Int) - b - 1) * d ≤ 10 ^ ((a : Int) - b - 1) * 10 ^ ((b : Int) + 1) :=
          mul_le_mul_of_nonneg_left B2.le (ten_zpow_pos _).le
      _ = 10 ^ (a : Int) := by rw [← zpow_add₀ (by norm_num)]; congr 1; ring
      _ ≤ n := A1
  by_cases h : (10 : ℚ) ^ ((a : Int) - b) ≤ q
  · rw [if_pos h]; exact ⟨h, up⟩
  · rw [if_neg h]
    refine ⟨lo, ?_⟩
    rw [sub_add_cancel]
    exact lt_of_not_ge h

theorem ilog10_unique {q : ℚ} {k : Int} (h1 : (10 : ℚ) ^ k ≤ q) (h2 : q < 10 ^ (k + 1)) : ilog10 q = k := by
  have hq : 0 < q := lt_of_lt_of_le (ten_zpow_pos _) h1
  obtain ⟨a, b⟩ := ilog10_spec hq
  by_contra hne
  rcases lt_or_gt_of_ne hne with h | h
  · have := ten_le (show ilog10 q + 1 ≤ k by omega); linarith
  · have := ten_le (show k + 1 ≤ ilog10 q by omega); linarith

/-- The value of the six digits. -/
def sixVal (q : ℚ) : ℚ := ((six q).1 : ℚ) * 10 ^ ((six q).2 - 5)

theorem scaled {q : ℚ} (hq : 0 < q) : (10 : ℚ) ^ (5 : Nat) ≤ q / 10 ^ (ilog10 q - 5) ∧ q / 10 ^ (ilog10 q - 5) < 10 ^ (6 : Nat) := by
  obtain ⟨a, b⟩ := ilog10_spec hq
  have hp := ten_zpow_pos (ilog10 q - 5)
  constructor
  · rw [le_div_iff₀ hp, ← zpow_natCast, ← zpow_add₀ (by norm_num)]
    rw [show ((5 : Nat) : Int) + (ilog10 q - 5) = ilog10 q by push_cast; ring]; exact a
  · rw [div_lt_iff₀ hp, ← zpow_natCast, ← zpow_add₀ (by norm_num)]
    rw [show ((6 : Nat) : Int) + (ilog10 q - 5) = ilog10 q + 1 by push_cast; ring]; exact b

theorem six_spec {q : ℚ} (hq : 0 < q) : 10 ^ 5 ≤ (six q).1 ∧ (six q).1 < 10 ^ 6 ∧
    sixVal q = (roundEven (q / 10 ^ (ilog10 q - 5)) : ℚ) * 10 ^ (ilog10 q - 5) := by
  obtain ⟨s1, s2⟩ := scaled hq
  have r1 : ((10 ^ 5 : Nat) : Int) ≤ roundEven (q / 10 ^ (ilog10 q - 5)) := roundEven_mono_lb (by push_cast; exact s1)
  have r2 : roundEven (q / 10 ^ (ilog10 q - 5)) ≤ ((10 ^ 6 : Nat) : Int) := roundEven_mono_ub (by push_cast; exact s2.le)
  unfold sixVal six
  simp only
  generalize roundEven (q / 10 ^ (ilog10 q - 5)) = z at *
  split
  · rename_i h
    refine ⟨le_refl _, (by decide : (100000 : Nat) < 10 ^ 6), ?_⟩
    have hz : z = 1000000 := by omega
    rw [hz, show ilog10 q + 1 - 5 = (ilog10 q - 5) + 1 by ring, zpow_add_one₀ (by norm_num)]
    push_cast
    ring
  · rename_i h
    simp only
    refine ⟨by omega, by omega, ?_⟩
    have hz : ((z.toNat : Int) : ℚ) = z := by congr 1; omega
    rw [← hz]; push_cast; rfl

/-- The six digits are the number up to half a unit of the sixth. -/
theorem sixVal_err {q : ℚ} (hq : 0 < q) : |sixVal q - q| ≤ 5 / 10 ^ 6 * q := by
  rw [(six_spec hq).2.2]
  have hp := ten_zpow_pos (ilog10 q - 5)
  have he : (roundEven (q / 10 ^ (ilog10 q - 5)) : ℚ) * 10 ^ (ilog10 q - 5) - q =
      ((roundEven (q / 10 ^ (ilog10 q - 5)) : ℚ) - q / 10 ^ (ilog10 q - 5)) * 10 ^ (ilog10 q - 5) := by field_simp
  rw [he, abs_mul, abs_of_pos hp]
  have h1 := roundEven_err (q / 10 ^ (ilog10 q - 5))
  have h2 : (10 : ℚ) ^ (ilog10 q - 5) * 10 ^ (5 : Nat) ≤ q := by
    have := (scaled hq).1
    rw [le_div_iff₀ hp] at this
    linarith
  calc _ ≤ 1 / 2 * (10 : ℚ) ^ (ilog10 q - 5) := mul_le_mul_of_nonneg_right h1 hp.le
    _ ≤ _ := by linarith

/-- A number next to a six-digit decimal is printed as that decimal. -/
theorem six_of_close {v : ℚ} {n : Nat} {e : Int} (h1 : 10 ^ 5 ≤ n) (h2 : n < 10 ^ 6)
    (h : |v - (n : ℚ) * 10 ^ e| ≤ 2 ^ (-24 : Int) * ((n : ℚ) * 10 ^ e)) : six v = (n, e + 5) := by
  have hp := ten_zpow_pos e
  have n1 : (10 : ℚ) ^ (5 : Nat) ≤ n := by exact_mod_cast h1
  have n2 : (n : ℚ) ≤ 999999 := by have : n ≤ 999999 := by omega
                                   exact_mod_cast this
  have h24 : (2 : ℚ) ^ (-24 : Int) = 1 / 16777216 := by norm_num
  rw [h24] at h
  obtain ⟨c1, c2⟩ := abs_le.1 h
  set P := (10 : ℚ) ^ e with hP
  have vpos : 0 < v := by nlinarith
  have e5 : (10 : ℚ) ^ (e + 5) = 100000 * P := by rw [zpow_add₀ (by norm_num)]; norm_num; ring
  have e6 : (10 : ℚ) ^ (e + 5 + 1) = 1000000 * P := by
    rw [show e + 5 + 1 = e + 6 by ring, zpow_add₀ (by norm_num)]; norm_num; ring
  by_cases hb : (10 : ℚ) ^ (e + 5) ≤ v
  · have hk : ilog10 v = e + 5 := ilog10_unique hb (by rw [e6]; nlinarith)
    unfold six
    simp only
    rw [hk, show e + 5 - 5 = e by ring]
    have hr : roundEven (v / 10 ^ e) = (n : Int) := by
      apply roundEven_of_close
      rw [← hP]
      have : (((n : Int) : ℚ)) - v / P = (n * P - v) / P := by push_cast; field_simp
      rw [this, abs_div, abs_of_pos hp, div_lt_iff₀ hp, abs_sub_comm]
      exact lt_of_le_of_lt h (by nlinarith)
    rw [hr]
    simp only [Int.toNat_natCast]
    rw [if_neg (by omega)]
  · have hb := not_le.1 hb
    have hn : n = 100000 := by
      by_contra hne
      have : 100001 ≤ n := by omega
      have : (100001 : ℚ) ≤ n := by exact_mod_cast this
      rw [e5] at hb
      nlinarith
    subst hn
    have e4 : (10 : ℚ) ^ (e - 1) = P / 10 := by rw [zpow_sub₀ (by norm_num), ← hP]; norm_num
    have hk : ilog10 v = e + 4 := by
      apply ilog10_unique
      · have : (10 : ℚ) ^ (e + 4) = 10000 * P := by rw [zpow_add₀ (by norm_num)]; norm_num; ring
        rw [this]; push_cast at c1; nlinarith
      · rw [show e + 4 + 1 = e + 5 by ring]; exact hb
    unfold six
    simp only
    rw [hk, show e + 4 - 5 = e - 1 by ring]
    have hr : roundEven (v / 10 ^ (e - 1)) = 1000000 := by
      apply roundEven_of_close
      rw [e4]
      have : (((1000000 : Int) : ℚ)) - v / (P / 10) = (100000 * P - v) / (P / 10) := by push_cast; field_simp; ring
      rw [this, abs_div, abs_of_pos (by positivity : (0 : ℚ) < P / 10), div_lt_iff₀ (by positivity), abs_sub_comm]
      push_cast at h
      exact lt_of_le_of_lt h (by nlinarith)
    rw [hr]
    simp only [Int.reduceToNat, if_true]
    congr 1
    ring

/-- A decimal with at most six digits, written with exactly six. -/
theorem normalize_six {n : Nat} (h0 : 0 < n) (h : n < 10 ^ 6) : ∃ m j : Nat, 10 ^ 5 ≤ m ∧ m < 10 ^ 6 ∧ m = n * 10 ^ j := by
  rcases Nat.lt_or_ge n 10 with h1 | h1
  · exact ⟨n * 10 ^ 5, 5, by omega, by omega, rfl⟩
  rcases Nat.lt_or_ge n 100 with h1 | h1
  · exact ⟨n * 10 ^ 4, 4, by omega, by omega, rfl⟩
  rcases Nat.lt_or_ge n 1000 with h1 | h1
  · exact ⟨n * 10 ^ 3, 3, by omega, by omega, rfl⟩
  rcases Nat.lt_or_ge n 10000 with h1 | h1
  · exact ⟨n * 10 ^ 2, 2, by omega, by omega, rfl⟩
  rcases Nat.lt_or_ge n 100000 with h1 | h1
  · exact ⟨n * 10 ^ 1, 1, by omega, by omega, rfl⟩
  · exact ⟨n, 0, by omega, h, by omega⟩

/-! ## the nearest float is unique -/

theorem magVal_succ (F : Fmt) (m : Nat) : F.magVal m < F.magVal (m + 1) := by
  have hp : 0 < 2 ^ F.mb := Nat.two_pow_pos _
  have h2 : 2 ^ (F.mb + 1) = 2 * 2 ^ F.mb := by rw [Nat.pow_succ]; omega
  have hdm := Nat.div_add_mod' m (2 ^ F.mb)
  have hlt := Nat.mod_lt m hp
  have key : ∃ k n, m = k * 2 ^ F.mb + n ∧ n + 1 ≤ 2 ^ (F.mb + 1) ∧ (k = 0 ∨ 2 ^ F.mb ≤ n) := by
    by_cases h : m / 2 ^ F.mb = 0
    · refine ⟨0, m, by omega, ?_, Or.inl rfl⟩
      rw [h] at hdm; omega
    · refine ⟨m / 2 ^ F.mb - 1, 2 ^ F.mb + m % 2 ^ F.mb, ?_, by omega, Or.inr (by omega)⟩
      obtain ⟨j, hj⟩ : ∃ j, m / 2 ^ F.mb = j + 1 := ⟨_, (Nat.succ_pred_eq_of_ne_zero h).symm⟩
      rw [hj] at hdm ⊢
      rw [Nat.add_mul] at hdm
      rw [Nat.add_sub_cancel]; omega
  obtain ⟨k, n, e, hn, hk⟩ := key
  have a1 := F.magVal_compose k n (by omega) hk
  have a2 := F.magVal_compose k (n + 1) hn (hk.imp_right fun h => by omega)
  rw [e, a1, Nat.add_assoc, a2]
  apply mul_lt_mul_of_pos_right _ (two_zpow_pos _)
  push_cast; linarith

theorem magVal_strict (F : Fmt) {a b : Nat} (h : a < b) : F.magVal a < F.magVal b :=
  strictMono_nat_of_lt_succ (magVal_succ F) h

theorem magVal_inj (F : Fmt) {a b : Nat} (h : F.magVal a = F.magVal b) : a = b := by
  rcases Nat.lt_trichotomy a b with h1 | h1 | h1
  · exact absurd h (magVal_strict F h1).ne
  · exact h1
  · exact absurd h (magVal_strict F h1).ne'

/-- Ties aside, only `round q` is nearest; at a tie the neighbour is odd. -/
theorem round_unique (F : Fmt) (hF : F.Ok) {q : ℚ} (h0 : 0 ≤ q) (hq : q ≤ 2 ^ F.top) {m : Nat} (hm : m < F.inf)
    (h : |F.magVal m - q| ≤ |F.magVal (F.round q) - q|)
    (he : F.magVal (F.round q) ≠ F.magVal m → m % 2 = 0) : m = F.round q := by
  obtain ⟨a, b⟩ := F.round_nearest hF h0 hq m hm
  have hr := (F.round_lt_inf hF h0 hq).1
  by_contra hne
  have hv : F.magVal m ≠ F.magVal (F.round q) := fun e => hne (magVal_inj F e)
  have heq := le_antisymm a h
  have e1 := b hv heq
  have e2 := he hv.symm
  -- the pattern between them is nearer
  rcases Nat.lt_or_gt_of_ne hne with hl | hl
  · have m1 := magVal_strict F (show m < m + 1 by omega)
    have m2 := magVal_strict F (show m + 1 < F.round q by omega)
    have := (F.round_nearest hF h0 hq (m + 1) (by omega)).1
    rcases abs_eq_abs.1 heq with h3 | h3
    · exact hv (by linarith)
    · rcases le_or_gt q (F.magVal (m + 1)) with h4 | h4
      · rw [abs_of_nonneg (by linarith), abs_of_nonneg (by linarith)] at this; linarith
      · rw [abs_of_nonneg (by linarith), abs_of_neg (by linarith)] at this; linarith
  · have m1 := magVal_strict F (show F.round q < F.round q + 1 by omega)
    have m2 := magVal_strict F (show F.round q + 1 < m by omega)
    have := (F.round_nearest hF h0 hq (F.round q + 1) (by omega)).1
    rcases abs_eq_abs.1 heq with h3 | h3
    · exact hv (by linarith)
    · rcases le_or_gt q (F.magVal (F.round q + 1)) with h4 | h4
      · rw [abs_of_nonpos (by linarith : F.magVal (F.round q) - q ≤ 0), abs_of_nonneg (by linarith)] at this; linarith
      · rw [abs_of_nonpos (by linarith : F.magVal (F.round q) - q ≤ 0), abs_of_neg (by linarith)] at this; linarith

/-! ## the whole line -/

/-- Reading back what was printed: the six-digit decimal, rounded. -/
theorem parse_print {r : BitVec 32} (hf : b32.isFin r.toNat = true) (h0 : b32.mag r.toNat ≠ 0) :
    parse (print r) = toFloat (b32.neg r.toNat) (sixVal (b32.magVal (b32.mag r.toNat))) := by
  have hfin : b32.mag r.toNat < b32.inf := by simpa [Fmt.isFin] using hf
  have hpos := b32.magVal_pos h0
  obtain ⟨n1, n2, _⟩ := six_spec hpos
  have hscan := scanDec_formatG (six (b32.magVal (b32.mag r.toNat))).2 n1 n2
  have hnan : b32.isNaN r.toNat = false := by
    rw [show b32.isNaN r.toNat = decide (b32.inf < b32.mag r.toNat) from rfl, decide_eq_false_iff_not]; omega
  have hinf : b32.isInf r.toNat = false := by
    rw [show b32.isInf r.toNat = decide (b32.mag r.toNat = b32.inf) from rfl, decide_eq_false_iff_not]; omega
  unfold print
  simp only [hnan, hinf, Bool.false_eq_true, if_false, if_neg h0]
  generalize hs : six (b32.magVal (b32.mag r.toNat)) = sx at *
  obtain ⟨c, t, hc, hcd⟩ := formatG_head sx.1 sx.2
  have hsc := scan_dec (formatG_chars sx.1 sx.2)
  have hsv : sixVal (b32.magVal (b32.mag r.toNat)) = (sx.1 : ℚ) * 10 ^ (sx.2 - 5) := by unfold sixVal; rw [hs]
  rw [hsv]
  have hdf := digit_facts hcd
  by_cases hneg : b32.neg r.toNat = true
  · rw [hneg, if_pos rfl]
    refine parse_number (t := formatG sx.1 sx.2) ?_ rfl ⟨c, t, hc, hcd⟩ (hsc.trans hscan)
    rfl
  · rw [Bool.not_eq_true] at hneg
    rw [hneg]
    simp only [Bool.false_eq_true, if_false, List.nil_append]
    refine parse_number (t := formatG sx.1 sx.2) ?_ ?_ ⟨c, t, hc, hcd⟩ (hsc.trans hscan)
    · rw [hc]; rw [List.dropWhile_cons, hdf.1]; rfl
    · rw [hc, takeSign, if_neg hdf.2.2.2.1, if_neg hdf.2.2.2.2.1]

theorem print_chars (r : BitVec 32) : ∀ c ∈ print r, isDigit c = true ∨ c ∈ ascii "+-.einfa" := by
  intro c hc
  unfold print at hc
  rcases List.mem_append.1 hc with hc | hc
  · split at hc
    · simp only [List.mem_singleton] at hc; subst hc; right; decide
    · simp at hc
  · split at hc
    · exact Or.inr ((by decide : ∀ c ∈ ascii "nan", c ∈ ascii "+-.einfa") c hc)
    · split at hc
      · exact Or.inr ((by decide : ∀ c ∈ ascii "inf", c ∈ ascii "+-.einfa") c hc)
      · split at hc
        · exact Or.inl ((by decide : ∀ c ∈ ascii "0", isDigit c = true) c hc)
        · rcases formatG_chars _ _ c hc with h | h
          · exact Or.inl h
          · exact Or.inr ((by decide : ∀ c ∈ ascii "+-.e", c ∈ ascii "+-.einfa") c h)

theorem print_ne (r : BitVec 32) : print r ≠ [] := by
  unfold print
  intro h
  have h := (List.append_eq_nil_iff.1 h).2
  split at h
  · revert h; decide
  · split at h
    · revert h; decide
    · split at h
      · revert h; decide
      · obtain ⟨c, t, hc, _⟩ := formatG_head (six (b32.magVal (b32.mag r.toNat))).1 (six (b32.magVal (b32.mag r.toNat))).2
        rw [hc] at h
        cases h

theorem parse_ub (s : List Byte) (k : UB) : parse s ≠ .ub k := by
  unfold parse
  simp only
  split
  · simp
  · split
    · simp
    · split
      · simp
      · unfold toFloat
        simp only
        split
        · simp
        · split <;> simp

/-- The conversions of the library meet the assumptions made about them everywhere else. -/
theorem text_lawful : text.Lawful where
  nonempty := print_ne
  chars := print_chars
  parse_ub := parse_ub

end Cloudini.FloatTxt
