import Verif.Props.C68
import Mathlib.Data.Nat.Digits.Defs
import Mathlib.Tactic.IntervalCases

/-! # C68 Resolutions written by hand

Headers may come from other programs.  A resolution written with decimal digits and a point, or in hexadecimal with a binary exponent (C's `%a`), is read as the
float nearest to the number written. -/

namespace Cloudini.Props
open IEEE (b32)
open FloatTxt (text)

/-- The character of a digit, letters in lower case. -/
def digitChar (d : Nat) : Byte := if d < 10 then BitVec.ofNat 8 (48 + d) else BitVec.ofNat 8 (87 + d)

theorem digit_dec {d : Nat} (h : d < 10) : isDigit (digitChar d) = true ∧ (digitChar d).toNat = 48 + d := by
  interval_cases d <;> decide

theorem digit_hex {d : Nat} (h : d < 16) : FloatTxt.isHex (digitChar d) = true ∧
    (if isDigit (digitChar d) then (digitChar d).toNat - 48 else if (digitChar d).toNat ≤ 70 then (digitChar d).toNat - 55 else (digitChar d).toNat - 87) = d := by
  interval_cases d <;> decide

theorem foldl_digits {b : Nat} {val : Byte → Nat} (hv : ∀ d, d < b → val (digitChar d) = d) (ds : List Nat) (h : ∀ d ∈ ds, d < b) (acc : Nat) :
    (ds.map digitChar).foldl (fun acc c => b * acc + val c) acc = Nat.ofDigits b ds.reverse + b ^ ds.length * acc := by
  induction ds generalizing acc with
  | nil => simp [Nat.ofDigits]
  | cons d ds ih =>
    rw [List.map_cons, List.foldl_cons, ih (fun x hx => h x (by simp [hx])), hv d (h d (by simp)), List.reverse_cons, Nat.ofDigits_append,
      List.length_reverse, List.length_cons, Nat.ofDigits_singleton, pow_succ]
    ring

theorem number_digits (ds : List Nat) (h : ∀ d ∈ ds, d < 10) : number (ds.map digitChar) = Nat.ofDigits 10 ds.reverse := by
  have := foldl_digits (b := 10) (val := fun c => c.toNat - 48) (fun d hd => by rw [(digit_dec hd).2]; omega) ds h 0
  rw [Nat.mul_zero, Nat.add_zero] at this
  exact this

theorem hexNumber_digits (ds : List Nat) (h : ∀ d ∈ ds, d < 16) : FloatTxt.hexNumber (ds.map digitChar) = Nat.ofDigits 16 ds.reverse := by
  have := foldl_digits (b := 16)
    (val := fun c => if isDigit c then c.toNat - 48 else if c.toNat ≤ 70 then c.toNat - 55 else c.toNat - 87) (fun d hd => (digit_hex hd).2) ds h 0
  rw [Nat.mul_zero, Nat.add_zero] at this
  exact this

theorem takeWhile_all {p : Byte → Bool} {l r : List Byte} (h : ∀ x ∈ l, p x = true) (hr : r.takeWhile p = []) :
    (l ++ r).takeWhile p = l ∧ (l ++ r).dropWhile p = r := by
  induction l with
  | nil =>
    refine ⟨hr, ?_⟩
    cases r with
    | nil => rfl
    | cons a r =>
      rw [List.takeWhile_cons] at hr
      rw [List.nil_append, List.dropWhile_cons]
      split at hr
      · simp at hr
      · next hh => rw [if_neg hh]
  | cons a l ih =>
    obtain ⟨i1, i2⟩ := ih (fun x hx => h x (by simp [hx]))
    have ha := h a (by simp)
    rw [List.cons_append, List.takeWhile_cons, List.dropWhile_cons, if_pos ha, if_pos ha, i1, i2]
    exact ⟨rfl, rfl⟩

/-- Reading a number in the normal range: the nearest float. -/
theorem toFloat_near {q : ℚ} (h1 : (2 : ℚ) ^ (-126 : Int) ≤ q) (h2 : q ≤ 2 ^ (127 : Int)) :
    ∃ r, FloatTxt.toFloat false q = .ok r ∧ Nearest32 r q := by
  obtain ⟨h, _⟩ := toFloat_ok h1 h2
  refine ⟨_, h, ?_⟩
  have hpos : 0 < q := lt_of_lt_of_le (by positivity) h1
  have := (nearest32 (s := false) (q := q) (by unfold IEEE.Fmt.SignOk; simp [hpos.le]) (by rw [abs_of_pos hpos]; exact h2)).1
  have e : b32.ofRat false q = b32.round q := by
    unfold IEEE.Fmt.ofRat
    rw [abs_of_pos hpos]
    simp
  rwa [e] at this

theorem digits_lead {b : Nat} (hb : b ≤ 10) {ds : List Nat} (hne : ds ≠ []) (h : ∀ d ∈ ds, d < b) (rest : List Byte) :
    ∃ d t, d < 10 ∧ ds.map digitChar ++ rest = digitChar d :: t := by
  cases ds with
  | nil => exact absurd rfl hne
  | cons d ds => exact ⟨d, _, lt_of_lt_of_le (h d (by simp)) hb, rfl⟩

/-- **C68, decimal by hand.**  "123.4500", with any number of digits before and after the point (at least one before). -/
theorem C68_hand_decimal (ip fp : List Nat) (hne : ip ≠ []) (hi : ∀ d ∈ ip, d < 10) (hf : ∀ d ∈ fp, d < 10)
    (q : ℚ) (hq : q = (Nat.ofDigits 10 (ip ++ fp).reverse : ℕ) / 10 ^ fp.length)
    (h1 : (2 : ℚ) ^ (-126 : Int) ≤ q) (h2 : q ≤ 2 ^ (127 : Int)) :
    ∃ r, text.parse (ip.map digitChar ++ 0x2E#8 :: fp.map digitChar) = .ok r ∧ Nearest32 r q := by
  obtain ⟨r, hr, hn⟩ := toFloat_near h1 h2
  refine ⟨r, ?_, hn⟩
  have hdi : ∀ x ∈ ip.map digitChar, isDigit x = true := by
    intro x hx; obtain ⟨d, hd, rfl⟩ := List.mem_map.1 hx; exact (digit_dec (hi d hd)).1
  have hdf : ∀ x ∈ fp.map digitChar, isDigit x = true := by
    intro x hx; obtain ⟨d, hd, rfl⟩ := List.mem_map.1 hx; exact (digit_dec (hf d hd)).1
  obtain ⟨w1, w2⟩ := takeWhile_all (r := 0x2E#8 :: fp.map digitChar) hdi (by simp [List.takeWhile_cons, isDigit])
  obtain ⟨v1, v2⟩ := takeWhile_all (r := []) hdf rfl
  rw [List.append_nil] at v1 v2
  have hscan : FloatTxt.scanDec (ip.map digitChar ++ 0x2E#8 :: fp.map digitChar) = some q := by
    unfold FloatTxt.scanDec
    simp only [w1, w2, FloatTxt.afterPoint, if_true, v1, v2, FloatTxt.exponent]
    rw [if_neg (by simp [hne]), ← List.map_append, number_digits (ip ++ fp) (by
      intro d hd; rcases List.mem_append.1 hd with h | h
      · exact hi d h
      · exact hf d h), hq]
    congr 1
    rw [List.length_map, zero_sub, zpow_neg, zpow_natCast, div_eq_mul_inv]
  have hall : ∀ x ∈ ip.map digitChar ++ 0x2E#8 :: fp.map digitChar, FloatTxt.lower x ≠ 0x78#8 := by
    have hl : ∀ d, d < 10 → FloatTxt.lower (digitChar d) ≠ 0x78#8 := by intro d hd; interval_cases d <;> decide
    intro x hx
    rcases List.mem_append.1 hx with hx | hx
    · obtain ⟨d, hd, rfl⟩ := List.mem_map.1 hx; exact hl d (hi d hd)
    · rcases List.mem_cons.1 hx with rfl | hx
      · decide
      · obtain ⟨d, hd, rfl⟩ := List.mem_map.1 hx; exact hl d (hf d hd)
  obtain ⟨d, t, hd, he⟩ := digits_lead (le_refl 10) hne hi (0x2E#8 :: fp.map digitChar)
  generalize ip.map digitChar ++ 0x2E#8 :: fp.map digitChar = s at *
  subst he
  change FloatTxt.parse _ = _
  have hp : FloatTxt.lower (digitChar d) ≠ 105#8 ∧ FloatTxt.lower (digitChar d) ≠ 110#8 ∧ isSpace (digitChar d) = false ∧ (digitChar d).toNat ≠ 45 ∧
      (digitChar d).toNat ≠ 43 := by
    interval_cases d <;> decide
  have hdw : (digitChar d :: t).dropWhile isSpace = digitChar d :: t := by rw [List.dropWhile_cons, if_neg (by simp [hp.2.2.1])]
  have hts : takeSign (digitChar d :: t) = (false, digitChar d :: t) := by
    simp only [takeSign]; rw [if_neg hp.2.2.2.1, if_neg hp.2.2.2.2]
  unfold FloatTxt.parse
  simp only [hdw, hts]
  rw [if_neg (by intro hh; simp [ascii] at hh; exact hp.1 (by have := hh.1; simpa using this)),
    if_neg (by intro hh; simp [ascii] at hh; exact hp.2.1 (by have := hh.1; simpa using this))]
  have hs : FloatTxt.scan (digitChar d :: t) = some q := by
    unfold FloatTxt.scan
    rw [if_neg]
    · exact hscan
    · rintro ⟨hh, _⟩
      cases t with
      | nil => simp [ascii] at hh
      | cons y t =>
        have hy := hall y (by simp)
        simp [ascii] at hh
        exact hy hh.2
  rw [hs]
  exact hr

/-- **C68, hexadecimal by hand.**  "0x1.8p-3": digits before and after the point (at least one before), a sign and a decimal exponent of two. -/
theorem C68_hand_hex (ip fp es : List Nat) (neg : Bool) (hne : ip ≠ []) (hi : ∀ d ∈ ip, d < 16) (hf : ∀ d ∈ fp, d < 16) (he : ∀ d ∈ es, d < 10)
    (q : ℚ) (hq : q = (Nat.ofDigits 16 (ip ++ fp).reverse : ℕ) / 16 ^ fp.length *
      2 ^ (if neg then -((Nat.ofDigits 10 es.reverse : ℕ) : Int) else ((Nat.ofDigits 10 es.reverse : ℕ) : Int)))
    (h1 : (2 : ℚ) ^ (-126 : Int) ≤ q) (h2 : q ≤ 2 ^ (127 : Int)) :
    ∃ r, text.parse (ascii "0x" ++ (ip.map digitChar ++ 0x2E#8 :: (fp.map digitChar ++ 0x70#8 :: (if neg then 0x2D#8 else 0x2B#8) :: es.map digitChar))) = .ok r ∧
      Nearest32 r q := by
  obtain ⟨r, hr, hn⟩ := toFloat_near h1 h2
  refine ⟨r, ?_, hn⟩
  have hdi : ∀ x ∈ ip.map digitChar, FloatTxt.isHex x = true := by
    intro x hx; obtain ⟨d, hd, rfl⟩ := List.mem_map.1 hx; exact (digit_hex (hi d hd)).1
  have hdf : ∀ x ∈ fp.map digitChar, FloatTxt.isHex x = true := by
    intro x hx; obtain ⟨d, hd, rfl⟩ := List.mem_map.1 hx; exact (digit_hex (hf d hd)).1
  have hde : ∀ x ∈ es.map digitChar, isDigit x = true := by
    intro x hx; obtain ⟨d, hd, rfl⟩ := List.mem_map.1 hx; exact (digit_dec (he d hd)).1
  obtain ⟨v1, v2⟩ := takeWhile_all (p := FloatTxt.isHex) (r := 0x70#8 :: (if neg then 0x2D#8 else 0x2B#8) :: es.map digitChar) hdf
    (by simp [List.takeWhile_cons, FloatTxt.isHex, isDigit])
  obtain ⟨w1, w2⟩ := takeWhile_all (p := FloatTxt.isHex)
    (r := 0x2E#8 :: (fp.map digitChar ++ 0x70#8 :: (if neg then 0x2D#8 else 0x2B#8) :: es.map digitChar)) hdi
    (by simp [List.takeWhile_cons, FloatTxt.isHex, isDigit])
  obtain ⟨u1, _⟩ := takeWhile_all (p := isDigit) (r := []) hde rfl
  rw [List.append_nil] at u1
  have hexp : FloatTxt.exponent 0x70#8 0x50#8 (0x70#8 :: (if neg then 0x2D#8 else 0x2B#8) :: es.map digitChar) =
      if neg then -((Nat.ofDigits 10 es.reverse : ℕ) : Int) else ((Nat.ofDigits 10 es.reverse : ℕ) : Int) := by
    simp only [FloatTxt.exponent]
    simp only [true_or, if_true]
    cases neg with
    | true =>
      have ht : takeSign (0x2D#8 :: es.map digitChar) = (true, es.map digitChar) := rfl
      simp only [if_true, ht, u1, number_digits es he]
    | false =>
      have ht : takeSign (0x2B#8 :: es.map digitChar) = (false, es.map digitChar) := rfl
      simp only [Bool.false_eq_true, if_false, ht, u1, number_digits es he]
  have hscan : FloatTxt.scanHex (ip.map digitChar ++ 0x2E#8 :: (fp.map digitChar ++ 0x70#8 :: (if neg then 0x2D#8 else 0x2B#8) :: es.map digitChar)) = some q := by
    unfold FloatTxt.scanHex
    simp only [w1, w2, FloatTxt.afterPoint, if_true, v1, v2, hexp]
    rw [if_neg (by simp [hne]), ← List.map_append, hexNumber_digits (ip ++ fp) (by
      intro d hd; rcases List.mem_append.1 hd with h | h
      · exact hi d h
      · exact hf d h), hq]
    congr 1
    rw [List.length_map, zpow_sub₀ (by norm_num), show (16 : ℚ) ^ fp.length = 2 ^ (4 * (fp.length : Int)) from by
      rw [zpow_mul, zpow_natCast]; norm_num]
    ring
  generalize ip.map digitChar ++ 0x2E#8 :: (fp.map digitChar ++ 0x70#8 :: (if neg then 0x2D#8 else 0x2B#8) :: es.map digitChar) = s at *
  show FloatTxt.parse (ascii "0x" ++ s) = _
  unfold FloatTxt.parse
  have hdw : (ascii "0x" ++ s).dropWhile isSpace = 0x30#8 :: 0x78#8 :: s := rfl
  have hts : takeSign (0x30#8 :: 0x78#8 :: s) = (false, 0x30#8 :: 0x78#8 :: s) := rfl
  simp only [hdw, hts]
  rw [if_neg (by intro hh; have := congrArg (·.head?) hh; revert this; simp [FloatTxt.lower, ascii]),
    if_neg (by intro hh; have := congrArg (·.head?) hh; revert this; simp [FloatTxt.lower, ascii])]
  have hs : FloatTxt.scan (0x30#8 :: 0x78#8 :: s) = some q := by
    unfold FloatTxt.scan
    have e : (0x30#8 :: 0x78#8 :: s).drop 2 = s := rfl
    rw [e, hscan]
    exact if_pos ⟨rfl, rfl⟩
  rw [hs]
  exact hr

/-- "0.25" and "0x1.8p-3" (3/16). -/
example : (∃ r, text.parse (ascii "0.25") = .ok r ∧ Nearest32 r (25 / 100)) ∧ ∃ r, text.parse (ascii "0x1.8p-3") = .ok r ∧ Nearest32 r (3 / 16) := by
  constructor
  · exact C68_hand_decimal [0] [2, 5] (by simp) (by decide) (by decide) _ (by norm_num [Nat.ofDigits]) (by norm_num) (by norm_num)
  · exact C68_hand_hex [1] [8] [3] true (by simp) (by decide) (by decide) (by decide) _ (by norm_num [Nat.ofDigits]) (by norm_num) (by norm_num)

end Cloudini.Props
