import Verif.Spec.Text
import Verif.Lemmas.Base

/-! # Characters: the code's tests are the specification's -/

namespace Cloudini

theorem isSpace_iff (c : Byte) : isSpace c = true ↔ Blank c := by
  have : ∀ c : Byte, isSpace c = decide (Blank c) := by decide
  rw [this]; simp

theorem isSpace_false_iff (c : Byte) : isSpace c = false ↔ ¬ Blank c := by
  rw [← isSpace_iff]; simp

theorem isDigit_iff (c : Byte) : isDigit c = true ↔ Digit c := by
  have : ∀ c : Byte, isDigit c = decide (Digit c) := by decide
  rw [this]; simp

theorem isDigit_false_iff (c : Byte) : isDigit c = false ↔ ¬ Digit c := by
  rw [← isDigit_iff]; simp

theorem digitValue_eq {c : Byte} (h : Digit c) : digitValue c = c.toNat - 48 := by
  have : ∀ c : Byte, Digit c → digitValue c = c.toNat - 48 := by decide
  exact this c h

theorem number_value {ds : List Byte} (h : ∀ c ∈ ds, Digit c) : number ds = decimalValue ds := by
  have : ∀ (ds : List Byte) (acc : Nat), (∀ c ∈ ds, Digit c) →
      ds.foldl (fun acc d => 10 * acc + (d.toNat - 48)) acc = acc * 10 ^ ds.length + decimalValue ds := by
    intro ds
    induction ds with
    | nil => intro acc _; simp [decimalValue]
    | cons d ds ih =>
      intro acc h
      rw [List.foldl_cons, ih _ fun c hc => h c (.tail _ hc), decimalValue, digitValue_eq (h d (.head _)), List.length_cons, Nat.pow_succ]
      generalize d.toNat - 48 = x
      generalize 10 ^ ds.length = y
      rw [Nat.add_mul, Nat.mul_comm 10 acc, Nat.mul_assoc, Nat.mul_comm 10 y]
      omega
  have := this ds 0 h
  simpa [number] using this

theorem takeWhile_of {p : Byte → Bool} {a s : List Byte} (ha : ∀ c ∈ a, p c = true) (hs : ∀ c, s.head? = some c → p c = false) :
    (a ++ s).takeWhile p = a := by
  induction a with
  | nil =>
    cases s with
    | nil => rfl
    | cons x s => rw [List.nil_append, List.takeWhile_cons, if_neg (by simp [hs x rfl])]
  | cons x a ih => rw [List.cons_append, List.takeWhile_cons, if_pos (ha x (.head _)), ih fun c hc => ha c (.tail _ hc)]

theorem dropWhile_of' {p : Byte → Bool} {a s : List Byte} (ha : ∀ c ∈ a, p c = true) (hs : ∀ c, s.head? = some c → p c = false) :
    (a ++ s).dropWhile p = s := by
  induction a with
  | nil =>
    cases s with
    | nil => rfl
    | cons x s => rw [List.nil_append, List.dropWhile_cons, if_neg (by simp [hs x rfl])]
  | cons x a ih => rw [List.cons_append, List.dropWhile_cons, if_pos (ha x (.head _)), ih fun c hc => ha c (.tail _ hc)]

/-- `stoi` reads exactly the texts that start with an `int`. -/
theorem stoi_iff (s : List Byte) (v : Int) : stoi s = .ok v ↔ StartsWithInt s v ∧ -2 ^ 31 ≤ v ∧ v < 2 ^ 31 := by
  constructor
  · intro h
    unfold stoi at h
    simp only at h
    generalize hp : takeSign (s.dropWhile isSpace) = p at h
    split at h
    · simp at h
    next hne =>
    generalize hvv : (if p.1 = true then -(number (p.2.takeWhile isDigit) : Int) else (number (p.2.takeWhile isDigit) : Int)) = vv at h
    split at h
    · simp at h
    next hr =>
    simp only [Res.ok.injEq] at h
    subst h
    have hsgn : ∃ sign, s.dropWhile isSpace = sign ++ p.2 ∧ ((sign = [] ∧ p.1 = false) ∨ (sign = ascii "-" ∧ p.1 = true) ∨ (sign = ascii "+" ∧ p.1 = false)) := by
      cases hd : s.dropWhile isSpace with
      | nil => rw [hd] at hp; simp only [takeSign] at hp; subst hp; exact ⟨[], rfl, Or.inl ⟨rfl, rfl⟩⟩
      | cons c cs =>
        rw [hd] at hp
        simp only [takeSign] at hp
        split at hp
        · next hc =>
          subst hp
          refine ⟨[c], rfl, Or.inr (Or.inl ⟨?_, rfl⟩)⟩
          have : c = 0x2D#8 := BitVec.eq_of_toNat_eq hc
          subst this; decide
        · split at hp
          · next hc =>
            subst hp
            refine ⟨[c], rfl, Or.inr (Or.inr ⟨?_, rfl⟩)⟩
            have : c = 0x2B#8 := BitVec.eq_of_toNat_eq hc
            subst this; decide
          · subst hp
            exact ⟨[], rfl, Or.inl ⟨rfl, rfl⟩⟩
    obtain ⟨sign, hs, hcase⟩ := hsgn
    have hdig : ∀ c ∈ p.2.takeWhile isDigit, Digit c := by
      intro c hc
      have := List.all_takeWhile (l := p.2) (p := isDigit)
      exact (isDigit_iff c).1 (List.all_eq_true.1 this c hc)
    refine ⟨⟨s.takeWhile isSpace, sign, p.2.takeWhile isDigit, p.2.dropWhile isDigit, ?_, ?_, ?_, hne, hdig, ?_, ?_⟩, by omega, by omega⟩
    · rw [List.append_assoc, List.takeWhile_append_dropWhile, List.append_assoc, ← hs, List.takeWhile_append_dropWhile]
    · intro c hc
      have := List.all_takeWhile (l := s) (p := isSpace)
      exact (isSpace_iff c).1 (List.all_eq_true.1 this c hc)
    · rcases hcase with ⟨h, _⟩ | ⟨h, _⟩ | ⟨h, _⟩ <;> simp [h]
    · intro c hc
      rw [← isDigit_false_iff]
      cases hq : isDigit c with
      | false => rfl
      | true =>
        have := List.head?_dropWhile_not (p := isDigit) (l := p.2)
        rw [hc] at this
        simp [hq] at this
    · rw [← hvv, ← number_value hdig]
      rcases hcase with ⟨h, h'⟩ | ⟨h, h'⟩ | ⟨h, h'⟩ <;> rw [h, h']
      · rw [if_neg (by decide)]; rfl
      · rw [if_pos rfl]; rfl
      · rw [if_neg (by decide)]; rfl
  · rintro ⟨⟨ws, sign, ds, tail, rfl, h1, h2, h3, h4, h5, hv⟩, hlo, hhi⟩
    have hne : ∃ d ds', ds = d :: ds' := by
      cases ds with
      | nil => exact absurd rfl h3
      | cons d ds' => exact ⟨d, ds', rfl⟩
    obtain ⟨d, ds', hd⟩ := hne
    have hdd : Digit d := h4 d (by rw [hd]; exact .head _)
    have hnb : isSpace d = false ∧ d.toNat ≠ 45 ∧ d.toNat ≠ 43 := by
      have : ∀ c : Byte, Digit c → isSpace c = false ∧ c.toNat ≠ 45 ∧ c.toNat ≠ 43 := by decide
      exact this d hdd
    have e1 : (ws ++ sign ++ ds ++ tail).dropWhile isSpace = sign ++ (ds ++ tail) := by
      rw [List.append_assoc, List.append_assoc]
      refine dropWhile_of' (fun c hc => (isSpace_iff c).2 (h1 c hc)) ?_
      intro c hc
      rcases h2 with rfl | rfl | rfl
      · rw [hd] at hc
        simp only [List.nil_append, List.cons_append, List.head?_cons, Option.some.injEq] at hc
        rw [← hc]; exact hnb.1
      · have : some 0x2D#8 = some c := hc
        simp only [Option.some.injEq] at this
        subst this
        decide
      · have : some 0x2B#8 = some c := hc
        simp only [Option.some.injEq] at this
        subst this
        decide
    have e2 : takeSign (sign ++ (ds ++ tail)) = (decide (sign = ascii "-"), ds ++ tail) := by
      rcases h2 with rfl | rfl | rfl
      · rw [hd]
        simp only [List.nil_append, List.cons_append, takeSign]
        rw [if_neg hnb.2.1, if_neg hnb.2.2]
        rfl
      · rfl
      · rfl
    have e3 : (ds ++ tail).takeWhile isDigit = ds :=
      takeWhile_of (fun c hc => (isDigit_iff c).2 (h4 c hc)) fun c hc => (isDigit_false_iff c).2 (h5 c hc)
    unfold stoi
    simp only [e1, e2, e3, number_value h4]
    rw [if_neg h3]
    have e4 : (if decide (sign = ascii "-") = true then -(decimalValue ds : Int) else (decimalValue ds : Int)) = v := by
      rw [hv]; simp
    rw [e4, if_neg (by omega)]

end Cloudini
