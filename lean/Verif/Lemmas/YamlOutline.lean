import Verif.Spec.Yaml
import Verif.Lemmas.Text
import Verif.Lemmas.Yaml
import Verif.Lemmas.Profile

/-! # The YAML reader sees only the outline -/

namespace Cloudini

theorem decideBlank (c : Byte) : decide (Blank c) = isSpace c := by
  have : ∀ c : Byte, decide (Blank c) = isSpace c := by decide
  exact this c

theorem strip_eq (s : List Byte) : strip s = rtrim (s.dropWhile isSpace) := by
  unfold strip rtrim
  have : (fun c => decide (Blank c)) = isSpace := funext decideBlank
  rw [this]

theorem strip_eq_profile (s : List Byte) : strip s = Profile.trim s := by rw [strip_eq]; rfl

theorem indentation_columns (l : List Byte) : indentation l = columns l := by
  unfold columns
  induction l with
  | nil => rfl
  | cons c cs ih =>
    unfold indentation
    by_cases h1 : c = 0x20#8
    · subst h1
      rw [if_pos rfl, ih, List.takeWhile_cons, if_pos (by decide)]
      simp only [List.count_cons]
      simp
      omega
    · rw [if_neg h1]
      by_cases h2 : c = 0x09#8
      · subst h2
        rw [if_pos rfl, ih, List.takeWhile_cons, if_pos (by decide)]
        simp only [List.count_cons]
        simp
        omega
      · rw [if_neg h2, List.takeWhile_cons, if_neg (by simp [h1, h2])]
        rfl

theorem rtrim_nil_iff {s : List Byte} : rtrim s = [] ↔ ∀ c ∈ s, isSpace c = true := by
  unfold rtrim
  rw [List.reverse_eq_nil_iff]
  have : ∀ l : List Byte, l.dropWhile isSpace = [] ↔ ∀ c ∈ l, isSpace c = true := by
    intro l
    induction l with
    | nil => simp
    | cons x l ih =>
      rw [List.dropWhile_cons]
      split
      · next h => rw [ih]; simp [h]
      · next h => simp [h]
  rw [this]
  simp

/-- Cutting the trailing blanks before or after the comment is the same. -/
theorem rtrim_cut (s : List Byte) : rtrim ((rtrim s).takeWhile (· ≠ 0x23#8)) = rtrim (s.takeWhile (· ≠ 0x23#8)) := by
  obtain ⟨b, h4, h5, h6⟩ := Profile.dropWhile_split s.reverse
  have e : s = rtrim s ++ b.reverse := by
    have := congrArg List.reverse h4
    simpa [rtrim] using this
  have hb : ∀ c ∈ b.reverse, isSpace c = true := fun c hc => h5 c (by simpa using hc)
  generalize hr : rtrim s = r at e
  generalize hbb : b.reverse = bb at e hb
  subst e
  have key : ∀ r : List Byte, (r ++ bb).takeWhile (· ≠ 0x23#8) = r.takeWhile (· ≠ 0x23#8) ∨
      (r ++ bb).takeWhile (· ≠ 0x23#8) = r ++ bb.takeWhile (· ≠ 0x23#8) ∧ r.takeWhile (· ≠ 0x23#8) = r := by
    intro r
    induction r with
    | nil => right; exact ⟨rfl, rfl⟩
    | cons x r ih =>
      rw [List.cons_append, List.takeWhile_cons, List.takeWhile_cons]
      split
      · rcases ih with ih | ⟨ih, ih'⟩
        · left; rw [ih]
        · right; rw [ih, ih']; exact ⟨rfl, rfl⟩
      · left; rfl
  rcases key r with h | ⟨h, h'⟩
  · rw [h]
  · rw [h, h']
    have hbt : ∀ c ∈ bb.takeWhile (· ≠ 0x23#8), isSpace c = true := fun c hc => hb c (List.takeWhile_subset _ hc)
    generalize bb.takeWhile (· ≠ 0x23#8) = t at hbt
    unfold rtrim
    rw [List.reverse_append]
    congr 1
    have hbu : ∀ c ∈ t.reverse, isSpace c = true := fun c hc => hbt c (by simpa using hc)
    generalize t.reverse = u at hbu
    induction u with
    | nil => rfl
    | cons x u ih =>
      rw [List.cons_append, List.dropWhile_cons, if_pos (hbu x (.head _))]
      exact ih fun c hc => hbu c (.tail _ hc)

theorem takeWhile_hash {s : List Byte} (h : 0x23#8 ∉ s) : s.takeWhile (· ≠ 0x23#8) = s := by
  induction s with
  | nil => rfl
  | cons x s ih =>
    have hx : x ≠ 0x23#8 := fun e => h (by rw [e]; exact .head _)
    rw [List.takeWhile_cons, if_pos (by simpa using hx), ih fun hm => h (.tail _ hm)]

theorem dropWhile_takeWhile_hash (s : List Byte) : (s.takeWhile (· ≠ 0x23#8)).dropWhile isSpace = (s.dropWhile isSpace).takeWhile (· ≠ 0x23#8) := by
  induction s with
  | nil => rfl
  | cons x s ih =>
    by_cases hx : x = 0x23#8
    · subst hx
      rw [List.takeWhile_cons, if_neg (by simp), List.dropWhile_cons, if_neg (by decide), List.takeWhile_cons, if_neg (by simp)]
      rfl
    · rw [List.takeWhile_cons, if_pos (by simpa using hx), List.dropWhile_cons, List.dropWhile_cons]
      by_cases hb : isSpace x = true
      · rw [if_pos hb, if_pos hb, ih]
      · rw [if_neg hb, if_neg hb, List.takeWhile_cons, if_pos (by simpa using hx)]

theorem trim_saying (l : List Byte) : trim l = saying l := by
  unfold saying
  rw [strip_eq, dropWhile_takeWhile_hash]
  unfold trim
  simp only
  split
  · next h => rw [h]; rfl
  · split
    · exact rtrim_cut _
    · next h =>
      rw [← rtrim_cut, takeWhile_hash h]
      -- trimming twice
      have : ∀ s : List Byte, rtrim (rtrim s) = rtrim s := by
        intro s
        unfold rtrim
        rw [List.reverse_reverse]
        congr 1
        have : ∀ l : List Byte, (l.dropWhile isSpace).dropWhile isSpace = l.dropWhile isSpace := by
          intro l
          induction l with
          | nil => rfl
          | cons x l ih =>
            rw [List.dropWhile_cons]
            split
            · exact ih
            · next hx => rw [List.dropWhile_cons, if_neg hx]
        exact this _
      rw [this]

theorem saying_no_hash (l : List Byte) : 0x23#8 ∉ saying l := by
  unfold saying strip
  intro h
  have h1 := List.mem_reverse.1 h
  have h2 := List.mem_reverse.1 ((List.dropWhile_sublist _).subset h1)
  have h3 := (List.dropWhile_sublist _).subset h2
  have : ∀ s : List Byte, 0x23#8 ∉ s.takeWhile (· ≠ 0x23#8) := by
    intro s
    induction s with
    | nil => simp
    | cons x s ih =>
      rw [List.takeWhile_cons]
      split
      · next hx =>
        simp only [List.mem_cons, not_or]
        exact ⟨fun e => by simp [← e] at hx, ih⟩
      · simp
  exact this l h3

theorem skipEmpty_nil_iff {L : List (List Byte)} : skipEmpty L = [] ↔ outline L = [] := by
  unfold outline
  induction L with
  | nil => simp [skipEmpty]
  | cons l L ih =>
    unfold skipEmpty
    rw [trim_saying]
    by_cases h : saying l = []
    · rw [if_pos (Or.inl h), ih, List.filter_cons_of_neg (by simp [h])]
    · rw [if_neg, List.filter_cons_of_pos (by simp [h])]
      · simp
      · rintro (h' | h')
        · exact h h'
        · have := saying_no_hash l
          cases hs : saying l with
          | nil => rw [hs] at h'; simp at h'
          | cons x s => rw [hs] at h' this; simp only [List.head?_cons, Option.some.injEq] at h'; rw [h'] at this; simp at this

theorem skipEmpty_cons {L : List (List Byte)} {line : List Byte} {rest : List (List Byte)} (h : skipEmpty L = line :: rest) :
    outline L = (columns line, saying line) :: outline rest ∧ outline (line :: rest) = outline L := by
  induction L with
  | nil => simp [skipEmpty] at h
  | cons l L ih =>
    unfold skipEmpty at h
    rw [trim_saying] at h
    split at h
    · next hc =>
      have hs : saying l = [] := by
        rcases hc with hc | hc
        · exact hc
        · have := saying_no_hash l
          cases hs : saying l with
          | nil => rfl
          | cons x s => rw [hs] at hc this; simp only [List.head?_cons, Option.some.injEq] at hc; rw [hc] at this; simp at this
      have e : outline (l :: L) = outline L := by unfold outline; rw [List.filter_cons_of_neg (by simp [hs])]
      rw [e]
      exact ih h
    · next hc =>
      simp only [List.cons.injEq] at h
      obtain ⟨rfl, rfl⟩ := h
      have hs : saying l ≠ [] := fun e => hc (Or.inl e)
      refine ⟨?_, rfl⟩
      unfold outline
      rw [List.filter_cons_of_pos (by simp [hs])]
      rfl

/-- Two runs see the same. -/
def SameRes {α : Type} (r r' : Res (α × List (List Byte))) : Prop :=
  (r = .ub .loop ∧ r' = .ub .loop) ∨ ∃ a l l', r = .ok (a, l) ∧ r' = .ok (a, l') ∧ outline l = outline l'

theorem SameRes.bind {α β : Type} {r r' : Res (α × List (List Byte))} {f f' : α × List (List Byte) → Res (β × List (List Byte))} (h : SameRes r r')
    (hf : ∀ a l l', outline l = outline l' → SameRes (f (a, l)) (f' (a, l'))) : SameRes (r >>= f) (r' >>= f') := by
  rcases h with ⟨rfl, rfl⟩ | ⟨a, l, l', rfl, rfl, h⟩
  · exact Or.inl ⟨rfl, rfl⟩
  · exact hf a l l' h

theorem SameRes.ok {α : Type} {a : α} {l l' : List (List Byte)} (h : outline l = outline l') : SameRes (.ok (a, l)) (.ok (a, l')) :=
  Or.inr ⟨a, l, l', rfl, rfl, h⟩

/-- Either nothing is left in both, or the next lines say the same. -/
theorem skipEmpty_cases {L L' : List (List Byte)} (h : outline L = outline L') :
    (skipEmpty L = [] ∧ skipEmpty L' = []) ∨ ∃ l l' R R', skipEmpty L = l :: R ∧ skipEmpty L' = l' :: R' ∧ indentation l' = indentation l ∧ trim l' = trim l ∧
      outline R = outline R' ∧ outline (l :: R) = outline (l' :: R') := by
  cases h1 : skipEmpty L with
  | nil => left; exact ⟨rfl, skipEmpty_nil_iff.2 (h ▸ skipEmpty_nil_iff.1 h1)⟩
  | cons l R =>
    right
    cases h2 : skipEmpty L' with
    | nil =>
      have := skipEmpty_nil_iff.1 h2
      rw [← h, (skipEmpty_cons h1).1] at this
      simp at this
    | cons l' R' =>
      obtain ⟨e1, e2⟩ := skipEmpty_cons h1
      obtain ⟨e3, e4⟩ := skipEmpty_cons h2
      have := h
      rw [e1, e3] at this
      simp only [List.cons.injEq, Prod.mk.injEq] at this
      refine ⟨l, l', R, R', rfl, rfl, ?_, ?_, this.2, by rw [e2, e4, h]⟩
      · rw [indentation_columns, indentation_columns, this.1.1]
      · rw [trim_saying, trim_saying, this.1.2]

theorem parse_outline (fuel : Nat) : ∀ (L L' : List (List Byte)) (base : Nat), outline L = outline L' →
    SameRes (parseNode fuel L base) (parseNode fuel L' base) ∧ SameRes (parseSequence fuel L base) (parseSequence fuel L' base) ∧
    SameRes (parseItem fuel L base) (parseItem fuel L' base) ∧ SameRes (parseMapping fuel L base) (parseMapping fuel L' base) := by
  induction fuel with
  | zero =>
    intro L L' base _
    refine ⟨Or.inl ?_, Or.inl ?_, Or.inl ?_, Or.inl ?_⟩ <;> constructor
    · unfold parseNode; rfl
    · unfold parseNode; rfl
    · unfold parseSequence; rfl
    · unfold parseSequence; rfl
    · unfold parseItem; rfl
    · unfold parseItem; rfl
    · unfold parseMapping; rfl
    · unfold parseMapping; rfl
  | succ fuel ih =>
    intro L L' base h
    rcases skipEmpty_cases h with ⟨e1, e2⟩ | ⟨l, l', R, R', e1, e2, hi, ht, hR, hl⟩
    · refine ⟨?_, ?_, ?_, ?_⟩
      · unfold parseNode; rw [e1, e2]; exact .ok rfl
      · unfold parseSequence; rw [e1, e2]; exact .ok rfl
      · unfold parseItem; rw [e1, e2]; exact .ok rfl
      · unfold parseMapping; rw [e1, e2]; exact .ok rfl
    · refine ⟨?_, ?_, ?_, ?_⟩
      · unfold parseNode
        rw [e1, e2]
        simp only [hi, ht]
        split
        · exact .ok hl
        · split
          · exact SameRes.bind (ih _ _ base hl).2.1 fun a l l' h => .ok h
          · split
            · exact SameRes.bind (ih _ _ base hl).2.2.2 fun a l l' h => .ok h
            · exact .ok hl
      · unfold parseSequence
        rw [e1, e2]
        simp only [hi, ht]
        split
        · exact .ok hl
        · split
          · exact .ok hl
          · split
            · exact SameRes.bind (ih _ _ _ hR).1 fun a l l' h => SameRes.bind (ih _ _ base h).2.1 fun a l l' h => .ok h
            · split
              · exact SameRes.bind (ih _ _ _ hR).2.2.1 fun a l l' h => SameRes.bind (ih _ _ base h).2.1 fun a l l' h => .ok h
              · exact SameRes.bind (ih _ _ base hR).2.1 fun a l l' h => .ok h
      · unfold parseItem
        rw [e1, e2]
        simp only [hi, ht]
        split
        · exact .ok hl
        · split
          · exact .ok hl
          · split
            · exact SameRes.bind (ih _ _ base hR).2.2.1 fun a l l' h => .ok h
            · exact SameRes.bind (ih _ _ _ hR).1 fun a l l' h => SameRes.bind (ih _ _ base h).2.2.1 fun a l l' h => .ok h
      · unfold parseMapping
        rw [e1, e2]
        simp only [hi, ht]
        split
        · exact .ok hl
        · split
          · exact .ok hl
          · split
            · exact .ok hl
            · split
              · exact SameRes.bind (ih _ _ _ hR).1 fun a l l' h => SameRes.bind (ih _ _ base h).2.2.2 fun a l l' h => .ok h
              · exact SameRes.bind (ih _ _ base hR).2.2.2 fun a l l' h => .ok h

theorem yamlParseFuel_eq {fuel : Nat} (text : List Byte) (hf : 0 < fuel) : yamlParseFuel fuel text = (parseNode fuel (splitLines text) 0 >>= fun r => .ok r.1) := by
  unfold yamlParseFuel
  cases h : splitLines text with
  | nil =>
    simp only
    obtain ⟨f, rfl⟩ : ∃ f, fuel = f + 1 := ⟨fuel - 1, by omega⟩
    unfold parseNode
    rfl
  | cons l ls => rfl

theorem yamlParse_outline {text text' : List Byte} (h : outline (splitLines text) = outline (splitLines text')) : yamlParse text = yamlParse text' := by
  obtain ⟨n, hn⟩ := yamlParse_total text
  obtain ⟨n', hn'⟩ := yamlParse_total text'
  have e1 := hn _ (Nat.le_refl _)
  have e2 := hn' _ (Nat.le_refl _)
  have f1 := hn _ (Nat.le_max_left (2 * (splitLines text).length + 2) (2 * (splitLines text').length + 2))
  have f2 := hn' _ (Nat.le_max_right (2 * (splitLines text).length + 2) (2 * (splitLines text').length + 2))
  unfold yamlParse
  rw [e1, e2]
  rw [yamlParseFuel_eq _ (by omega)] at f1 f2
  rcases (parse_outline (max (2 * (splitLines text).length + 2) (2 * (splitLines text').length + 2)) _ _ 0 h).1 with ⟨g1, _⟩ | ⟨a, l, l', g1, g2, _⟩
  · rw [g1] at f1; cases f1
  · rw [g1] at f1
    rw [g2] at f2
    simp only [Res.ok_bind, Res.ok.injEq] at f1 f2
    rw [← f1, ← f2]

end Cloudini
