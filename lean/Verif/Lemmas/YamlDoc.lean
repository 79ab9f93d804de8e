import Verif.Spec.Yaml
import Verif.Lemmas.YamlTrip

/-! # The YAML reader reads documents -/

namespace Cloudini

/-- Nothing follows, or a line that is indented by less than `n`. -/
def Ends (n : Nat) (rest : List (List Byte)) : Prop :=
  rest = [] ∨ ∃ s r m, PlainText s ∧ m < n ∧ rest = (List.replicate m 0x20#8 ++ s) :: r

theorem Ends.mono {n m : Nat} {rest : List (List Byte)} (h : Ends n rest) (hm : n ≤ m) : Ends m rest := by
  rcases h with rfl | ⟨s, r, k, h1, h2, rfl⟩
  · exact Or.inl rfl
  · exact Or.inr ⟨s, r, k, h1, by omega, rfl⟩

theorem GoodKey.key {k : List Byte} (h : GoodKey k) : Key k := ⟨h.1, h.2.1⟩

theorem colonLine_plain {k : List Byte} (h : GoodKey k) : PlainText (k ++ [0x3A#8]) :=
  plain_append ⟨h.1.nonempty, h.1.newline, h.1.comment, h.1.first⟩ ⟨by simp, by decide, by decide, by decide, by decide⟩

theorem dashLine_plain {v : List Byte} (h : PlainText v) : PlainText (0x2D#8 :: 0x20#8 :: v) := by
  have := plain_append (a := [0x2D#8, 0x20#8]) ⟨by simp, by decide, by decide, by decide⟩ h
  simpa using this

theorem noDash {k : List Byte} (h : GoodKey k) (tail : List Byte) : startsDash (k ++ 0x3A#8 :: tail) = false := by
  obtain ⟨h1, h2, h3⟩ := h
  unfold startsDash
  cases k with
  | nil => exact absurd rfl h1.nonempty
  | cons a k =>
    cases k with
    | nil => simp
    | cons b k =>
      simp only [List.cons_append, List.take_succ_cons, List.take_zero]
      exact decide_eq_false fun e => h3 e

theorem trim_nil : trim [] = [] := rfl

/-- A mapping begins with a key, so that `parseNode` enters `parseMapping`. -/
theorem entries_head {es : YEntries} (hg : es.Good) (hne : es ≠ .nil) (n : Nat) (rest : List (List Byte)) :
    ∃ s r, PlainText s ∧ startsDash s = false ∧ (∃ q, splitColon s = some q) ∧ es.lines n ++ rest = (List.replicate n 0x20#8 ++ s) :: r := by
  cases es with
  | nil => exact absurd rfl hne
  | scalar k v es =>
    unfold YEntries.Good at hg
    exact ⟨_, _, keyLine_plain hg.1.key hg.2.1, noDash hg.1 _, ⟨_, splitColon_key hg.1.2.1⟩, rfl⟩
  | child k d es =>
    unfold YEntries.Good at hg
    exact ⟨_, _, colonLine_plain hg.1, noDash hg.1 _, ⟨_, splitColon_key hg.1.2.1⟩, rfl⟩

theorem items_head {is : YItems} (hg : is.Good) (hne : is ≠ .nil) (n : Nat) (rest : List (List Byte)) :
    ∃ s r, PlainText s ∧ startsDash s = true ∧ is.lines n ++ rest = (List.replicate n 0x20#8 ++ s) :: r := by
  cases is with
  | nil => exact absurd rfl hne
  | scalar v is =>
    unfold YItems.Good at hg
    exact ⟨_, _, dashLine_plain hg.1, by simp [startsDash], rfl⟩
  | map k v more is =>
    unfold YItems.Good at hg
    exact ⟨_, _, dashLine_plain (keyLine_plain hg.1.key hg.2.1), by simp [startsDash], rfl⟩

theorem entries_ends {es : YEntries} (hg : es.Good) {n m : Nat} {rest : List (List Byte)} (hn : n < m) (h : Ends m rest) : Ends m (es.lines n ++ rest) := by
  by_cases he : es = .nil
  · subst he; exact h
  · obtain ⟨s, r, h1, _, _, e⟩ := entries_head hg he n rest
    exact Or.inr ⟨s, r, n, h1, hn, e⟩

theorem items_ends {is : YItems} (hg : is.Good) {n m : Nat} {rest : List (List Byte)} (hn : n < m) (h : Ends m rest) : Ends m (is.lines n ++ rest) := by
  by_cases he : is = .nil
  · subst he; exact h
  · obtain ⟨s, r, h1, _, e⟩ := items_head hg he n rest
    exact Or.inr ⟨s, r, n, h1, hn, e⟩

theorem mapping_end {n : Nat} {rest : List (List Byte)} (h : Ends n rest) : ∃ f, parseMapping f rest n = .ok ([], rest) := by
  refine ⟨1, ?_⟩
  unfold parseMapping
  rcases h with rfl | ⟨s, r, m, hp, hm, rfl⟩
  · rfl
  · rw [skipEmpty_plain hp]
    simp only [indentation_spaces hp]
    rw [if_pos hm]

theorem seq_end {n : Nat} {rest : List (List Byte)} (h : Ends n rest) : ∃ f, parseSequence f rest n = .ok ([], rest) := by
  refine ⟨1, ?_⟩
  unfold parseSequence
  rcases h with rfl | ⟨s, r, m, hp, hm, rfl⟩
  · rfl
  · rw [skipEmpty_plain hp]
    simp only [indentation_spaces hp]
    rw [if_pos hm]

theorem item_ends {b : Nat} {rest : List (List Byte)} (h : Ends (b + 1) rest) : ∃ f, parseItem f rest b = .ok ([], rest) := by
  refine item_end b ?_
  rcases h with rfl | ⟨s, r, m, hp, hm, rfl⟩
  · exact Or.inl rfl
  · exact Or.inr ⟨s, r, m, hp, by omega, rfl⟩

/-- One step of a mapping, with a value on the same line. -/
theorem mapping_scalar {k v : List Byte} (hk : GoodKey k) (hv : PlainText v) {n : Nat} {rest : List (List Byte)} {m r}
    (h : ∃ f, parseMapping f rest n = .ok (m, r)) :
    ∃ f, parseMapping f ((List.replicate n 0x20#8 ++ (k ++ 0x3A#8 :: 0x20#8 :: v)) :: rest) n = .ok ((k, .str v) :: m, r) := by
  obtain ⟨f, hf⟩ := h
  refine ⟨f + 1, ?_⟩
  have hp := keyLine_plain hk.key hv
  unfold parseMapping
  rw [skipEmpty_plain hp]
  simp only [indentation_spaces hp, Nat.lt_irrefl, if_false, trim_spaces hp, splitColon_key hk.2.1, trim_space_value hv]
  rw [if_neg hv.nonempty, hf, trim_plain hk.1]
  rfl

/-- One step of a mapping, with a value on the lines below. -/
theorem mapping_child {k : List Byte} (hk : GoodKey k) {n : Nat} {rest rest' : List (List Byte)} {c m r}
    (hc : ∃ f, parseNode f rest (n + 2) = .ok (c, rest')) (h : ∃ f, parseMapping f rest' n = .ok (m, r)) :
    ∃ f, parseMapping f ((List.replicate n 0x20#8 ++ (k ++ [0x3A#8])) :: rest) n = .ok ((k, c) :: m, r) := by
  obtain ⟨f, hf⟩ := hc
  obtain ⟨f', hf'⟩ := h
  refine ⟨max f f' + 1, ?_⟩
  have hp := colonLine_plain hk
  unfold parseMapping
  rw [skipEmpty_plain hp]
  simp only [indentation_spaces hp, Nat.lt_irrefl, if_false, trim_spaces hp, splitColon_key hk.2.1, trim_nil]
  rw [if_pos trivial, (parse_le (Nat.le_max_left f f')).1 _ _ _ hf, Res.ok_bind, (parse_le (Nat.le_max_right f f')).2.2.2 _ _ _ hf', trim_plain hk.1]
  rfl

/-- One further key of a list item, with a value on the lines below. -/
theorem item_child {k : List Byte} (hk : GoodKey k) {n b : Nat} (hb : b < n) {rest rest' : List (List Byte)} {c m r}
    (hc : ∃ f, parseNode f rest (n + 2) = .ok (c, rest')) (h : ∃ f, parseItem f rest' b = .ok (m, r)) :
    ∃ f, parseItem f ((List.replicate n 0x20#8 ++ (k ++ [0x3A#8])) :: rest) b = .ok ((k, c) :: m, r) := by
  obtain ⟨f, hf⟩ := hc
  obtain ⟨f', hf'⟩ := h
  refine ⟨max f f' + 1, ?_⟩
  have hp := colonLine_plain hk
  unfold parseItem
  rw [skipEmpty_plain hp]
  simp only [indentation_spaces hp, trim_spaces hp, splitColon_key hk.2.1, trim_nil]
  rw [if_neg (by omega), if_neg (by simp), (parse_le (Nat.le_max_left f f')).1 _ _ _ hf, Res.ok_bind,
    (parse_le (Nat.le_max_right f f')).2.2.1 _ _ _ hf', trim_plain hk.1]
  rfl

/-- One item that is a scalar. -/
theorem seq_scalar {v : List Byte} (hv : PlainText v) (hc : 0x3A#8 ∉ v) {n : Nat} {rest : List (List Byte)} {s r}
    (h : ∃ f, parseSequence f rest n = .ok (s, r)) :
    ∃ f, parseSequence f ((List.replicate n 0x20#8 ++ (0x2D#8 :: 0x20#8 :: v)) :: rest) n = .ok (.str v :: s, r) := by
  obtain ⟨f, hf⟩ := h
  refine ⟨f + 1, ?_⟩
  have hp := dashLine_plain hv
  have hs : ∀ v : List Byte, 0x3A#8 ∉ v → splitColon v = none := by
    intro v
    induction v with
    | nil => intro _; rfl
    | cons c cs ih =>
      intro h
      simp only [List.mem_cons, not_or] at h
      unfold splitColon
      rw [if_neg (Ne.symm h.1), ih h.2]
  unfold parseSequence
  rw [skipEmpty_plain hp]
  simp only [indentation_spaces hp, trim_spaces hp]
  rw [if_neg (by omega), if_neg (by simp [startsDash])]
  simp only [List.drop_succ_cons, List.drop_zero]
  rw [if_neg hv.nonempty, hs v hc, hf]
  rfl

mutual

theorem parse_doc (d : YDoc) : ∀ (n : Nat) (rest : List (List Byte)), d.Good → Ends n rest → ∃ f, parseNode f (d.lines n ++ rest) n = .ok (d.node, rest) := by
  cases d with
  | map es =>
    intro n rest hg he
    unfold YDoc.Good at hg
    obtain ⟨f, hf⟩ := parse_entries es n rest hg.2 he
    obtain ⟨s, r, hp, h1, ⟨q, h2⟩, e⟩ := entries_head hg.2 hg.1 n rest
    refine ⟨f + 1, ?_⟩
    unfold YDoc.lines YDoc.node parseNode
    rw [e] at hf ⊢
    rw [skipEmpty_plain hp]
    simp only [indentation_spaces hp, trim_spaces hp, h1, h2, Nat.lt_irrefl, if_false]
    rw [hf]
    rfl
  | seq is =>
    intro n rest hg he
    unfold YDoc.Good at hg
    obtain ⟨f, hf⟩ := parse_items is n rest hg.2 he
    obtain ⟨s, r, hp, h1, e⟩ := items_head hg.2 hg.1 n rest
    refine ⟨f + 1, ?_⟩
    unfold YDoc.lines YDoc.node parseNode
    rw [e] at hf ⊢
    rw [skipEmpty_plain hp]
    simp only [indentation_spaces hp, trim_spaces hp, h1, Nat.lt_irrefl, if_false]
    rw [if_pos trivial, hf]
    rfl

theorem parse_entries (es : YEntries) : ∀ (n : Nat) (rest : List (List Byte)), es.Good → Ends n rest → ∃ f, parseMapping f (es.lines n ++ rest) n = .ok (es.node, rest) := by
  cases es with
  | nil => intro n rest _ he; exact mapping_end he
  | scalar k v es =>
    intro n rest hg he
    unfold YEntries.Good at hg
    exact mapping_scalar hg.1 hg.2.1 (parse_entries es n rest hg.2.2 he)
  | child k d es =>
    intro n rest hg he
    unfold YEntries.Good at hg
    unfold YEntries.lines
    rw [List.cons_append, List.append_assoc]
    exact mapping_child hg.1 (parse_doc d (n + 2) _ hg.2.1 (entries_ends hg.2.2 (by omega) (he.mono (by omega)))) (parse_entries es n rest hg.2.2 he)

theorem parse_more (es : YEntries) : ∀ (n b : Nat) (rest : List (List Byte)), b < n → es.Good → Ends (b + 1) rest →
    ∃ f, parseItem f (es.lines n ++ rest) b = .ok (es.node, rest) := by
  cases es with
  | nil => intro n b rest _ _ he; exact item_ends he
  | scalar k v es =>
    intro n b rest hb hg he
    unfold YEntries.Good at hg
    exact item_step hg.1.key hg.2.1 n b hb (parse_more es n b rest hb hg.2.2 he)
  | child k d es =>
    intro n b rest hb hg he
    unfold YEntries.Good at hg
    unfold YEntries.lines
    rw [List.cons_append, List.append_assoc]
    exact item_child hg.1 hb (parse_doc d (n + 2) _ hg.2.1 (entries_ends hg.2.2 (by omega) (he.mono (by omega)))) (parse_more es n b rest hb hg.2.2 he)

theorem parse_items (is : YItems) : ∀ (n : Nat) (rest : List (List Byte)), is.Good → Ends n rest → ∃ f, parseSequence f (is.lines n ++ rest) n = .ok (is.node, rest) := by
  cases is with
  | nil => intro n rest _ he; exact seq_end he
  | scalar v is =>
    intro n rest hg he
    unfold YItems.Good at hg
    exact seq_scalar hg.1 hg.2.1 (parse_items is n rest hg.2.2 he)
  | map k v more is =>
    intro n rest hg he
    unfold YItems.Good at hg
    unfold YItems.lines
    rw [List.cons_append, List.append_assoc]
    exact sequence_step hg.1.key hg.2.1 n n (Nat.le_refl _)
      (parse_more more (n + 2) n _ (by omega) hg.2.2.1 (items_ends hg.2.2.2 (by omega) (he.mono (by omega)))) (parse_items is n rest hg.2.2.2 he)

end

theorem plain_spaces_newline {s : List Byte} (h : PlainText s) (n : Nat) : 0x0A#8 ∉ List.replicate n 0x20#8 ++ s := by
  simp [h.newline, List.mem_replicate]

mutual

theorem doc_newlines (d : YDoc) : ∀ n, d.Good → ∀ l ∈ d.lines n, 0x0A#8 ∉ l := by
  cases d with
  | map es => intro n hg; unfold YDoc.Good at hg; exact entries_newlines es n hg.2
  | seq is => intro n hg; unfold YDoc.Good at hg; exact items_newlines is n hg.2

theorem entries_newlines (es : YEntries) : ∀ n, es.Good → ∀ l ∈ es.lines n, 0x0A#8 ∉ l := by
  cases es with
  | nil => intro n _ l hl; unfold YEntries.lines at hl; cases hl
  | scalar k v es =>
    intro n hg l hl
    unfold YEntries.Good at hg
    unfold YEntries.lines at hl
    rcases List.mem_cons.1 hl with rfl | hl
    · exact plain_spaces_newline (keyLine_plain hg.1.key hg.2.1) n
    · exact entries_newlines es n hg.2.2 l hl
  | child k d es =>
    intro n hg l hl
    unfold YEntries.Good at hg
    unfold YEntries.lines at hl
    rcases List.mem_cons.1 hl with rfl | hl
    · exact plain_spaces_newline (colonLine_plain hg.1) n
    · rcases List.mem_append.1 hl with hl | hl
      · exact doc_newlines d _ hg.2.1 l hl
      · exact entries_newlines es n hg.2.2 l hl

theorem items_newlines (is : YItems) : ∀ n, is.Good → ∀ l ∈ is.lines n, 0x0A#8 ∉ l := by
  cases is with
  | nil => intro n _ l hl; unfold YItems.lines at hl; cases hl
  | scalar v is =>
    intro n hg l hl
    unfold YItems.Good at hg
    unfold YItems.lines at hl
    rcases List.mem_cons.1 hl with rfl | hl
    · exact plain_spaces_newline (dashLine_plain hg.1) n
    · exact items_newlines is n hg.2.2 l hl
  | map k v more is =>
    intro n hg l hl
    unfold YItems.Good at hg
    unfold YItems.lines at hl
    rcases List.mem_cons.1 hl with rfl | hl
    · exact plain_spaces_newline (dashLine_plain (keyLine_plain hg.1.key hg.2.1)) n
    · rcases List.mem_append.1 hl with hl | hl
      · exact entries_newlines more _ hg.2.2.1 l hl
      · exact items_newlines is n hg.2.2.2 l hl

end

theorem doc_lines {d : YDoc} (hg : d.Good) : splitLines d.text = d.lines 0 := splitLines_lines _ (doc_newlines d 0 hg)

end Cloudini
