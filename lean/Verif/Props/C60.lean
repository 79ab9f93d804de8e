import Verif.Lemmas.YamlOutline
import Verif.Lemmas.YamlDoc

/-!
# C60: the YAML reader
-/

namespace Cloudini.Props
open Cloudini

/-- **C60, what counts.** The reader's result depends only on the lines that say something: for each the columns before it (a blank is one column, a tab four)
and its text before '#' without white space at both ends. -/
theorem C60_outline (text text' : List Byte) (h : outline (splitLines text) = outline (splitLines text')) : yamlParse text = yamlParse text' :=
  yamlParse_outline h

theorem splitLines_cons (c : Byte) (cs : List Byte) : splitLines (c :: cs) = if c = 0x0A#8 then [] :: splitLines cs else match splitLines cs with
    | [] => [[c]]
    | l :: ls => (c :: l) :: ls := rfl

theorem splitLines_append {a : List Byte} (h : a = [] ∨ a.getLast? = some 0x0A#8) (b : List Byte) : splitLines (a ++ b) = splitLines a ++ splitLines b := by
  induction a with
  | nil => rfl
  | cons c a ih =>
    rw [List.cons_append]
    cases a with
    | nil =>
      rcases h with h | h
      · cases h
      · simp only [List.getLast?_singleton, Option.some.injEq] at h
        subst h
        simp [splitLines]
    | cons d a =>
      have hl : (d :: a).getLast? = some 0x0A#8 := by
        rcases h with h | h
        · cases h
        · simpa [List.getLast?_cons_cons] using h
      have := ih (Or.inr hl)
      rw [splitLines_cons, splitLines_cons c (d :: a)]
      by_cases hc : c = 0x0A#8
      · rw [if_pos hc, if_pos hc, this]; rfl
      · rw [if_neg hc, if_neg hc, this]
        cases hs : splitLines (d :: a) with
        | nil =>
          exfalso
          revert hs
          unfold splitLines
          split
          · simp
          · cases splitLines a <;> simp
        | cons l ls => rfl

theorem outline_append (a b : List (List Byte)) : outline (a ++ b) = outline a ++ outline b := by simp [outline]

/-- A line and the text after it. -/
theorem outline_line {a l b : List Byte} (ha : a = [] ∨ a.getLast? = some 0x0A#8) (hl : 0x0A#8 ∉ l) :
    outline (splitLines (a ++ l ++ 0x0A#8 :: b)) = outline (splitLines a) ++ outline [l] ++ outline (splitLines b) := by
  rw [List.append_assoc, splitLines_append ha, splitLines_line hl, outline_append]
  rw [show (l :: splitLines b) = [l] ++ splitLines b from rfl, outline_append, List.append_assoc]

/-- **C60, empty lines and comments.** A line of white space, or one whose first other character is '#', may stand anywhere. -/
theorem C60_comment_line (a l b : List Byte) (ha : a = [] ∨ a.getLast? = some 0x0A#8) (hl : 0x0A#8 ∉ l)
    (hc : ∃ w c, l = w ++ c ∧ (∀ x ∈ w, Blank x) ∧ (c = [] ∨ c.head? = some 0x23#8)) : yamlParse (a ++ l ++ 0x0A#8 :: b) = yamlParse (a ++ b) := by
  refine C60_outline _ _ ?_
  rw [outline_line ha hl, splitLines_append ha, outline_append]
  obtain ⟨w, c, rfl, hw, hc⟩ := hc
  have : saying (w ++ c) = [] := by
    rw [← trim_saying]
    unfold trim
    simp only
    rcases hc with rfl | hc
    · rw [List.append_nil, if_pos]
      have := dropWhile_of' (p := isSpace) (a := w) (s := []) (fun x hx => (isSpace_iff x).2 (hw x hx)) (by simp)
      simpa using this
    · rw [dropWhile_of' (fun x hx => (isSpace_iff x).2 (hw x hx)) (by intro x hx; rw [hc] at hx; simp only [Option.some.injEq] at hx; subst hx; decide)]
      cases c with
      | nil => simp at hc
      | cons x c =>
        simp only [List.head?_cons, Option.some.injEq] at hc
        subst hc
        rw [if_neg (by simp)]
        have hm : 0x23#8 ∈ rtrim (0x23#8 :: c) := by
          apply Classical.byContradiction
          intro hm
          have h1 := rtrim_cut (0x23#8 :: c)
          rw [takeWhile_hash hm] at h1
          rw [List.takeWhile_cons, if_neg (by simp)] at h1
          have h2 := rtrim_nil_iff.1 h1
          -- the character '#' is not white, so it is not cut off
          unfold rtrim at hm
          rw [List.mem_reverse, List.reverse_cons] at hm
          have : ∀ r : List Byte, 0x23#8 ∈ (r ++ [0x23#8]).dropWhile isSpace := by
            intro r
            induction r with
            | nil => decide
            | cons y r ih =>
              rw [List.cons_append, List.dropWhile_cons]
              split
              · exact ih
              · simp
          exact hm (this _)
        rw [if_pos hm]
        have h1 := rtrim_cut (0x23#8 :: c)
        rw [h1, List.takeWhile_cons, if_neg (by simp)]
        rfl
  rw [show outline [w ++ c] = [] by unfold outline; rw [List.filter_cons_of_neg (by simp [this])]; rfl, List.append_nil]

/-- **C60, comments after text.** What follows '#' on a line does not matter, nor does white space before it. -/
theorem C60_trailing (a l w c b : List Byte) (ha : a = [] ∨ a.getLast? = some 0x0A#8) (hl : 0x0A#8 ∉ l) (hh : 0x23#8 ∉ l) (hw : ∀ x ∈ w, x = 0x20#8 ∨ x = 0x09#8)
    (hc : c = [] ∨ c.head? = some 0x23#8) (hcn : 0x0A#8 ∉ c) : yamlParse (a ++ (l ++ w ++ c) ++ 0x0A#8 :: b) = yamlParse (a ++ l ++ 0x0A#8 :: b) := by
  have hwn : 0x0A#8 ∉ w := fun h => by rcases hw _ h with h | h <;> revert h <;> decide
  have hwh : 0x23#8 ∉ w := fun h => by rcases hw _ h with h | h <;> revert h <;> decide
  refine C60_outline _ _ ?_
  rw [outline_line ha (by simp [hl, hwn, hcn]), outline_line ha hl]
  congr 2
  have e1 : (l ++ w ++ c).takeWhile (· ≠ 0x23#8) = l ++ w := by
    refine takeWhile_of ?_ ?_
    · intro x hx
      rcases List.mem_append.1 hx with hx | hx
      · simp only [decide_eq_true_eq, ne_eq]; rintro rfl; exact hh hx
      · simp only [decide_eq_true_eq, ne_eq]; rintro rfl; exact hwh hx
    · intro x hx
      rcases hc with rfl | hc
      · simp at hx
      · rw [hc] at hx; simp only [Option.some.injEq] at hx; subst hx; simp
  have es : saying (l ++ w ++ c) = saying l := by
    unfold saying
    rw [e1, takeWhile_hash hh, strip_eq_profile, strip_eq_profile]
    obtain ⟨p, q, h1, h2, h3, h4, h5⟩ := Profile.trimmed_trim l
    refine Profile.trim_unique ⟨p, q ++ w, ?_, h2, ?_, h4, h5⟩
    · conv => lhs; rw [h1]
      simp
    · intro x hx
      rcases List.mem_append.1 hx with hx | hx
      · exact h3 x hx
      · rcases hw x hx with rfl | rfl <;> decide
  by_cases hs : saying l = []
  · unfold outline
    rw [List.filter_cons_of_neg (by rw [es]; simp [hs]), List.filter_cons_of_neg (by simp [hs])]
  · unfold outline
    rw [List.filter_cons_of_pos (by rw [es]; simp [hs]), List.filter_cons_of_pos (by simp [hs])]
    simp only [List.filter_nil, List.map_cons, List.map_nil, es, List.cons.injEq, Prod.mk.injEq, and_true]
    -- the line has a character that ends the indentation
    have hex : ∃ p x q, l = p ++ x :: q ∧ (∀ y ∈ p, y = 0x20#8 ∨ y = 0x09#8) ∧ ¬ (x = 0x20#8 ∨ x = 0x09#8) := by
      apply Classical.byContradiction
      intro hno
      apply hs
      have hall : ∀ l : List Byte, (¬ ∃ p x q, l = p ++ x :: q ∧ (∀ y ∈ p, y = 0x20#8 ∨ y = 0x09#8) ∧ ¬ (x = 0x20#8 ∨ x = 0x09#8)) → ∀ y ∈ l, y = 0x20#8 ∨ y = 0x09#8 := by
        intro l
        induction l with
        | nil => simp
        | cons z l ih =>
          intro hno
          by_cases hz : z = 0x20#8 ∨ z = 0x09#8
          · intro y hy
            rcases List.mem_cons.1 hy with rfl | hy
            · exact hz
            · refine ih ?_ y hy
              rintro ⟨p, x, q, rfl, h1, h2⟩
              refine hno ⟨z :: p, x, q, rfl, ?_, h2⟩
              intro y hy
              rcases List.mem_cons.1 hy with rfl | hy
              · exact hz
              · exact h1 y hy
          · exact absurd ⟨[], z, l, rfl, by simp, hz⟩ hno
      have hb := hall l hno
      unfold saying
      rw [takeWhile_hash hh, strip_eq_profile]
      refine Profile.trim_unique ⟨l, [], by simp, ?_, by simp, by simp, by simp⟩
      intro y hy
      rcases hb y hy with rfl | rfl <;> decide
    obtain ⟨p, x, q, rfl, h1, h2⟩ := hex
    unfold columns
    have t : ∀ q : List Byte, (p ++ x :: q).takeWhile (fun c => decide (c = 0x20#8 ∨ c = 0x09#8)) = p := by
      intro q
      refine takeWhile_of (fun y hy => by simpa using h1 y hy) ?_
      intro y hy
      simp only [List.head?_cons, Option.some.injEq] at hy
      subst hy
      simpa using h2
    have := t (q ++ w ++ c)
    rw [show p ++ x :: (q ++ w ++ c) = p ++ x :: q ++ w ++ c by simp] at this
    rw [this, t q]

/-- **C60, tabs.** In the indentation of a line a tab is four blanks. -/
theorem C60_tab (a p l b : List Byte) (ha : a = [] ∨ a.getLast? = some 0x0A#8) (hp : ∀ x ∈ p, x = 0x20#8 ∨ x = 0x09#8) (hl : 0x0A#8 ∉ l) :
    yamlParse (a ++ (p ++ 0x09#8 :: l) ++ 0x0A#8 :: b) = yamlParse (a ++ (p ++ List.replicate 4 0x20#8 ++ l) ++ 0x0A#8 :: b) := by
  have hpn : 0x0A#8 ∉ p := fun h => by rcases hp _ h with h | h <;> revert h <;> decide
  refine C60_outline _ _ ?_
  rw [outline_line ha (by simp [hpn, hl]), outline_line ha (by simp [hpn, hl])]
  congr 2
  have hph : 0x23#8 ∉ p := fun h => by rcases hp _ h with h | h <;> revert h <;> decide
  have hd : ∀ (u l : List Byte), (∀ x ∈ u, x = 0x20#8 ∨ x = 0x09#8) → saying (u ++ l) = saying l := by
    intro u l hu
    induction u with
    | nil => rfl
    | cons x u ih =>
      have hx := hu x (.head _)
      have : saying (x :: (u ++ l)) = saying (u ++ l) := by
        unfold saying strip
        rw [List.takeWhile_cons, if_pos (by rcases hx with rfl | rfl <;> decide), List.dropWhile_cons, if_pos (by rcases hx with rfl | rfl <;> decide)]
      rw [List.cons_append, this]
      exact ih fun y hy => hu y (.tail _ hy)
  have es : saying (p ++ 0x09#8 :: l) = saying (p ++ List.replicate 4 0x20#8 ++ l) := by
    have h1 := hd (p ++ [0x09#8]) l (by intro x hx; rcases List.mem_append.1 hx with hx | hx; exact hp x hx; simp at hx; exact Or.inr hx)
    have h2 := hd (p ++ List.replicate 4 0x20#8) l (by
      intro x hx
      rcases List.mem_append.1 hx with hx | hx
      · exact hp x hx
      · exact Or.inl (List.eq_of_mem_replicate hx))
    rw [h2, ← h1]
    simp
  have ec : columns (p ++ 0x09#8 :: l) = columns (p ++ List.replicate 4 0x20#8 ++ l) := by
    rw [← indentation_columns, ← indentation_columns, List.append_assoc]
    have : ∀ (u : List Byte), (∀ x ∈ u, x = 0x20#8 ∨ x = 0x09#8) → ∀ x y : List Byte, indentation x = indentation y → indentation (u ++ x) = indentation (u ++ y) := by
      intro u hu x y h
      induction u with
      | nil => exact h
      | cons z u ih =>
        have := ih fun y hy => hu y (.tail _ hy)
        simp only [List.cons_append, indentation, this]
    refine this p hp _ _ ?_
    simp only [List.replicate, List.cons_append, List.nil_append, indentation]
    rw [if_neg (by decide), if_pos trivial]
    simp only [if_true]
    omega
  unfold outline
  by_cases hs : saying (p ++ 0x09#8 :: l) = []
  · rw [List.filter_cons_of_neg (by simp [hs]), List.filter_cons_of_neg (by rw [← es]; simp [hs])]
  · rw [List.filter_cons_of_pos (by simp [hs]), List.filter_cons_of_pos (by rw [← es]; simp [hs])]
    simp [es, ec]

/-- **C60, documents.** A document of mappings and sequences of any depth, written with two columns of indentation for each level, is read back as what it is. -/
theorem C60_document (d : YDoc) (hg : d.Good) : yamlParse d.text = .ok d.node := by
  obtain ⟨f, hf⟩ := parse_doc d 0 [] hg (Or.inl rfl)
  rw [List.append_nil] at hf
  obtain ⟨n, hn⟩ := yamlParse_total d.text
  have h1 := hn _ (Nat.le_refl _)
  have h2 := hn _ (Nat.le_max_left (2 * (splitLines d.text).length + 2) f)
  rw [yamlParseFuel_eq _ (by omega), doc_lines hg, (parse_le (Nat.le_max_right _ f)).1 _ _ _ hf, Res.ok_bind, Res.ok.injEq] at h2
  unfold yamlParse
  rw [h1, ← h2]

/-- The key and the value of a line. -/
def okOr {α : Type} (d : α) : Res α → α
  | .ok a => a
  | _ => d

mutual
/-- The tree in a form that can be compared. -/
def shape : YNode → List (Nat × List Byte)
  | .null => [(0, [])]
  | .str s => [(1, s)]
  | .seq is => (2, []) :: shapeItems is ++ [(3, [])]
  | .map es => (4, []) :: shapeEntries es ++ [(5, [])]
def shapeItems : List YNode → List (Nat × List Byte)
  | [] => []
  | n :: ns => shape n ++ shapeItems ns
def shapeEntries : List (List Byte × YNode) → List (Nat × List Byte)
  | [] => []
  | e :: es => (6, e.1) :: shape e.2 ++ shapeEntries es
end

/-- **C60 fails for other indentations**: a nested mapping indented by four columns is read as an empty mapping, and the entries after it are lost. -/
theorem C60_deeper_lost : shape (okOr .null (yamlParse (ascii "a:\n    b: 1\nc: 2\n"))) =
    shape (.map [(ascii "a", .map [])]) := by decide +kernel

/-- **C60 fails for sequences at the column of their key**, which YAML allows: the value is empty and the entries after it are lost. -/
theorem C60_flat_sequence_lost : shape (okOr .null (yamlParse (ascii "a:\n- 1\n- 2\nc: 3\n"))) = shape (.map [(ascii "a", .null)]) := by decide +kernel

/-- **C60 fails for items that begin with a nested value**: the key is lost and what it holds is taken for entries of the item. -/
theorem C60_item_key_lost : shape (okOr .null (yamlParse (ascii "- a:\n    b: 1\n"))) = shape (.seq [.map [(ascii "b", .str (ascii "1"))]]) := by decide +kernel

/-- A header with two levels, a comment, a tab and an empty line. -/
def yamlExample : YDoc := .map (.scalar (ascii "width") (ascii "10")
  (.child (ascii "fields") (.seq (.map (ascii "name") (ascii "x") (.scalar (ascii "offset") (ascii "0") .nil) (.scalar (ascii "none") .nil)))
  (.scalar (ascii "end") (ascii "a: b") .nil)))

example : yamlExample.Good := by
  have p : ∀ s : List Byte, (s ≠ [] ∧ 0x0A#8 ∉ s ∧ 0x23#8 ∉ s ∧ (∀ c ∈ s.head?, isSpace c = false) ∧ ∀ c ∈ s.getLast?, isSpace c = false) → PlainText s :=
    fun s h => ⟨h.1, h.2.1, h.2.2.1, h.2.2.2.1, h.2.2.2.2⟩
  unfold yamlExample
  simp only [YDoc.Good, YEntries.Good, YItems.Good, GoodKey]
  refine ⟨by simp, ⟨⟨p _ ?_, ?_, ?_⟩, p _ ?_, ⟨⟨p _ ?_, ?_, ?_⟩, ⟨by simp, ⟨p _ ?_, ?_, ?_⟩, p _ ?_, ⟨⟨p _ ?_, ?_, ?_⟩, p _ ?_, trivial⟩, p _ ?_, ?_, trivial⟩, ⟨p _ ?_, ?_, ?_⟩, p _ ?_, trivial⟩⟩⟩ <;> decide +kernel

example : yamlExample.text = ascii "width: 10\nfields:\n  - name: x\n    offset: 0\n  - none\nend: a: b\n" := by decide +kernel
example : outline (splitLines (ascii "# header\nwidth: 10 # columns\n\nfields:\n  - name: x\n\toffset: 0\r\n  - none\nend: a: b")) = outline (splitLines yamlExample.text) := by
  decide +kernel

/-- The three changes on lines of a text. -/
example : yamlParse (ascii "width: 10\n" ++ ascii "  # a comment" ++ 0x0A#8 :: ascii "height: 1\n") = yamlParse (ascii "width: 10\n" ++ ascii "height: 1\n") :=
  C60_comment_line _ _ _ (.inr (by decide +kernel)) (by decide +kernel) ⟨ascii "  ", ascii "# a comment", by decide +kernel, by decide +kernel, .inr (by decide +kernel)⟩
example : yamlParse (ascii "width: 10\n" ++ (ascii "height: 1" ++ ascii " \t" ++ ascii "# rows") ++ 0x0A#8 :: []) =
    yamlParse (ascii "width: 10\n" ++ ascii "height: 1" ++ 0x0A#8 :: []) :=
  C60_trailing _ _ _ _ _ (.inr (by decide +kernel)) (by decide +kernel) (by decide +kernel) (by decide +kernel) (.inr (by decide +kernel)) (by decide +kernel)
example : yamlParse (ascii "fields:\n" ++ ([] ++ 0x09#8 :: ascii "- none") ++ 0x0A#8 :: []) =
    yamlParse (ascii "fields:\n" ++ ([] ++ List.replicate 4 0x20#8 ++ ascii "- none") ++ 0x0A#8 :: []) :=
  C60_tab _ [] _ _ (.inr (by decide +kernel)) (by simp) (by decide +kernel)

end Cloudini.Props
