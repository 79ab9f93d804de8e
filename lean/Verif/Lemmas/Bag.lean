import Verif.Spec.Bag

namespace Cloudini.Bag

theorem findAt_some {pat s : List Byte} {i : Nat} (hp : pat ≠ []) (h : findAt pat s = some i) :
    First pat s (s.take i) (s.drop (i + pat.length)) := by
  induction s generalizing i with
  | nil => unfold findAt at h; rw [if_neg hp] at h; cases h
  | cons c s ih =>
    unfold findAt at h
    by_cases hpre : pat.isPrefixOf (c :: s) = true
    · rw [if_pos hpre] at h
      cases h
      obtain ⟨t, ht⟩ := List.isPrefixOf_iff_prefix.1 hpre
      refine ⟨?_, fun _ _ _ => by simp⟩
      rw [← ht]
      simp
    · rw [if_neg hpre] at h
      cases hf : findAt pat s with
      | none => rw [hf] at h; cases h
      | some j =>
        rw [hf] at h
        simp only [Option.map_some, Option.some.injEq] at h
        subst h
        obtain ⟨h1, h2⟩ := ih hf
        refine ⟨?_, ?_⟩
        · rw [show j + 1 + pat.length = (j + pat.length) + 1 by omega]
          simp only [List.take_succ_cons, List.drop_succ_cons, List.cons_append]
          rw [← h1]
        · intro a' b' e
          cases a' with
          | nil =>
            exact absurd (List.isPrefixOf_iff_prefix.2 ⟨b', by simpa using e.symm⟩) hpre
          | cons x a' =>
            simp only [List.cons_append, List.cons.injEq] at e
            have := h2 a' b' e.2
            simp only [List.take_succ_cons, List.length_cons]
            omega

theorem findAt_none {pat s : List Byte} (hp : pat ≠ []) (h : findAt pat s = none) : ¬ Occurs pat s := by
  induction s with
  | nil =>
    rintro ⟨a, b, e⟩
    have := congrArg List.length e
    have h2 : 0 < pat.length := List.length_pos_iff.2 hp
    simp only [List.length_nil, List.length_append] at this
    omega
  | cons c s ih =>
    unfold findAt at h
    by_cases hpre : pat.isPrefixOf (c :: s) = true
    · rw [if_pos hpre] at h; cases h
    · rw [if_neg hpre] at h
      have hf : findAt pat s = none := by
        cases hf : findAt pat s with
        | none => rfl
        | some j => rw [hf] at h; cases h
      rintro ⟨a, b, e⟩
      cases a with
      | nil => exact hpre (List.isPrefixOf_iff_prefix.2 ⟨b, by simpa using e.symm⟩)
      | cons x a =>
        simp only [List.cons_append, List.cons.injEq] at e
        exact ih hf ⟨a, b, e.2⟩

theorem First.unique {pat s a b a' b' : List Byte} (h : First pat s a b) (h' : First pat s a' b') : a = a' ∧ b = b' := by
  have hl : a.length = a'.length := Nat.le_antisymm (h.2 _ _ h'.1) (h'.2 _ _ h.1)
  have e : a ++ pat ++ b = a' ++ pat ++ b' := by rw [← h.1, ← h'.1]
  rw [List.append_assoc, List.append_assoc] at e
  obtain ⟨e1, e2⟩ := List.append_inj e hl
  exact ⟨e1, List.append_cancel_left e2⟩

theorem Replaced.unique {pat to s r r' : List Byte} (h : Replaced pat to s r) (h' : Replaced pat to s r') : r = r' := by
  induction h generalizing r' with
  | none hn =>
    cases h' with
    | none _ => rfl
    | some hf _ => exact absurd ⟨_, _, hf.1⟩ hn
  | some hf _ ih =>
    cases h' with
    | none hn => exact absurd ⟨_, _, hf.1⟩ hn
    | some hf' hr' =>
      obtain ⟨e1, e2⟩ := hf.unique hf'
      subst e1 e2
      rw [ih hr']

theorem replaceLoop_spec {pat to : List Byte} (hp : pat ≠ []) : ∀ (n : Nat) (done s : List Byte), s.length = n →
    ∃ r, replaceLoop pat to (done ++ s) done.length = done ++ r ∧ Replaced pat to s r := by
  intro n
  induction n using Nat.strongRecOn with
  | _ n ih =>
    intro done s hn
    unfold replaceLoop
    rw [dif_neg hp]
    have hdrop : (done ++ s).drop done.length = s := by simp
    split
    · rename_i h
      unfold find at h
      rw [hdrop] at h
      refine ⟨s, rfl, .none (findAt_none hp ?_)⟩
      cases hf : findAt pat s with
      | none => rfl
      | some j => rw [hf] at h; cases h
    · rename_i p h
      unfold find at h
      rw [hdrop] at h
      cases hf : findAt pat s with
      | none => rw [hf] at h; cases h
      | some j =>
        rw [hf] at h
        simp only [Option.map_some, Option.some.injEq] at h
        have hF := findAt_some hp hf
        have hle := findAt_le pat s j hf
        have hpos : 0 < pat.length := List.length_pos_iff.2 hp
        have e1 : (done ++ s).take p = done ++ s.take j := by
          subst h
          rw [List.take_append, List.take_of_length_le (by omega)]
          congr 2
          omega
        have e2 : (done ++ s).drop (p + pat.length) = s.drop (j + pat.length) := by
          rw [← h, List.drop_append]
          have : List.drop (j + done.length + pat.length) done = [] := by simp; omega
          rw [this]
          simp only [List.nil_append]
          congr 1
          omega
        rw [e1, e2]
        obtain ⟨r, hr1, hr2⟩ := ih (s.drop (j + pat.length)).length (by simp only [List.length_drop]; omega) (done ++ s.take j ++ to)
          (s.drop (j + pat.length)) rfl
        refine ⟨s.take j ++ to ++ r, ?_, .some hF hr2⟩
        have hlen : p + to.length = (done ++ s.take j ++ to).length := by
          simp only [List.length_append, List.length_take]
          omega
        rw [hlen, hr1]
        simp [List.append_assoc]

theorem replaceAll_iff {pat to s r : List Byte} (hp : pat ≠ []) : replaceAll s pat to = r ↔ Replaced pat to s r := by
  obtain ⟨r', h1, h2⟩ := replaceLoop_spec (to := to) hp s.length [] s rfl
  have e : replaceAll s pat to = r' := by
    unfold replaceAll
    simpa using h1
  rw [e]
  exact ⟨fun h => h ▸ h2, fun h => h2.unique h⟩

/-- An occurrence of an unbordered `to` in `a ++ to ++ r` before `a` lies within `a`. -/
theorem first_inserted {to a r : List Byte} (hb : Unbordered to) (ha : ¬ Occurs to a) : First to (a ++ to ++ r) a r := by
  refine ⟨rfl, ?_⟩
  intro a' b' e
  apply Classical.byContradiction
  intro hlt
  have hlt : a'.length < a.length := Nat.lt_of_not_le hlt
  by_cases hin : a'.length + to.length ≤ a.length
  · apply ha
    have e' := congrArg (List.take a.length) e
    rw [List.append_assoc, List.take_left'] at e'
    · refine ⟨a', b'.take (a.length - (a' ++ to).length), ?_⟩
      conv => lhs; rw [e', List.take_append]
      congr 1
      apply List.take_of_length_le
      simpa using hin
    · rfl
  · have hk : ∃ k, k = a'.length + to.length - a.length := ⟨_, rfl⟩
    obtain ⟨k, hk⟩ := hk
    refine hb k (by omega) (by omega) ?_
    have e1 : ((a ++ to ++ r).drop a.length).take k = to.take k := by
      rw [List.append_assoc, List.drop_left, List.take_append_of_le_length (by omega)]
    have e2 : ((a' ++ to ++ b').drop a.length).take k = to.drop (to.length - k) := by
      rw [List.append_assoc, List.drop_append]
      have : List.drop a.length a' = [] := by simp; omega
      rw [this, List.nil_append]
      rw [List.drop_append_of_le_length (by omega)]
      rw [List.take_append_of_le_length (by simp only [List.length_drop]; omega)]
      rw [List.take_of_length_le (by simp only [List.length_drop]; omega)]
      congr 1
      omega
    rw [← e1, e, e2]

theorem Occurs.left {to a b : List Byte} (h : Occurs to a) : Occurs to (a ++ b) := by
  obtain ⟨x, y, rfl⟩ := h
  exact ⟨x, y ++ b, by simp [List.append_assoc]⟩

theorem Occurs.right {to a b : List Byte} (h : Occurs to b) : Occurs to (a ++ b) := by
  obtain ⟨x, y, rfl⟩ := h
  exact ⟨a ++ x, y, by simp [List.append_assoc]⟩

theorem Replaced.inverse {pat to s r : List Byte} (hb : Unbordered to) (hs : ¬ Occurs to s) (h : Replaced pat to s r) : Replaced to pat r s := by
  induction h with
  | none _ => exact .none hs
  | @some s a b r hf _ ih =>
    have e := hf.1
    subst e
    exact .some (first_inserted hb fun h => hs (h.left.left)) (ih fun h => hs h.right)

theorem dropWhile_head {p : Byte → Bool} : ∀ {l : List Byte} {c : Byte}, (l.dropWhile p).head? = some c → p c = false := by
  intro l
  induction l with
  | nil => intro c h; cases h
  | cons x l ih =>
    intro c h
    rw [List.dropWhile_cons] at h
    split at h
    · exact ih h
    · rename_i hx
      simp only [List.head?_cons, Option.some.injEq] at h
      rw [← h]
      simpa using hx

theorem takeWhile_all {p : Byte → Bool} : ∀ {l : List Byte} {c : Byte}, c ∈ l.takeWhile p → p c = true := by
  intro l
  induction l with
  | nil => intro c h; cases h
  | cons x l ih =>
    intro c h
    rw [List.takeWhile_cons] at h
    split at h
    · rename_i hx
      rcases List.mem_cons.1 h with e | e
      · rw [e]; exact hx
      · exact ih e
    · cases h

theorem dropBlankEnd_spec (s : List Byte) : EndTrimmed s (dropBlankEnd s) := by
  unfold dropBlankEnd
  refine ⟨(s.reverse.takeWhile fun c => decide (c = 32#8 ∨ c = 13#8)).reverse, ?_, ?_, ?_⟩
  · rw [← List.reverse_append, List.takeWhile_append_dropWhile, List.reverse_reverse]
  · intro c hc
    have := takeWhile_all (List.mem_reverse.1 hc)
    simpa using this
  · intro c hc
    rw [List.getLast?_reverse] at hc
    have := dropWhile_head hc
    simpa using this

theorem EndTrimmed.unique {s a b : List Byte} (h : EndTrimmed s a) (h' : EndTrimmed s b) : a = b := by
  obtain ⟨t, e, ht, ha⟩ := h
  obtain ⟨t', e', ht', hb⟩ := h'
  have key : ∀ {x y u v : List Byte}, x ++ u = y ++ v → (∀ c, x.getLast? = some c → c ≠ 32#8 ∧ c ≠ 13#8) → (∀ c ∈ v, c = 32#8 ∨ c = 13#8) →
      x.length ≤ y.length := by
    intro x y u v e hx hv
    apply Classical.byContradiction
    intro hlt
    have hlt : y.length < x.length := Nat.lt_of_not_le hlt
    obtain ⟨z, hz⟩ : ∃ z, x = y ++ z := by
      refine ⟨x.drop y.length, ?_⟩
      have := congrArg (List.take y.length) e
      rw [List.take_append_of_le_length (by omega), List.take_left'] at this
      · exact (List.take_append_drop y.length x).symm.trans (by rw [this])
      · rfl
    subst hz
    rw [List.append_assoc] at e
    have e := List.append_cancel_left e
    have hz : z ≠ [] := by intro h; subst h; simp at hlt
    have hm : z.getLast hz ∈ v := by rw [← e]; exact List.mem_append_left _ (List.getLast_mem hz)
    have := hx (z.getLast hz) (by rw [List.getLast?_append, List.getLast?_eq_some_getLast hz]; rfl)
    rcases hv _ hm with h | h
    · exact this.1 h
    · exact this.2 h
  have hl : a.length = b.length := Nat.le_antisymm (key (by rw [← e, ← e']) ha ht') (key (by rw [← e, ← e']) hb ht)
  exact (List.append_inj (by rw [← e, ← e']) hl).1

theorem find_some {pat s : List Byte} {pos p : Nat} (hp : pat ≠ []) (h : find pat s pos = some p) :
    pos ≤ p ∧ First pat (s.drop pos) ((s.drop pos).take (p - pos)) (s.drop (p + pat.length)) := by
  unfold find at h
  cases hf : findAt pat (s.drop pos) with
  | none => rw [hf] at h; cases h
  | some j =>
    rw [hf] at h
    simp only [Option.map_some, Option.some.injEq] at h
    subst h
    have := findAt_some hp hf
    rw [List.drop_drop] at this
    refine ⟨by omega, ?_⟩
    rw [show j + pos - pos = j by omega, show j + pos + pat.length = pos + (j + pat.length) by omega]
    exact this

theorem find_none {pat s : List Byte} {pos : Nat} (hp : pat ≠ []) (h : find pat s pos = none) : ¬ Occurs pat (s.drop pos) := by
  unfold find at h
  apply findAt_none hp
  cases hf : findAt pat (s.drop pos) with
  | none => rfl
  | some j => rw [hf] at h; cases h

theorem FirstFile.unique {s l l' : List Byte} (h : FirstFile s l) (h' : FirstFile s l') : l = l' := by
  obtain ⟨a, b, c, d, r, h1, h2, h3, h4, h5⟩ := h
  obtain ⟨a', b', c', d', r', h1', h2', h3', h4', h5'⟩ := h'
  obtain ⟨ea, eb⟩ := h1.unique h1'
  subst ea eb
  obtain ⟨ec, ed⟩ := h2.unique h2'
  subst ec ed
  have key : ∀ {x y u v : List Byte}, x ++ u = y ++ v → 10#8 ∉ x → (v = [] ∨ ∃ t, v = 10#8 :: t) → x.length ≤ y.length := by
    intro x y u v e hx hv
    apply Classical.byContradiction
    intro hlt
    have hlt : y.length < x.length := Nat.lt_of_not_le hlt
    rcases hv with hv | ⟨t, hv⟩
    · subst hv
      have := congrArg List.length e
      simp only [List.length_append, List.length_nil] at this
      omega
    · subst hv
      apply hx
      have h1 : (x ++ u)[y.length]? = some 10#8 := by rw [e]; simp
      rw [List.getElem?_append_left hlt] at h1
      exact List.mem_of_getElem? h1
  have e : l ++ r = l' ++ r' := by rw [← h3, ← h3']
  have hl : l.length = l'.length := Nat.le_antisymm (key e h4 h5') (key e.symm h4' h5)
  exact (List.append_inj e hl).1

theorem mem_first {c : Byte} {s a b : List Byte} (h : First [c] s a b) : c ∉ a := by
  intro hm
  obtain ⟨x, y, e⟩ := List.append_of_mem hm
  have h1 := h.2 x (y ++ [c] ++ b) (by rw [h.1, e]; simp [List.append_assoc])
  rw [e] at h1
  simp only [List.length_append, List.length_cons] at h1
  omega

theorem firstFile_some {s line : List Byte} (h : firstFile s = some line) : FirstFile s line := by
  unfold firstFile at h
  cases h1 : find (ascii "relative_file_paths:") s 0 with
  | none => rw [h1] at h; cases h
  | some rfp =>
    rw [h1] at h
    simp only at h
    obtain ⟨-, hF1⟩ := find_some (by decide +kernel) h1
    simp only [List.drop_zero, Nat.sub_zero] at hF1
    have e1 : s.drop rfp = ascii "relative_file_paths:" ++ s.drop (rfp + (ascii "relative_file_paths:").length) := by
      have hle : rfp ≤ s.length := by
        apply Classical.byContradiction
        intro hlt
        have h2 := congrArg List.length hF1.1
        have h3 : (ascii "relative_file_paths:").length = 20 := by decide +kernel
        simp only [List.length_append, List.length_take, List.length_drop, h3] at h2
        omega
      conv => lhs; rw [hF1.1]
      rw [List.append_assoc, List.drop_left']
      rw [List.length_take]; omega
    cases h2 : find (ascii "- ") s rfp with
    | none => rw [h2] at h; cases h
    | some dash =>
      rw [h2] at h
      simp only at h
      obtain ⟨hle, hF2⟩ := find_some (by decide +kernel) h2
      rw [e1, show (ascii "- ").length = 2 by decide +kernel] at hF2
      cases h3 : find (ascii "\n") s (dash + 2) with
      | none =>
        rw [h3] at h
        cases h
        refine ⟨_, _, _, _, [], hF1, hF2, (List.append_nil _).symm, ?_, Or.inl rfl⟩
        have := find_none (by decide +kernel) h3
        intro hm
        obtain ⟨x, y, e⟩ := List.append_of_mem hm
        exact this ⟨x, y, by rw [e, show ascii "\n" = [10#8] by decide +kernel]; simp⟩
      | some q =>
        rw [h3] at h
        cases h
        obtain ⟨hle', hF3⟩ := find_some (by decide +kernel) h3
        rw [show ascii "\n" = [10#8] by decide +kernel] at hF3
        refine ⟨_, _, _, _, 10#8 :: s.drop (q + [10#8].length), hF1, hF2, ?_, mem_first hF3, Or.inr ⟨_, rfl⟩⟩
        conv => lhs; rw [hF3.1]
        rw [List.append_assoc]
        rfl

theorem firstFile_none {s line : List Byte} (h : firstFile s = none) : ¬ FirstFile s line := by
  rintro ⟨a, b, c, d, r, h1, h2, -, -, -⟩
  unfold firstFile at h
  cases g1 : find (ascii "relative_file_paths:") s 0 with
  | none => exact find_none (by decide +kernel) g1 ⟨a, b, by simpa using h1.1⟩
  | some rfp =>
    rw [g1] at h
    simp only at h
    obtain ⟨-, hF1⟩ := find_some (by decide +kernel) g1
    simp only [List.drop_zero, Nat.sub_zero] at hF1
    obtain ⟨ea, -⟩ := h1.unique hF1
    have e1 : s.drop rfp = ascii "relative_file_paths:" ++ b := by
      have hle : rfp ≤ s.length := by
        apply Classical.byContradiction
        intro hlt
        have h2 := congrArg List.length hF1.1
        have h3 : (ascii "relative_file_paths:").length = 20 := by decide +kernel
        simp only [List.length_append, List.length_take, List.length_drop, h3] at h2
        omega
      conv => lhs; rw [h1.1]
      rw [List.append_assoc, List.drop_left']
      rw [ea, List.length_take]; omega
    cases g2 : find (ascii "- ") s rfp with
    | none => exact find_none (by decide +kernel) g2 ⟨c, d, by rw [e1]; exact h2.1⟩
    | some dash =>
      rw [g2] at h
      simp only at h
      split at h <;> cases h

/-! ### places -/

theorem resolve_noUp {ds : Dirs} : ∀ (p : List Comp) (at_ : List (List Byte)), .dotdot ∉ p → ∀ d, resolve ds at_ p = some d → d = at_ ∨ d ∈ ds := by
  intro p
  induction p with
  | nil => intro at_ _ d h; cases h; exact Or.inl rfl
  | cons x p ih =>
    intro at_ hn d h
    have hn' : Comp.dotdot ∉ p := fun hm => hn (List.mem_cons_of_mem _ hm)
    cases x with
    | dot => exact ih at_ hn' d h
    | dotdot => exact absurd (List.mem_cons_self ..) hn
    | name n =>
      unfold resolve at h
      split at h
      · rename_i hm
        rcases ih _ hn' d h with e | e
        · exact Or.inr (e ▸ hm)
        · exact Or.inr e
      · cases h

/-- The names of a path without "..". -/
def names : List Comp → List (List Byte)
  | [] => []
  | .name n :: p => n :: names p
  | _ :: p => names p

theorem resolve_names {ds : Dirs} : ∀ (p : List Comp) (at_ : List (List Byte)), .dotdot ∉ p → ∀ d, resolve ds at_ p = some d → d = at_ ++ names p := by
  intro p
  induction p with
  | nil => intro at_ _ d h; cases h; simp [names]
  | cons x p ih =>
    intro at_ hn d h
    have hn' : Comp.dotdot ∉ p := fun hm => hn (List.mem_cons_of_mem _ hm)
    cases x with
    | dot => exact ih at_ hn' d h
    | dotdot => exact absurd (List.mem_cons_self ..) hn
    | name n =>
      unfold resolve at h
      split at h
      · rw [ih _ hn' d h]; simp [names]
      · cases h

/-- In a closed set of directories every beginning of a directory exists. -/
theorem Closed.prefix {ds : Dirs} (hc : Closed ds) : ∀ (m : Nat) (q : List (List Byte)) (d : List (List Byte)), q.length = m → d ≠ [] →
    d ++ q ∈ ds → d ∈ ds := by
  intro m
  induction m with
  | zero =>
    intro q d hq _ h
    rw [List.length_eq_zero_iff.1 hq] at h
    simpa using h
  | succ m ih =>
    intro q d hq hd h
    have hne : q ≠ [] := by intro e; subst e; cases hq
    rw [← List.dropLast_concat_getLast hne, ← List.append_assoc] at h
    rcases hc _ _ h with e | e
    · simp only [List.append_eq_nil_iff] at e; exact absurd e.1 hd
    · exact ih _ d (by rw [List.length_dropLast]; omega) hd e

theorem resolve_exists {ds : Dirs} (hc : Closed ds) : ∀ (p : List Comp) (at_ : List (List Byte)), .dotdot ∉ p →
    (names p = [] ∨ at_ ++ names p ∈ ds) → resolve ds at_ p = some (at_ ++ names p) := by
  intro p
  induction p with
  | nil => intro at_ _ _; simp [resolve, names]
  | cons x p ih =>
    intro at_ hn h
    have hn' : Comp.dotdot ∉ p := fun hm => hn (List.mem_cons_of_mem _ hm)
    cases x with
    | dot => exact ih at_ hn' h
    | dotdot => exact absurd (List.mem_cons_self ..) hn
    | name n =>
      simp only [names] at h ⊢
      have h : at_ ++ n :: names p ∈ ds := by
        rcases h with h | h
        · cases h
        · exact h
      have e : at_ ++ n :: names p = (at_ ++ [n]) ++ names p := by simp
      rw [e] at h ⊢
      have hm : at_ ++ [n] ∈ ds := hc.prefix _ _ _ rfl (by simp) h
      unfold resolve
      rw [if_pos hm]
      exact ih _ hn' (Or.inr h)

end Cloudini.Bag
