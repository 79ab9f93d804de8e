import Verif.Lemmas.Text
import Verif.Spec.Profile
import Verif.Lemmas.Pcd

/-!
# Lemmas on profiles
-/

namespace Cloudini.Profile

/-! ### the order on strings -/

theorem strLt_irrefl (a : List Byte) : strLt a a = false := by
  induction a with
  | nil => rfl
  | cons x a ih => simp [strLt, ih]

theorem strLt_trans {a b c : List Byte} (h1 : strLt a b = true) (h2 : strLt b c = true) : strLt a c = true := by
  induction a generalizing b c with
  | nil =>
    cases b with
    | nil => cases h1
    | cons y b => cases c with
      | nil => cases h2
      | cons z c => rfl
  | cons x a ih =>
    cases b with
    | nil => cases h1
    | cons y b => cases c with
      | nil => cases h2
      | cons z c =>
        simp only [strLt] at *
        split at h1
        · split at h2
          · rw [if_pos (by omega)]
          · split at h2
            · cases h2
            · rw [if_pos (by omega)]
        · split at h1
          · cases h1
          · split at h2
            · rw [if_pos (by omega)]
            · split at h2
              · cases h2
              · rw [if_neg (by omega), if_neg (by omega)]; exact ih h1 h2

theorem strLt_total {a b : List Byte} (h : a ≠ b) (h' : strLt a b = false) : strLt b a = true := by
  induction a generalizing b with
  | nil => cases b with
    | nil => exact absurd rfl h
    | cons y b => cases h'
  | cons x a ih => cases b with
    | nil => rfl
    | cons y b =>
      simp only [strLt] at *
      split at h'
      · cases h'
      · split at h'
        · rw [if_pos (by omega)]
        · have hxy : x = y := BitVec.eq_of_toNat_eq (by omega)
          subst hxy
          rw [if_neg (by omega), if_neg (by omega)]
          exact ih (by rintro rfl; exact h rfl) h'

/-! ### the map -/

/-- Keys strictly increasing. -/
def Sorted (m : Map) : Prop := m.Pairwise fun a b => strLt a.1 b.1 = true

theorem get_put (k k' : List Byte) (v : BitVec 32) (m : Map) : get (put k v m) k' = if k' = k then some v else get m k' := by
  induction m with
  | nil =>
    by_cases h : k' = k
    · subst h; simp [put, get]
    · simp [put, get, h, Ne.symm h]
  | cons e m ih =>
    obtain ⟨a, b⟩ := e
    simp only [put]
    by_cases h : k = a
    · subst h
      rw [if_pos rfl]
      by_cases h' : k' = k
      · subst h'; simp [get]
      · simp [get, h', Ne.symm h']
    · rw [if_neg h]
      by_cases hl : strLt k a = true
      · rw [if_pos hl]
        by_cases h' : k' = k
        · subst h'; simp [get]
        · simp [get, h', Ne.symm h']
      · rw [if_neg hl]
        have hc : ∀ (r : Map), get ((a, b) :: r) k' = if a = k' then some b else get r k' := by
          intro r
          by_cases ha : a = k'
          · simp [get, ha]
          · simp [get, ha]
        rw [hc, hc, ih]
        by_cases h' : k' = k
        · subst h'; rw [if_neg (Ne.symm h)]; simp
        · simp [h']

theorem mem_put {k : List Byte} {v : BitVec 32} {m : Map} {e : List Byte × BitVec 32} (h : e ∈ put k v m) : e = (k, v) ∨ e ∈ m := by
  induction m with
  | nil => simp only [put, List.mem_singleton] at h; exact Or.inl h
  | cons a m ih =>
    obtain ⟨a, b⟩ := a
    simp only [put] at h
    split at h
    · rcases List.mem_cons.1 h with h | h
      · exact Or.inl h
      · exact Or.inr (.tail _ h)
    · split at h
      · rcases List.mem_cons.1 h with h | h
        · exact Or.inl h
        · exact Or.inr h
      · rcases List.mem_cons.1 h with h | h
        · exact Or.inr (by rw [h]; exact .head _)
        · rcases ih h with h | h
          · exact Or.inl h
          · exact Or.inr (.tail _ h)

theorem sorted_put {k : List Byte} {v : BitVec 32} {m : Map} (h : Sorted m) : Sorted (put k v m) := by
  induction m with
  | nil => simp [put, Sorted]
  | cons a m ih =>
    obtain ⟨a, b⟩ := a
    obtain ⟨h1, h2⟩ := List.pairwise_cons.1 h
    simp only [put]
    by_cases e : k = a
    · subst e
      rw [if_pos rfl]
      exact List.pairwise_cons.2 ⟨h1, h2⟩
    · rw [if_neg e]
      by_cases hl : strLt k a = true
      · rw [if_pos hl]
        refine List.pairwise_cons.2 ⟨fun x hx => ?_, h⟩
        rcases List.mem_cons.1 hx with rfl | hx
        · exact hl
        · exact strLt_trans hl (h1 x hx)
      · rw [if_neg hl]
        refine List.pairwise_cons.2 ⟨fun x hx => ?_, ih h2⟩
        rcases mem_put hx with rfl | hx
        · exact strLt_total e (by simpa using hl)
        · exact h1 x hx

theorem sorted_assign {f : List Byte} {r : BitVec 32} {m : Map} (h : Sorted m) : Sorted (assign f r m) := by
  unfold assign
  split
  · exact sorted_put (sorted_put (sorted_put h))
  · exact sorted_put h

theorem sorted_addEntries (stof : List Byte → Res (BitVec 32)) (ts : List (List Byte)) {m : Map} (h : Sorted m) : Sorted (addEntries stof ts m).1 := by
  induction ts generalizing m with
  | nil => exact h
  | cons t ts ih =>
    simp only [addEntries]
    split
    · split
      · exact ih (sorted_assign h)
      · exact h
      · exact h
    · exact h

theorem get_mem {m : Map} {k : List Byte} {v : BitVec 32} (h : get m k = some v) : (k, v) ∈ m := by
  unfold get at h
  cases hf : m.find? (fun e => decide (e.1 = k)) with
  | none => rw [hf] at h; cases h
  | some e =>
    rw [hf] at h
    cases h
    have h1 := List.mem_of_find?_eq_some hf
    have h2 := List.find?_some hf
    simp only [decide_eq_true_eq] at h2
    subst h2
    exact h1

theorem get_of_mem {m : Map} (hs : Sorted m) {k : List Byte} {v : BitVec 32} (h : (k, v) ∈ m) : get m k = some v := by
  induction m with
  | nil => cases h
  | cons e m ih =>
    obtain ⟨h1, h2⟩ := List.pairwise_cons.1 hs
    rcases List.mem_cons.1 h with rfl | h
    · simp [get]
    · have hne : e.1 ≠ k := by
        rintro he
        have := h1 _ h
        rw [he, strLt_irrefl] at this
        cases this
      have := ih h2 h
      unfold get at *
      rw [List.find?_cons_of_neg (by simpa using hne)]
      exact this

/-! ### trimming -/

theorem dropWhile_split (s : List Byte) : ∃ a, s = a ++ s.dropWhile isSpace ∧ (∀ c ∈ a, isSpace c = true) ∧ ∀ c, (s.dropWhile isSpace).head? = some c → isSpace c = false := by
  induction s with
  | nil => exact ⟨[], rfl, by simp, by simp⟩
  | cons x s ih =>
    by_cases hx : isSpace x = true
    · obtain ⟨a, h1, h2, h3⟩ := ih
      refine ⟨x :: a, ?_, ?_, ?_⟩
      · rw [List.dropWhile_cons, if_pos hx, List.cons_append, ← h1]
      · intro c hc
        rcases List.mem_cons.1 hc with rfl | hc
        · exact hx
        · exact h2 c hc
      · rw [List.dropWhile_cons, if_pos hx]; exact h3
    · refine ⟨[], by rw [List.dropWhile_cons, if_neg hx]; rfl, by simp, ?_⟩
      rw [List.dropWhile_cons, if_neg hx]
      intro c hc
      simp only [List.head?_cons, Option.some.injEq] at hc
      subst hc
      simpa using hx

theorem dropWhile_of {a s : List Byte} (ha : ∀ c ∈ a, isSpace c = true) (hs : ∀ c, s.head? = some c → isSpace c = false) : (a ++ s).dropWhile isSpace = s := by
  induction a with
  | nil =>
    cases s with
    | nil => rfl
    | cons x s =>
      have := hs x rfl
      rw [List.nil_append, List.dropWhile_cons, if_neg (by simp [this])]
  | cons x a ih =>
    rw [List.cons_append, List.dropWhile_cons, if_pos (ha x (.head _))]
    exact ih fun c hc => ha c (.tail _ hc)

theorem trimmed_trim (s : List Byte) : Trimmed s (trim s) := by
  obtain ⟨a, h1, h2, h3⟩ := dropWhile_split s
  obtain ⟨b, h4, h5, h6⟩ := dropWhile_split (s.dropWhile isSpace).reverse
  have e : s.dropWhile isSpace = trim s ++ b.reverse := by
    have := congrArg List.reverse h4
    simpa [trim, trimFront] using this
  refine ⟨a, b.reverse, ?_, fun c hc => (isSpace_iff c).1 (h2 c hc), fun c hc => (isSpace_iff c).1 (h5 c (by simpa using hc)), fun c hc => (isSpace_false_iff c).1 ?_,
    fun c hc => (isSpace_false_iff c).1 ?_⟩
  · conv => lhs; rw [h1, e]
    simp
  · refine h3 c ?_
    rw [e]
    cases ht : trim s with
    | nil => rw [ht] at hc; cases hc
    | cons x t => rw [ht] at hc; exact hc
  · refine h6 c ?_
    unfold trim trimFront at hc
    rw [List.getLast?_reverse] at hc
    exact hc

theorem trim_unique {s t : List Byte} (h : Trimmed s t) : trim s = t := by
  obtain ⟨a, b, rfl, h1, h2, h3, h4⟩ := h
  replace h1 : ∀ c ∈ a, isSpace c = true := fun c hc => (isSpace_iff c).2 (h1 c hc)
  replace h2 : ∀ c ∈ b, isSpace c = true := fun c hc => (isSpace_iff c).2 (h2 c hc)
  replace h3 : ∀ c, t.head? = some c → isSpace c = false := fun c hc => (isSpace_false_iff c).2 (h3 c hc)
  replace h4 : ∀ c, t.getLast? = some c → isSpace c = false := fun c hc => (isSpace_false_iff c).2 (h4 c hc)
  cases t with
  | nil =>
    have hall : ∀ c ∈ a ++ [] ++ b, isSpace c = true := by
      intro c hc
      simp only [List.append_nil, List.mem_append] at hc
      rcases hc with hc | hc
      · exact h1 c hc
      · exact h2 c hc
    have := dropWhile_of (s := []) hall (by simp)
    rw [List.append_nil] at this
    simp only [trim, trimFront, this]
    rfl
  | cons x t =>
    have e1 : (a ++ (x :: t) ++ b).dropWhile isSpace = (x :: t) ++ b := by
      rw [List.append_assoc]
      refine dropWhile_of h1 ?_
      intro c hc
      exact h3 c (by simpa using hc)
    have e2 : ((x :: t) ++ b).reverse.dropWhile isSpace = (x :: t).reverse := by
      rw [List.reverse_append]
      refine dropWhile_of (fun c hc => h2 c (by simpa using hc)) ?_
      intro c hc
      rw [List.head?_reverse] at hc
      exact h4 c hc
    simp only [trim, trimFront, e1, e2, List.reverse_reverse]

/-! ### entries -/

theorem split_two {d : Byte} {s a b : List Byte} : split d s = [a, b] ↔ s = a ++ d :: b ∧ d ∉ a ∧ d ∉ b := by
  constructor
  · intro h
    obtain ⟨-, h2, h3⟩ := split_pieces d s
    rw [h] at h2 h3
    exact ⟨by rw [h3]; simp [List.intercalate, List.intersperse], h2 a (.head _), h2 b (.tail _ (.head _))⟩
  · rintro ⟨rfl, h1, h2⟩
    rw [split_append h1, split_nil_of_notMem h2]

theorem isEntry_iff (stof : List Byte → Res (BitVec 32)) (t : List Byte) (e : List Byte × BitVec 32) :
    IsEntry stof t e ↔ ∃ a b, split 58#8 t = [a, b] ∧ trim a = e.1 ∧ value stof (trim b) = .ok e.2 := by
  constructor
  · rintro ⟨a, b, v, h1, h2, h3, h4, h5, h6⟩
    refine ⟨a, b, split_two.2 ⟨h1, h2, h3⟩, trim_unique h4, ?_⟩
    rw [trim_unique h5]
    unfold value
    rcases h6 with ⟨h6, h7⟩ | ⟨h6, h7⟩
    · rw [if_pos h6, h7]
    · rw [if_neg h6, h7]
  · rintro ⟨a, b, h1, h2, h3⟩
    obtain ⟨h4, h5, h6⟩ := split_two.1 h1
    refine ⟨a, b, trim b, h4, h5, h6, by rw [← h2]; exact trimmed_trim a, trimmed_trim b, ?_⟩
    unfold value at h3
    split at h3
    · rename_i hr; exact Or.inl ⟨hr, (Res.ok.inj h3).symm⟩
    · rename_i hr; exact Or.inr ⟨hr, h3⟩

theorem addEntries_iff (stof : List Byte → Res (BitVec 32)) (ts : List (List Byte)) (m m' : Map) :
    addEntries stof ts m = (m', .ok ()) ↔ ∃ es, AreEntries stof ts es ∧ m' = es.foldl (fun m e => assign e.1 e.2 m) m := by
  induction ts generalizing m with
  | nil =>
    constructor
    · intro h
      simp only [addEntries, Prod.mk.injEq, and_true] at h
      exact ⟨[], trivial, h.symm⟩
    · rintro ⟨es, h1, h2⟩
      cases es with
      | nil => rw [h2]; rfl
      | cons e es => exact False.elim h1
  | cons t ts ih =>
    constructor
    · intro h
      simp only [addEntries] at h
      split at h
      · rename_i a b hs
        split at h
        · rename_i r hv
          obtain ⟨es, h1, h2⟩ := (ih _).1 h
          exact ⟨(trim a, r) :: es, ⟨(isEntry_iff _ _ _).2 ⟨a, b, hs, rfl, hv⟩, h1⟩, h2⟩
        · simp at h
        · simp at h
      · simp at h
    · rintro ⟨es, h1, h2⟩
      cases es with
      | nil => exact False.elim h1
      | cons e es =>
        obtain ⟨h3, h4⟩ := h1
        obtain ⟨a, b, h5, h6, h7⟩ := (isEntry_iff _ _ _).1 h3
        simp only [addEntries, h5, h7, h6]
        exact (ih _).2 ⟨es, h4, h2⟩

theorem get_assign (e : List Byte × BitVec 32) (m : Map) (k : List Byte) : get (assign e.1 e.2 m) k = if speaksOf k e then some e.2 else get m k := by
  unfold assign speaksOf
  by_cases h : e.1 = ascii "xyz"
  · rw [if_pos h, if_pos h]
    simp only [get_put, decide_eq_true_eq]
    by_cases h1 : k = ascii "z"
    · simp [h1]
    · by_cases h2 : k = ascii "y"
      · simp [h2]
      · by_cases h3 : k = ascii "x"
        · simp [h3]
        · simp [h1, h2, h3]
  · rw [if_neg h, if_neg h, get_put]
    simp only [decide_eq_true_eq]

theorem get_fold (es : List (List Byte × BitVec 32)) (m : Map) (k : List Byte) :
    get (es.foldl (fun m e => assign e.1 e.2 m) m) k = resolved es (get m) k := by
  induction es generalizing m with
  | nil => rfl
  | cons e es ih =>
    rw [List.foldl_cons, ih]
    unfold resolved
    rw [List.reverse_cons, List.find?_append]
    cases es.reverse.find? (speaksOf k) with
    | some x => rfl
    | none =>
      simp only [Option.none_or]
      rw [get_assign]
      by_cases h : speaksOf k e = true
      · simp [h]
      · simp [h]

end Cloudini.Profile
