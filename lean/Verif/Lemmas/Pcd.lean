import Verif.Spec.Pcd
import Verif.Lemmas.Base

/-!
# Lemmas on splitting and PCD headers
-/

namespace Cloudini

theorem dropWhile_nil {d : Byte} {s : List Byte} (h : d ∉ s) : s.dropWhile (· != d) = [] := by
  induction s with
  | nil => rfl
  | cons x s ih =>
    have hx : (x != d) = true := by simp only [bne_iff_ne]; rintro rfl; exact h (.head _)
    rw [List.dropWhile_cons, if_pos hx]
    exact ih fun hm => h (.tail _ hm)

theorem mem_takeWhile' {p : Byte → Bool} {l : List Byte} {x : Byte} (h : x ∈ l.takeWhile p) : p x = true := by
  induction l with
  | nil => cases h
  | cons y l ih =>
    rw [List.takeWhile_cons] at h
    split at h
    · rcases List.mem_cons.1 h with rfl | h
      · assumption
      · exact ih h
    · cases h

theorem split_nil_of_notMem {d : Byte} {s : List Byte} (h : d ∉ s) : split d s = [s] := by
  rw [split]
  have : s.dropWhile (· != d) = [] := dropWhile_nil h
  split
  · rfl
  · rename_i e; rw [this] at e; cases e

theorem takeWhile_append_delim {d : Byte} {t r : List Byte} (h : d ∉ t) : (t ++ d :: r).takeWhile (· != d) = t ∧ (t ++ d :: r).dropWhile (· != d) = d :: r := by
  induction t with
  | nil => simp
  | cons x t ih =>
    have hx : (x != d) = true := by simp only [bne_iff_ne]; rintro rfl; exact h (.head _)
    have := ih fun hm => h (.tail _ hm)
    simp [List.takeWhile_cons, List.dropWhile_cons, hx, this.1, this.2]

theorem split_append {d : Byte} {t r : List Byte} (h : d ∉ t) : split d (t ++ d :: r) = t :: split d r := by
  rw [split]
  obtain ⟨h1, h2⟩ := takeWhile_append_delim (r := r) h
  split
  · rename_i e; rw [h2] at e; cases e
  · rename_i e; rw [h2] at e; cases e; rw [h1]

theorem split_ne_nil (d : Byte) (s : List Byte) : split d s ≠ [] := by
  rw [split]
  split <;> simp

/-- `split` finds the pieces. -/
theorem split_pieces (d : Byte) (s : List Byte) : Pieces d s (split d s) := by
  induction hn : s.length using Nat.strongRecOn generalizing s with
  | _ n ih =>
    subst hn
    by_cases h : d ∈ s
    · obtain ⟨t, r, rfl, ht⟩ : ∃ t r, s = t ++ d :: r ∧ d ∉ t := by
        clear ih
        induction s with
        | nil => cases h
        | cons x s ihs =>
          by_cases hx : x = d
          · exact ⟨[], s, by simp [hx], by simp⟩
          · have hm : d ∈ s := by rcases List.mem_cons.1 h with h | h; exact absurd h.symm hx; exact h
            obtain ⟨t, r, e, ht⟩ := ihs hm
            exact ⟨x :: t, r, by simp [e], by simp only [List.mem_cons, not_or]; exact ⟨fun h => hx h.symm, ht⟩⟩
      rw [split_append ht]
      obtain ⟨h1, h2, h3⟩ := ih r.length (by simp only [List.length_append, List.length_cons]; omega) r rfl
      refine ⟨by simp, fun x hx => ?_, ?_⟩
      · rcases List.mem_cons.1 hx with rfl | hx
        · exact ht
        · exact h2 x hx
      · cases hs : split d r with
        | nil => exact absurd hs h1
        | cons y ys =>
          rw [hs] at h3
          conv => lhs; rw [h3]
          simp [List.intercalate, List.intersperse]
    · rw [split_nil_of_notMem h]
      exact ⟨by simp, fun x hx => by simp only [List.mem_singleton] at hx; subst hx; exact h, by simp [List.intercalate, List.intersperse]⟩

/-- The pieces are unique. -/
theorem split_unique {d : Byte} {s : List Byte} {toks : List (List Byte)} (h : Pieces d s toks) : split d s = toks := by
  obtain ⟨h1, h2, rfl⟩ := h
  induction toks with
  | nil => exact absurd rfl h1
  | cons t ts ih =>
    have ht := h2 t (.head _)
    cases ts with
    | nil => simpa [List.intercalate, List.intersperse] using split_nil_of_notMem ht
    | cons u us =>
      have e : List.intercalate [d] (t :: u :: us) = t ++ d :: List.intercalate [d] (u :: us) := by
        simp [List.intercalate, List.intersperse]
      rw [e, split_append ht, ih (by simp) fun x hx => h2 x (.tail _ hx)]

namespace Pcd

theorem getline_line {l r : List Byte} (line : List Byte) (h : 10#8 ∉ l) : getline ⟨l ++ 10#8 :: r, false⟩ line = (⟨r, false⟩, l) := by
  obtain ⟨h1, h2⟩ := takeWhile_append_delim (r := r) h
  simp only [getline, Bool.false_eq_true, if_false, h1, h2]

theorem getline_last {l : List Byte} (line : List Byte) (h : 10#8 ∉ l) : getline ⟨l, false⟩ line = (⟨[], true⟩, l) := by
  have : l.dropWhile (· != 10#8) = [] := dropWhile_nil h
  simp only [getline, Bool.false_eq_true, if_false, this]

/-- The columns after some lines. -/
def after (c : Columns) (lines : List (List Byte)) : Columns := lines.foldl (fun c l => (useLine l c).getD c) c

/-- A line that does not end the loop. -/
def Plain (l : List Byte) : Prop := 10#8 ∉ l ∧ truncate l ≠ [] ∧ (split 32#8 (truncate l)).head? ≠ some (ascii "DATA")

theorem useLine_plain {l : List Byte} (c : Columns) (h : (split 32#8 l).head? ≠ some (ascii "DATA")) : useLine l c = some ((useLine l c).getD c) := by
  unfold useLine
  split
  · rfl
  · rename_i key toks e
    rw [e] at h
    simp only [List.head?_cons, ne_eq, Option.some.injEq] at h
    split
    · rfl
    · split
      · rfl
      · split
        · rfl
        · rfl

theorem readLines_plain (fuel : Nat) (pre : List (List Byte)) (tail line : List Byte) (c : Columns) (h : ∀ l ∈ pre, Plain l) :
    ∃ line', readLines (fuel + pre.length) ⟨(pre.map (· ++ [10#8])).flatten ++ tail, false⟩ line c =
      readLines fuel ⟨tail, false⟩ line' (after c (pre.map truncate)) := by
  induction pre generalizing line c with
  | nil => exact ⟨line, rfl⟩
  | cons l pre ih =>
    obtain ⟨h1, h2, h3⟩ := h l (.head _)
    obtain ⟨line', e⟩ := ih (truncate l) ((useLine (truncate l) c).getD c) fun x hx => h x (.tail _ hx)
    refine ⟨line', ?_⟩
    have e1 : ((l :: pre).map (· ++ [10#8])).flatten ++ tail = l ++ 10#8 :: ((pre.map (· ++ [10#8])).flatten ++ tail) := by simp
    rw [e1, show fuel + (l :: pre).length = (fuel + pre.length) + 1 from rfl]
    simp only [readLines, getline_line line h1]
    rw [useLine_plain c h3]
    simp only
    rw [if_pos h2, e]
    rfl

theorem useLine_names (l : List Byte) (c : Columns) :
    (((useLine l c).getD c).names = if (split 32#8 l).head? = some (ascii "FIELDS") then (split 32#8 l).tail else c.names) ∧
    (((useLine l c).getD c).sizes = if (split 32#8 l).head? = some (ascii "SIZE") then (split 32#8 l).tail else c.sizes) ∧
    (((useLine l c).getD c).types = if (split 32#8 l).head? = some (ascii "TYPE") then (split 32#8 l).tail else c.types) := by
  have k1 : ascii "FIELDS" ≠ ascii "SIZE" := by decide
  have k2 : ascii "FIELDS" ≠ ascii "TYPE" := by decide
  have k3 : ascii "SIZE" ≠ ascii "TYPE" := by decide
  unfold useLine
  cases hs : split 32#8 l with
  | nil => exact absurd hs (split_ne_nil _ _)
  | cons key toks =>
    simp only [List.head?_cons, List.tail_cons, Option.some.injEq]
    by_cases h1 : key = ascii "FIELDS"
    · simp [h1, k1, k2]
    · by_cases h2 : key = ascii "SIZE"
      · simp [h2, k1.symm, k3]
      · by_cases h3 : key = ascii "TYPE"
        · simp [h3, k2.symm, k3.symm]
        · by_cases h4 : key = ascii "DATA"
          · subst h4
            rw [if_neg h1, if_neg h2, if_neg h3, if_pos rfl, if_neg h1, if_neg h2, if_neg h3]
            exact ⟨rfl, rfl, rfl⟩
          · rw [if_neg h1, if_neg h2, if_neg h3, if_neg h4, if_neg h1, if_neg h2, if_neg h3]
            exact ⟨rfl, rfl, rfl⟩

theorem lastOf_append (key : List Byte) (ls : List (List Byte)) (l : List Byte) :
    lastOf key (ls ++ [l]) = if (split 32#8 l).head? = some key then (split 32#8 l).tail else lastOf key ls := by
  unfold lastOf
  rw [List.filter_append]
  by_cases h : (split 32#8 l).head? = some key
  · rw [if_pos h]
    simp [h]
  · rw [if_neg h]
    simp [h]

theorem after_spec (ls : List (List Byte)) :
    (after {} ls).names = lastOf (ascii "FIELDS") ls ∧ (after {} ls).sizes = lastOf (ascii "SIZE") ls ∧ (after {} ls).types = lastOf (ascii "TYPE") ls := by
  obtain ⟨rs, rfl⟩ : ∃ rs : List (List Byte), ls = rs.reverse := ⟨ls.reverse, by simp⟩
  induction rs with
  | nil => simp [after, lastOf]
  | cons l rs ih =>
    rw [List.reverse_cons]
    unfold after at *
    rw [List.foldl_append, lastOf_append, lastOf_append, lastOf_append]
    simp only [List.foldl_cons, List.foldl_nil]
    obtain ⟨h1, h2, h3⟩ := useLine_names l (rs.reverse.foldl (fun c l => (useLine l c).getD c) {})
    rw [h1, h2, h3, ih.1, ih.2.1, ih.2.2]
    exact ⟨rfl, rfl, rfl⟩

theorem truncate_idem (l : List Byte) : truncate (truncate l) = truncate l := by
  have tw : ∀ (p : Byte → Bool) (l : List Byte), (∀ x ∈ l, p x = true) → l.takeWhile p = l := by
    intro p l h
    induction l with
    | nil => rfl
    | cons x l ih => rw [List.takeWhile_cons, if_pos (h x (.head _)), ih fun y hy => h y (.tail _ hy)]
  have mem : ∀ x ∈ truncate l, (x != 35#8) = true ∧ (x != 13#8) = true ∧ (x != 10#8) = true := by
    intro x hx
    unfold truncate at hx
    have a := mem_takeWhile' hx
    have hx2 := List.takeWhile_subset _ hx
    have b := mem_takeWhile' hx2
    have c := mem_takeWhile' (List.takeWhile_subset _ hx2)
    exact ⟨c, b, a⟩
  show ((truncate l).takeWhile _ |>.takeWhile _).takeWhile _ = _
  rw [tw _ _ fun x hx => (mem x hx).1, tw _ _ fun x hx => (mem x hx).2.1, tw _ _ fun x hx => (mem x hx).2.2]

/-- At the end of the file, with a line left over that is not DATA: the loop goes round and round. -/
theorem readLines_stuck (fuel : Nat) (line : List Byte) (c : Columns) (h1 : truncate line = line) (h2 : line ≠ [])
    (h3 : (split 32#8 line).head? ≠ some (ascii "DATA")) : readLines fuel ⟨[], true⟩ line c = .ub .loop := by
  induction fuel generalizing c with
  | zero => rfl
  | succ fuel ih =>
    simp only [readLines, getline, if_true, h1]
    rw [useLine_plain c h3]
    simp only
    rw [if_pos h2]
    exact ih _

theorem collect_spec (ns ss ts : List (List Byte)) (bytes : List Int) (m : Types) (hl : ns.length = ss.length) (hl' : ns.length = ts.length) (hb : ss.length = bytes.length)
    (hs : ∀ (i : Nat) s b, ss[i]? = some s → bytes[i]? = some b → stoi s = .ok b) :
    ∃ m', collect ns ss ts m = .ok m' ∧ ∀ k, m' k = (lastType (ns.zip (bytes.zip ts)) k).or (m k) := by
  induction ns generalizing ss ts bytes m with
  | nil => exact ⟨m, rfl, fun k => by simp [lastType]⟩
  | cons n ns ih =>
    cases ss with
    | nil => simp at hl
    | cons s ss =>
      cases ts with
      | nil => simp at hl'
      | cons t ts =>
        cases bytes with
        | nil => simp at hb
        | cons b bs =>
          have e0 : stoi s = .ok b := hs 0 s b rfl rfl
          obtain ⟨m', e, hm⟩ := ih ss ts bs (fun k => if k = n then some (typeOf t b) else m k) (by simpa using hl) (by simpa using hl') (by simpa using hb)
            (fun i s' b' h1 h2 => hs (i + 1) s' b' h1 h2)
          refine ⟨m', by simp only [collect, e0, Res.ok_bind]; exact e, fun k => ?_⟩
          rw [hm k]
          simp only [lastType, List.zip_cons_cons, List.reverse_cons, List.find?_append]
          cases (ns.zip (bs.zip ts)).reverse.find? (fun e => decide (e.1 = k)) with
          | some x => simp
          | none =>
            by_cases hk : k = n
            · subst hk; simp
            · simp [hk, Ne.symm hk]

end Pcd

end Cloudini
