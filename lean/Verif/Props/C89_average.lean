import Verif.Props.C89
import Mathlib.Algebra.Order.Field.Rat
import Mathlib.Algebra.BigOperators.Group.List.Basic

/-! # C89 The figure in the summary of the benchmark script -/

namespace Cloudini.Props

open Bag

/-- **C89, the summary.** When at least one file has a compressed size, the summary divides the sum of compressed/original over the files that have one by the
number of those files (not of all files). -/
theorem C89_average (rows : List Row) (h : ∃ r ∈ rows, r.compressed.isSome) :
    ∃ l n, summary rows = .ok (l, n) ∧ 0 < n ∧ n = rows.countP (fun r => r.compressed.isSome) ∧
      (l.map fun p => (p.1 : Rat) / p.2).sum = (rows.map fun r => match r.compressed with | some c => (c : Rat) / r.original | none => 0).sum := by
  obtain ⟨r, hr, hc⟩ := h
  have hne : rows ≠ [] := List.ne_nil_of_mem hr
  have hrated : (rows.filterMap fun r => r.compressed.map fun c => (c, r.original)) ≠ [] := by
    intro hh
    rw [List.filterMap_eq_nil_iff] at hh
    have := hh r hr
    cases e : r.compressed with
    | none => rw [e] at hc; simp at hc
    | some c => rw [e] at this; simp at this
  refine ⟨_, _, by unfold summary; rw [if_neg hne]; simp only; rw [if_neg hrated], List.length_pos_iff.2 hrated, ?_, ?_⟩
  · clear hr hne hrated
    induction rows with
    | nil => rfl
    | cons a rows ih =>
      cases e : a.compressed with
      | none => simp [List.filterMap_cons, List.countP_cons, e, ih]
      | some c => simp [List.filterMap_cons, List.countP_cons, e, ih]
  · clear hr hne hrated
    induction rows with
    | nil => rfl
    | cons a rows ih =>
      cases e : a.compressed with
      | none => simp [List.filterMap_cons, e, ih]
      | some c => simp [List.filterMap_cons, e, ih]

/-- Three files, one of them without a compressed size: the mean is over the other two. -/
example : (∃ r ∈ [(⟨ascii "a.mcap", 10, some 5⟩ : Row), ⟨ascii "b.mcap", 7, none⟩, ⟨ascii "c.mcap", 8, some 2⟩], r.compressed.isSome) ∧
    summary [⟨ascii "a.mcap", 10, some 5⟩, ⟨ascii "b.mcap", 7, none⟩, ⟨ascii "c.mcap", 8, some 2⟩] = .ok ([(5, 10), (2, 8)], 2) := by
  decide +kernel

end Cloudini.Props
