import Verif.Lemmas.RosOwn

/-!
# C41: copying and moving a `RosPointCloud2`

`ext` are the buffers that exist before the program (serialised messages); their identities are their positions.
-/

namespace Cloudini.Props

open Cloudini.RosOwn

variable {M : Type}

/-- **C41.** For every history of constructions, filterings, copies, moves, assignments and destructions in which no moved-from object is
read, the code runs through, and in the end every object holds the value it should (`absRun`): an owner's view shows its bytes and, unless
these are none, is the whole of its own storage, which no other object has; a viewer's view is the external one it was given; and the
external memory is untouched. -/
theorem C41_values (moved : M → M) (ext : List (List Byte)) (ops : List (Op M)) (vals : Values M) (h : absRun ext.length (fun _ => none) ops = some vals) :
    ∃ s, run moved (init ext) ops = some s ∧
      (∀ x m c, vals x = some (.owning m c) → ∃ o, s.objs x = some o ∧ o.info = m ∧ o.data.read s.heap = some c ∧
        (c ≠ [] → ∃ b, o.owned = some b ∧ o.data = ⟨some b, 0, c.length⟩ ∧ s.heap b = some c ∧ ∀ y o', y ≠ x → s.objs y = some o' → o'.owned ≠ some b)) ∧
      (∀ x m v, vals x = some (.viewing m v) → ∃ o, s.objs x = some o ∧ o.info = m ∧ o.data = v) ∧
      (∀ b < ext.length, s.heap b = ext[b]?) ∧
      (∀ x, vals x = none ↔ s.objs x = none) := by
  obtain ⟨s, e, i⟩ := run_inv moved ops (init_inv ext) h
  refine ⟨s, e, ?_, ?_, i.exts, fun x => (i.dom x).symm⟩
  · intro x m c hx
    obtain ⟨o, ho⟩ := i.live hx
    obtain ⟨r1, r2⟩ := i.rep x o _ ho hx
    refine ⟨o, ho, r1, ?_⟩
    rcases r2 with ⟨h1, h2, -⟩ | ⟨h1, b, h2, h3, h4⟩
    · exact ⟨by simp [View.read, h2, h1], fun hne => absurd h1 hne⟩
    · refine ⟨?_, fun _ => ⟨b, h2, h4, h3, fun y o' hy h5 h6 => hy (i.uniq y x o' o b h5 ho h6 h2)⟩⟩
      have : c.length ≠ 0 := fun hl => h1 (List.eq_nil_of_length_eq_zero hl)
      simp [View.read, h4, h3, this]
  · intro x m v hx
    obtain ⟨o, ho⟩ := i.live hx
    obtain ⟨r1, r2, -⟩ := i.rep x o _ ho hx
    exact ⟨o, ho, r1, r2⟩

/-- **C41, no leak.** Whatever the program does, what is allocated at any time is external or the storage of a live object. -/
theorem C41_no_leak (moved : M → M) (ext : List (List Byte)) (ops : List (Op M)) (s : State M) (h : run moved (init ext) ops = some s) (b : Nat)
    (hb : s.heap b ≠ none) : b < ext.length ∨ ∃ x o, s.objs x = some o ∧ o.owned = some b :=
  run_noLeak moved ops (fun b hb => Or.inl (by
    simp only [init] at hb
    exact Classical.byContradiction fun hn => hb (List.getElem?_eq_none (by omega)))) h b hb

/-- A history with every kind of operation: object 0 views message 0, 1 is a copy that is filtered, 2 a copy of 1, 3 takes 1's storage, then 2
(re-using its storage) is assigned 3, and 3 is destroyed: 2 still has its bytes. -/
def history : List (Op Nat) :=
  [.view 0 7 ⟨some 0, 2, 3⟩, .copyNew 1 0, .viz 1 8 [1#8, 2#8], .copyNew 2 1, .moveNew 3 1, .copyAssign 2 3 true, .destroy 3, .moveAssign 1 2]

example : (absRun 1 (fun _ => none) history).isSome = true ∧
    ((absRun 1 (fun _ => none) history).bind fun a => (a 1).bind fun v => match v with | .owning m c => some (m, c) | _ => none) = some (8, [1#8, 2#8]) ∧
    ((run id (init [[9#8, 9#8, 9#8, 9#8, 9#8]]) history).bind fun s => (s.objs 1).bind fun o => o.data.read s.heap) = some [1#8, 2#8] := by decide

/-- **Moved-from objects keep their view** (`data` is not reset, ros_msg_utils.hpp:84, 121): it shows the storage of the object that was moved
to, and dangles once that is gone. -/
theorem C41_moved_from_dangles :
    ((run id (init []) [.view 0 0 {}, .viz 0 0 [5#8], .moveNew 1 0]).bind fun s => (s.objs 0).bind fun o => o.data.read s.heap) = some [5#8] ∧
    ((run id (init []) [.view 0 0 {}, .viz 0 0 [5#8], .moveNew 1 0, .destroy 1]).bind fun s => (s.objs 0).bind fun o => some (o.data, o.data.read s.heap)) =
      some (⟨some 0, 0, 1⟩, none) := by decide

/-- That history, with the theorems: object 1 owns two bytes in a block of its own, the outside block is intact, nothing else is left. -/
example : ∃ s, run id (init [[9#8, 9#8, 9#8, 9#8, 9#8]]) history = some s ∧ s.heap 0 = some [9#8, 9#8, 9#8, 9#8, 9#8] ∧
    (∃ b, s.heap b = some [1#8, 2#8] ∧ ∃ o, s.objs 1 = some o ∧ o.owned = some b ∧ ∀ y o', y ≠ 1 → s.objs y = some o' → o'.owned ≠ some b) ∧
    ∀ b, s.heap b ≠ none → b < 1 ∨ ∃ x o, s.objs x = some o ∧ o.owned = some b := by
  have hok : ((absRun 1 (fun _ => none) history).bind fun a => (a 1).bind fun v => match v with | .owning m c => some (m, c) | _ => none) = some (8, [1#8, 2#8]) := by decide
  cases h : absRun 1 (fun _ => none) history with
  | none => rw [h] at hok; simp at hok
  | some vals =>
    obtain ⟨s, h1, h2, _, h4, _⟩ := C41_values id [[9#8, 9#8, 9#8, 9#8, 9#8]] history vals h
    have hv : vals 1 = some (.owning 8 [1#8, 2#8]) := by
      rw [h] at hok
      simp only [Option.bind_some] at hok
      cases hv : vals 1 with
      | none => rw [hv] at hok; simp at hok
      | some v =>
        rw [hv] at hok
        cases v with
        | owning m c => simp at hok; rw [hok.1, hok.2]
        | _ => simp at hok
    obtain ⟨o, k1, _, _, k4⟩ := h2 1 8 [1#8, 2#8] hv
    obtain ⟨b, g1, _, g3, g4⟩ := k4 (by simp)
    exact ⟨s, h1, h4 0 (by simp), ⟨b, g3, o, k1, g1, g4⟩, fun b hb => C41_no_leak id _ _ s h1 b hb⟩

end Cloudini.Props
