import Verif.Spec.RosOwn

/-!
# The ownership invariant
-/

namespace Cloudini.RosOwn

variable {M : Type}

theorem set_same {α : Type} (f : Nat → Option α) (k : Nat) (v : Option α) : set f k v k = v := if_pos rfl

theorem set_other {α : Type} (f : Nat → Option α) {k i : Nat} (v : Option α) (h : i ≠ k) : set f k v i = f i := if_neg h

/-- Object `o` holds value `v`. -/
def Rep (ext : Nat) (h : Heap) (o : Obj M) : Value M → Prop
  | .owning m c => o.info = m ∧ ((c = [] ∧ o.data.len = 0 ∧ content h o.owned = []) ∨
      (c ≠ [] ∧ ∃ b, o.owned = some b ∧ h b = some c ∧ o.data = ⟨some b, 0, c.length⟩))
  | .viewing m v => o.info = m ∧ o.data = v ∧ ∀ b, v.buf = some b → b < ext
  | .movedFrom => True

structure Inv (ext : List (List Byte)) (s : State M) (a : Values M) : Prop where
  dom : ∀ x, s.objs x = none ↔ a x = none
  rep : ∀ x o v, s.objs x = some o → a x = some v → Rep ext.length s.heap o v
  own : ∀ x o b, s.objs x = some o → o.owned = some b → ext.length ≤ b ∧ b < s.next ∧ s.heap b ≠ none
  uniq : ∀ x y o o' b, s.objs x = some o → s.objs y = some o' → o.owned = some b → o'.owned = some b → x = y
  exts : ∀ b < ext.length, s.heap b = ext[b]?
  next : ext.length ≤ s.next

theorem content_congr {h h' : Heap} {b : Option Nat} (e : ∀ c, b = some c → h' c = h c) : content h' b = content h b := by
  cases b with
  | none => rfl
  | some c => simp [content, e c rfl]

theorem Rep.congr {ext : Nat} {h h' : Heap} {o : Obj M} {v : Value M} (e : ∀ b, o.owned = some b → h' b = h b) (r : Rep ext h o v) : Rep ext h' o v := by
  cases v with
  | owning m c =>
    obtain ⟨r1, r2⟩ := r
    refine ⟨r1, ?_⟩
    rcases r2 with ⟨h1, h2, h3⟩ | ⟨h1, b, h2, h3, h4⟩
    · exact Or.inl ⟨h1, h2, by rw [content_congr e]; exact h3⟩
    · exact Or.inr ⟨h1, b, h2, by rw [e b h2]; exact h3, h4⟩
  | viewing m v => exact r
  | movedFrom => trivial

theorem init_inv (ext : List (List Byte)) : Inv ext (init (M := M) ext) (fun _ => none) where
  dom x := by simp [init]
  rep x o v h := by simp [init] at h
  own x o b h := by simp [init] at h
  uniq x y o o' b h := by simp [init] at h
  exts _ _ := rfl
  next := Nat.le_refl _

/-- Whether the flag of the source is set. -/
theorem viewsOwned_owning {ext : Nat} {h : Heap} {o : Obj M} {m : M} {c : List Byte} (hc : c ≠ []) (r : Rep ext h o (.owning m c)) : viewsOwned h o = true := by
  obtain ⟨-, ⟨h1, -⟩ | ⟨-, b, h2, h3, h4⟩⟩ := r
  · exact absurd h1 hc
  · simp [viewsOwned, h2, h4, content, h3, hc]

theorem viewsOwned_empty {h : Heap} {o : Obj M} (e : content h o.owned = []) : viewsOwned h o = false := by
  simp [viewsOwned, e]

theorem viewsOwned_viewing {ext : Nat} {h : Heap} {o : Obj M} {m : M} {v : View} (ho : ∀ b, o.owned = some b → ext ≤ b) (r : Rep ext h o (.viewing m v)) :
    viewsOwned h o = false := by
  obtain ⟨-, h2, h3⟩ := r
  cases hb : o.owned with
  | none => exact viewsOwned_empty (by simp [hb, content])
  | some b =>
    have h4 := ho b hb
    have : (o.data.buf == o.owned) = false := by
      rw [hb, h2]
      simp only [beq_eq_false_iff_ne]
      intro e
      have := h3 b e
      omega
    simp [viewsOwned, this]

/-- What a vector copy yields. -/
theorem copyVec_spec (h : Heap) (next : Nat) (c : List Byte) :
    content (copyVec h next c).1 (copyVec h next c).2.2 = c ∧ (∀ b < next, (copyVec h next c).1 b = h b) ∧ next ≤ (copyVec h next c).2.1 ∧
      (∀ b, (copyVec h next c).2.2 = some b → b = next ∧ b < (copyVec h next c).2.1 ∧ (copyVec h next c).1 b = some c) := by
  unfold copyVec
  by_cases hc : c = []
  · simp [hc, content]
  · rw [if_neg hc]
    refine ⟨by simp [content, set_same], fun b hb => set_other _ _ (by omega), by simp, ?_⟩
    intro b e
    simp only [Option.some.injEq] at e
    subst e
    exact ⟨rfl, by simp, set_same _ _ _⟩

theorem free_other (h : Heap) (o : Option Nat) {b : Nat} (e : o ≠ some b) : free h o b = h b := by
  cases o with
  | none => rfl
  | some c => exact set_other _ _ (by intro h'; exact e (by rw [h']))

/-- What a vector copy assignment yields. -/
theorem assignVec_spec (h : Heap) (next : Nat) (old : Option Nat) (reuse : Bool) (c : List Byte) (hold : ∀ b, old = some b → b < next) :
    content (assignVec h next old reuse c).1 (assignVec h next old reuse c).2.2 = c ∧
      (∀ b < next, old ≠ some b → (assignVec h next old reuse c).1 b = h b) ∧ next ≤ (assignVec h next old reuse c).2.1 ∧
      (∀ b, (assignVec h next old reuse c).2.2 = some b → (b = next ∨ old = some b) ∧ b < (assignVec h next old reuse c).2.1 ∧
        (assignVec h next old reuse c).1 b = some c) := by
  have key : content (copyVec (free h old) next c).1 (copyVec (free h old) next c).2.2 = c ∧
      (∀ b < next, old ≠ some b → (copyVec (free h old) next c).1 b = h b) ∧ next ≤ (copyVec (free h old) next c).2.1 ∧
      (∀ b, (copyVec (free h old) next c).2.2 = some b → (b = next ∨ old = some b) ∧ b < (copyVec (free h old) next c).2.1 ∧
        (copyVec (free h old) next c).1 b = some c) := by
    obtain ⟨h1, h2, h3, h4⟩ := copyVec_spec (free h old) next c
    exact ⟨h1, fun b hb e => by rw [h2 b hb, free_other _ _ e], h3, fun b e => ⟨Or.inl (h4 b e).1, (h4 b e).2⟩⟩
  cases old with
  | none => exact key
  | some b =>
    cases reuse with
    | false => exact key
    | true =>
      refine ⟨by simp [assignVec, content, set_same], fun b' _ e => set_other _ _ (fun h' => e (by rw [h'])), Nat.le_refl _, ?_⟩
      intro b' e
      simp only [assignVec, Option.some.injEq] at e
      subst e
      exact ⟨Or.inr rfl, hold b rfl, set_same _ _ _⟩

/-- The object a copy makes holds the value of its source. -/
theorem rep_copy {ext : Nat} {h h' : Heap} {o : Obj M} {v : Value M} {w : Option Nat} (ho : ∀ b, o.owned = some b → ext ≤ b)
    (hframe : ∀ b, o.owned = some b → h' b = h b) (hw : content h' w = content h o.owned) (hw' : ∀ b, w = some b → h' b = some (content h o.owned))
    (hv : v.readable = true) (r : Rep ext h o v) : Rep ext h' (rebind (viewsOwned h' o) h' ⟨o.info, o.data, w⟩) v := by
  have r' := r.congr hframe
  cases v with
  | movedFrom => cases hv
  | viewing m v =>
    rw [viewsOwned_viewing ho r']
    exact ⟨r.1, r.2.1, r.2.2⟩
  | owning m c =>
    obtain ⟨r1, ⟨h1, h2, h3⟩ | ⟨h1, b, h2, h3, h4⟩⟩ := r
    · rw [viewsOwned_empty (by rw [content_congr hframe]; exact h3)]
      exact ⟨r1, Or.inl ⟨h1, h2, by show content h' w = []; rw [hw, h3]⟩⟩
    · rw [viewsOwned_owning h1 r']
      have hc : content h o.owned = c := by simp [h2, content, h3]
      refine ⟨r1, Or.inr ⟨h1, ?_⟩⟩
      cases w with
      | none => rw [hc] at hw; exact absurd hw.symm h1
      | some b' =>
        refine ⟨b', rfl, by rw [hw' b' rfl, hc], ?_⟩
        simp only [rebind, if_true]
        rw [hw, hc]

/-- The object a move makes holds the value of its source. -/
theorem rep_move {ext : Nat} {h h' : Heap} {o : Obj M} {v : Value M} (ho : ∀ b, o.owned = some b → ext ≤ b)
    (hframe : ∀ b, o.owned = some b → h' b = h b) (hv : v.readable = true) (r : Rep ext h o v) :
    Rep ext h' (rebind (viewsOwned h o) h' ⟨o.info, o.data, o.owned⟩) v := by
  have hc := content_congr hframe
  cases v with
  | movedFrom => cases hv
  | viewing m v =>
    rw [viewsOwned_viewing ho r]
    exact ⟨r.1, r.2.1, r.2.2⟩
  | owning m c =>
    have r' := r
    obtain ⟨r1, ⟨h1, h2, h3⟩ | ⟨h1, b, h2, h3, h4⟩⟩ := r
    · rw [viewsOwned_empty h3]
      exact ⟨r1, Or.inl ⟨h1, h2, by show content h' o.owned = []; rw [hc, h3]⟩⟩
    · rw [viewsOwned_owning h1 r']
      refine ⟨r1, Or.inr ⟨h1, b, h2, by rw [hframe b h2, h3], ?_⟩⟩
      simp only [rebind, if_true]
      rw [hc, h2]
      simp [content, h3]

theorem rebind_owned (flag : Bool) (h : Heap) (o : Obj M) : (rebind flag h o).owned = o.owned := by
  cases flag <;> rfl

/-- Replacing one object. -/
theorem inv_set {ext : List (List Byte)} {s : State M} {a : Values M} (i : Inv ext s a) (x : Nat) {h' : Heap} {next' : Nat} {n : Option (Obj M)} {v : Option (Value M)}
    (hnext : s.next ≤ next') (hframe : ∀ y o b, y ≠ x → s.objs y = some o → o.owned = some b → h' b = s.heap b) (hext : ∀ b < ext.length, h' b = s.heap b)
    (hdom : n = none ↔ v = none) (hrep : ∀ o w, n = some o → v = some w → Rep ext.length h' o w)
    (hown : ∀ o b, n = some o → o.owned = some b → ext.length ≤ b ∧ b < next' ∧ h' b ≠ none)
    (huniq : ∀ o b y o', n = some o → o.owned = some b → y ≠ x → s.objs y = some o' → o'.owned ≠ some b) :
    Inv ext ⟨h', next', set s.objs x n⟩ (set a x v) where
  dom y := by
    by_cases e : y = x
    · subst e; simp only [set_same]; exact hdom
    · simp only [set_other _ _ e]; exact i.dom y
  rep y o w h1 h2 := by
    by_cases e : y = x
    · subst e; simp only [set_same] at h1 h2; exact hrep o w h1 h2
    · simp only [set_other _ _ e] at h1 h2
      exact (i.rep y o w h1 h2).congr fun b hb => hframe y o b e h1 hb
  own y o b h1 h2 := by
    by_cases e : y = x
    · subst e; simp only [set_same] at h1; exact hown o b h1 h2
    · simp only [set_other _ _ e] at h1
      obtain ⟨p1, p2, p3⟩ := i.own y o b h1 h2
      exact ⟨p1, by show b < next'; omega, by show h' b ≠ none; rw [hframe y o b e h1 h2]; exact p3⟩
  uniq y z o o' b h1 h2 h3 h4 := by
    by_cases e : y = x
    · by_cases e' : z = x
      · rw [e, e']
      · subst e
        simp only [set_same] at h1
        simp only [set_other _ _ e'] at h2
        exact absurd h4 (huniq o b z o' h1 h3 e' h2)
    · by_cases e' : z = x
      · subst e'
        simp only [set_same] at h2
        simp only [set_other _ _ e] at h1
        exact absurd h3 (huniq o' b y o h2 h4 e h1)
      · simp only [set_other _ _ e, set_other _ _ e'] at h1 h2
        exact i.uniq y z o o' b h1 h2 h3 h4
  exts b hb := by show h' b = _; rw [hext b hb]; exact i.exts b hb
  next := Nat.le_trans i.next hnext

theorem Inv.live {ext : List (List Byte)} {s : State M} {a : Values M} (i : Inv ext s a) {x : Nat} {v : Value M} (h : a x = some v) : ∃ o, s.objs x = some o := by
  cases e : s.objs x with
  | some o => exact ⟨o, rfl⟩
  | none => rw [(i.dom x).1 e] at h; cases h

theorem Inv.dead {ext : List (List Byte)} {s : State M} {a : Values M} (i : Inv ext s a) {x : Nat} (h : a x = none) : s.objs x = none := (i.dom x).2 h

/-- Freeing the storage of `x` leaves the others alone. -/
theorem free_frame {ext : List (List Byte)} {s : State M} {a : Values M} (i : Inv ext s a) {x : Nat} {t : Obj M} (h : s.objs x = some t) :
    (∀ y o b, y ≠ x → s.objs y = some o → o.owned = some b → free s.heap t.owned b = s.heap b) ∧ (∀ b < ext.length, free s.heap t.owned b = s.heap b) := by
  constructor
  · intro y o b e h1 h2
    exact free_other _ _ fun h3 => e (i.uniq y x o t b h1 h h2 h3)
  · intro b hb
    refine free_other _ _ fun h3 => ?_
    have := (i.own x t b h h3).1
    omega

/-- One step keeps the invariant, and the code's step exists whenever the abstract one does. -/
theorem step_inv {ext : List (List Byte)} {s : State M} {a a' : Values M} (moved : M → M) (i : Inv ext s a) (op : Op M)
    (h : absStep ext.length a op = some a') : ∃ s', step moved s op = some s' ∧ Inv ext s' a' := by
  cases op with
  | view x m v =>
    simp only [absStep] at h
    split at h
    · rename_i hc
      cases h
      refine ⟨_, by simp only [step]; rw [if_pos (i.dead hc.1)], ?_⟩
      refine inv_set i x (Nat.le_refl _) (fun _ _ _ _ _ _ => rfl) (fun _ _ => rfl) (by simp) ?_ ?_ ?_
      · intro o w h1 h2; cases h1; cases h2; exact ⟨rfl, rfl, hc.2⟩
      · intro o b h1 h2; cases h1; cases h2
      · intro o b y o' h1 h2; cases h1; cases h2
    · cases h
  | viz x m out =>
    simp only [absStep] at h
    split at h
    · cases h
    · rename_i hc
      cases h
      obtain ⟨o, ho⟩ : ∃ o, s.objs x = some o := by
        cases e : s.objs x with
        | some o => exact ⟨o, rfl⟩
        | none => exact absurd ((i.dom x).1 e) hc
      obtain ⟨f1, f2⟩ := free_frame i ho
      have hne := i.next
      refine ⟨_, by simp only [step, ho]; rfl, ?_⟩
      refine inv_set i x (Nat.le_succ _) ?_ ?_ (by simp) ?_ ?_ ?_
      · intro y o' b e h1 h2
        have := (i.own y o' b h1 h2).2.1
        rw [set_other _ _ (by omega), f1 y o' b e h1 h2]
      · intro b hb
        rw [set_other _ _ (by omega), f2 b hb]
      · intro o' w h1 h2
        cases h1; cases h2
        refine ⟨rfl, ?_⟩
        by_cases hout : out = []
        · exact Or.inl ⟨hout, by simp [hout], by simp [content, set_same, hout]⟩
        · exact Or.inr ⟨hout, s.next, rfl, set_same _ _ _, rfl⟩
      · intro o' b h1 h2
        cases h1; cases h2
        exact ⟨hne, Nat.lt_succ_self _, by rw [set_same]; simp⟩
      · intro o' b y o'' h1 h2 e h3 h4
        cases h1; cases h2
        have := (i.own y o'' _ h3 h4).2.1
        omega
  | copyNew x y =>
    simp only [absStep] at h
    split at h
    · rename_i v hx hy
      split at h
      · rename_i hv
        cases h
        obtain ⟨o, ho⟩ := i.live hy
        have hdx := i.dead hx
        have hxy : y ≠ x := by rintro rfl; rw [hdx] at ho; cases ho
        obtain ⟨c1, c2, c3, c4⟩ := copyVec_spec s.heap s.next (content s.heap o.owned)
        have hne := i.next
        refine ⟨copyNew s x o, by simp only [step, hdx, ho], ?_⟩
        unfold copyNew
        refine inv_set i x c3 ?_ ?_ (by simp) ?_ ?_ ?_
        · intro z o' b e h1 h2
          exact c2 b (i.own z o' b h1 h2).2.1
        · intro b hb
          exact c2 b (by omega)
        · intro o' w h1 h2
          cases h1; cases h2
          exact rep_copy (fun b hb => (i.own y o b ho hb).1) (fun b hb => c2 b (i.own y o b ho hb).2.1) c1 (fun b hb => (c4 b hb).2.2) hv (i.rep y o v ho hy)
        · intro o' b h1 h2
          cases h1
          rw [rebind_owned] at h2
          obtain ⟨p1, p2, p3⟩ := c4 b h2
          exact ⟨by omega, p2, by rw [p3]; simp⟩
        · intro o' b z o'' h1 h2 e h3 h4
          cases h1
          rw [rebind_owned] at h2
          have := (c4 b h2).1
          have := (i.own z o'' b h3 h4).2.1
          omega
      · cases h
    · cases h
  | copyAssign x y reuse =>
    simp only [absStep] at h
    split at h
    · rename_i v0 v hx hy
      obtain ⟨t, ht⟩ := i.live hx
      obtain ⟨o, ho⟩ := i.live hy
      by_cases hxy : x = y
      · rw [if_pos hxy] at h
        cases h
        exact ⟨s, by simp only [step, ht, ho]; rw [if_pos hxy], i⟩
      rw [if_neg hxy] at h
      split at h
      · rename_i hv
        cases h
        obtain ⟨c1, c2, c3, c4⟩ := assignVec_spec s.heap s.next t.owned reuse (content s.heap o.owned) (fun b hb => (i.own x t b ht hb).2.1)
        have hne := i.next
        have hfr : ∀ z o' b, z ≠ x → s.objs z = some o' → o'.owned = some b → (assignVec s.heap s.next t.owned reuse (content s.heap o.owned)).1 b = s.heap b :=
          fun z o' b e h1 h2 => c2 b (i.own z o' b h1 h2).2.1 fun h3 => e (i.uniq z x o' t b h1 ht h2 h3)
        refine ⟨copyAssign s x t o reuse, by simp only [step, ht, ho]; rw [if_neg hxy], ?_⟩
        unfold copyAssign
        refine inv_set i x c3 hfr ?_ (by simp) ?_ ?_ ?_
        · intro b hb
          refine c2 b (by omega) fun h3 => ?_
          have := (i.own x t b ht h3).1
          omega
        · intro o' w h1 h2
          cases h1; cases h2
          exact rep_copy (fun b hb => (i.own y o b ho hb).1) (fun b hb => hfr y o b (Ne.symm hxy) ho hb) c1 (fun b hb => (c4 b hb).2.2) hv (i.rep y o v ho hy)
        · intro o' b h1 h2
          cases h1
          rw [rebind_owned] at h2
          obtain ⟨p1, p2, p3⟩ := c4 b h2
          refine ⟨?_, p2, by rw [p3]; simp⟩
          rcases p1 with p1 | p1
          · omega
          · exact (i.own x t b ht p1).1
        · intro o' b z o'' h1 h2 e h3 h4
          cases h1
          rw [rebind_owned] at h2
          rcases (c4 b h2).1 with p1 | p1
          · have := (i.own z o'' b h3 h4).2.1
            omega
          · exact e (i.uniq z x o'' t b h3 ht h4 p1)
      · cases h
    · cases h
  | moveNew x y =>
    simp only [absStep] at h
    split at h
    · rename_i v hx hy
      split at h
      · rename_i hv
        cases h
        obtain ⟨o, ho⟩ := i.live hy
        have hdx := i.dead hx
        have hxy : x ≠ y := by rintro rfl; rw [hdx] at ho; cases ho
        have i1 : Inv ext ⟨s.heap, s.next, set s.objs y (some ⟨moved o.info, o.data, none⟩)⟩ (set a y (some .movedFrom)) := by
          refine inv_set i y (Nat.le_refl _) (fun _ _ _ _ _ _ => rfl) (fun _ _ => rfl) (by simp) ?_ ?_ ?_
          · intro o' w h1 h2; cases h2; trivial
          · intro o' b h1 h2; cases h1; cases h2
          · intro o' b z o'' h1 h2; cases h1; cases h2
        refine ⟨moveNew moved s x y o, by simp only [step, hdx, ho], ?_⟩
        unfold moveNew
        refine inv_set i1 x (Nat.le_refl _) (fun _ _ _ _ _ _ => rfl) (fun _ _ => rfl) (by simp) ?_ ?_ ?_
        · intro o' w h1 h2
          cases h1; cases h2
          exact rep_move (fun b hb => (i.own y o b ho hb).1) (fun b hb => rfl) hv (i.rep y o v ho hy)
        · intro o' b h1 h2
          cases h1
          rw [rebind_owned] at h2
          exact i.own y o b ho h2
        · intro o' b z o'' h1 h2 e h3 h4
          cases h1
          rw [rebind_owned] at h2
          by_cases hzy : z = y
          · subst hzy; simp only [set_same] at h3; cases h3; cases h4
          · simp only [set_other _ _ hzy] at h3
            exact hzy (i.uniq z y o'' o b h3 ho h4 h2)
      · cases h
    · cases h
  | moveAssign x y =>
    simp only [absStep] at h
    split at h
    · rename_i v0 v hx hy
      obtain ⟨t, ht⟩ := i.live hx
      obtain ⟨o, ho⟩ := i.live hy
      by_cases hxy : x = y
      · rw [if_pos hxy] at h
        cases h
        exact ⟨s, by simp only [step, ht, ho]; rw [if_pos hxy], i⟩
      rw [if_neg hxy] at h
      split at h
      · rename_i hv
        cases h
        obtain ⟨f1, f2⟩ := free_frame i ht
        have i1 : Inv ext ⟨s.heap, s.next, set s.objs y (some ⟨moved o.info, o.data, none⟩)⟩ (set a y (some .movedFrom)) := by
          refine inv_set i y (Nat.le_refl _) (fun _ _ _ _ _ _ => rfl) (fun _ _ => rfl) (by simp) ?_ ?_ ?_
          · intro o' w h1 h2; cases h2; trivial
          · intro o' b h1 h2; cases h1; cases h2
          · intro o' b z o'' h1 h2; cases h1; cases h2
        refine ⟨moveAssign moved s x y t o, by simp only [step, ht, ho]; rw [if_neg hxy], ?_⟩
        unfold moveAssign
        refine inv_set i1 x (Nat.le_refl _) ?_ f2 (by simp) ?_ ?_ ?_
        · intro z o' b e h1 h2
          by_cases hzy : z = y
          · subst hzy; simp only [set_same] at h1; cases h1; cases h2
          · simp only [set_other _ _ hzy] at h1
            exact f1 z o' b e h1 h2
        · intro o' w h1 h2
          cases h1; cases h2
          exact rep_move (fun b hb => (i.own y o b ho hb).1) (fun b hb => f1 y o b (Ne.symm hxy) ho hb) hv (i.rep y o v ho hy)
        · intro o' b h1 h2
          cases h1
          rw [rebind_owned] at h2
          obtain ⟨p1, p2, p3⟩ := i.own y o b ho h2
          exact ⟨p1, p2, by rw [f1 y o b (Ne.symm hxy) ho h2]; exact p3⟩
        · intro o' b z o'' h1 h2 e h3 h4
          cases h1
          rw [rebind_owned] at h2
          by_cases hzy : z = y
          · subst hzy; simp only [set_same] at h3; cases h3; cases h4
          · simp only [set_other _ _ hzy] at h3
            exact hzy (i.uniq z y o'' o b h3 ho h4 h2)
      · cases h
    · cases h
  | destroy x =>
    simp only [absStep] at h
    split at h
    · cases h
    · rename_i hc
      cases h
      obtain ⟨o, ho⟩ : ∃ o, s.objs x = some o := by
        cases e : s.objs x with
        | some o => exact ⟨o, rfl⟩
        | none => exact absurd ((i.dom x).1 e) hc
      obtain ⟨f1, f2⟩ := free_frame i ho
      refine ⟨_, by simp only [step, ho]; rfl, ?_⟩
      refine inv_set i x (Nat.le_refl _) f1 f2 (by simp) ?_ ?_ ?_
      · intro o' w h1; cases h1
      · intro o' b h1; cases h1
      · intro o' b z o'' h1; cases h1

theorem run_inv {ext : List (List Byte)} (moved : M → M) (ops : List (Op M)) {s : State M} {a a' : Values M} (i : Inv ext s a)
    (h : absRun ext.length a ops = some a') : ∃ s', run moved s ops = some s' ∧ Inv ext s' a' := by
  induction ops generalizing s a with
  | nil => cases h; exact ⟨s, rfl, i⟩
  | cons op ops ih =>
    simp only [absRun] at h
    cases e : absStep ext.length a op with
    | none => rw [e] at h; cases h
    | some a1 =>
      rw [e] at h
      obtain ⟨s1, e1, i1⟩ := step_inv moved i op e
      obtain ⟨s2, e2, i2⟩ := ih i1 h
      exact ⟨s2, by simp only [run, e1]; exact e2, i2⟩

/-! ### no leak -/

/-- What is allocated is external or owned by a live object. -/
def NoLeak (n : Nat) (h : Heap) (objs : Nat → Option (Obj M)) : Prop := ∀ b, h b ≠ none → b < n ∨ ∃ x o, objs x = some o ∧ o.owned = some b

theorem noLeak_set {n : Nat} {h h' : Heap} {objs : Nat → Option (Obj M)} (i : NoLeak n h objs) (x : Nat) (w : Option (Obj M))
    (hb : ∀ b, h' b ≠ none → (∃ o, w = some o ∧ o.owned = some b) ∨ (h b ≠ none ∧ ∀ o, objs x = some o → o.owned ≠ some b)) :
    NoLeak n h' (set objs x w) := by
  intro b hne
  rcases hb b hne with ⟨o, rfl, h2⟩ | ⟨h1, h2⟩
  · exact Or.inr ⟨x, o, set_same _ _ _, h2⟩
  · rcases i b h1 with h3 | ⟨y, o, h3, h4⟩
    · exact Or.inl h3
    · by_cases e : y = x
      · subst e; exact absurd h4 (h2 o h3)
      · exact Or.inr ⟨y, o, by rw [set_other _ _ e]; exact h3, h4⟩

theorem free_ne {h : Heap} {o : Option Nat} {b : Nat} (hb : free h o b ≠ none) : h b ≠ none ∧ o ≠ some b := by
  cases o with
  | none => exact ⟨hb, by simp⟩
  | some c =>
    by_cases e : b = c
    · subst e; exact absurd (set_same _ _ _) hb
    · simp only [free, set_other _ _ e] at hb
      exact ⟨hb, by simp; exact fun h' => e h'.symm⟩

theorem copyVec_ne {h : Heap} {next : Nat} {c : List Byte} {b : Nat} (hb : (copyVec h next c).1 b ≠ none) : (copyVec h next c).2.2 = some b ∨ h b ≠ none := by
  unfold copyVec at *
  by_cases hc : c = []
  · simp only [hc, if_true] at hb ⊢; exact Or.inr hb
  · rw [if_neg hc] at hb ⊢
    by_cases e : b = next
    · subst e; exact Or.inl rfl
    · simp only [set_other _ _ e] at hb; exact Or.inr hb

theorem assignVec_ne {h : Heap} {next : Nat} {old : Option Nat} {reuse : Bool} {c : List Byte} {b : Nat} (hb : (assignVec h next old reuse c).1 b ≠ none) :
    (assignVec h next old reuse c).2.2 = some b ∨ (h b ≠ none ∧ old ≠ some b) := by
  have key : (copyVec (free h old) next c).1 b ≠ none → (copyVec (free h old) next c).2.2 = some b ∨ (h b ≠ none ∧ old ≠ some b) := by
    intro hb
    rcases copyVec_ne hb with h1 | h1
    · exact Or.inl h1
    · exact Or.inr (free_ne h1)
  cases old with
  | none => exact key hb
  | some b' =>
    cases reuse with
    | false => exact key hb
    | true =>
      by_cases e : b = b'
      · subst e; exact Or.inl rfl
      · simp only [assignVec, set_other _ _ e] at hb
        exact Or.inr ⟨hb, by simp; exact fun h' => e h'.symm⟩

theorem step_noLeak {n : Nat} (moved : M → M) {s s' : State M} (op : Op M) (i : NoLeak n s.heap s.objs) (h : step moved s op = some s') : NoLeak n s'.heap s'.objs := by
  cases op with
  | view x m v =>
    simp only [step] at h
    split at h
    · rename_i hx
      cases h
      exact noLeak_set i x _ fun b hb => Or.inr ⟨hb, fun o ho => by rw [hx] at ho; cases ho⟩
    · cases h
  | viz x m out =>
    simp only [step] at h
    split at h
    · cases h
    · rename_i o ho
      cases h
      refine noLeak_set i x _ fun b hb => ?_
      by_cases e : b = s.next
      · subst e; exact Or.inl ⟨_, rfl, rfl⟩
      · simp only [set_other _ _ e] at hb
        obtain ⟨h1, h2⟩ := free_ne hb
        exact Or.inr ⟨h1, fun o' ho' => by rw [ho] at ho'; cases ho'; exact h2⟩
  | copyNew x y =>
    simp only [step] at h
    split at h
    · rename_i o hx ho
      cases h
      refine noLeak_set i x _ fun b hb => ?_
      rcases copyVec_ne hb with h1 | h1
      · exact Or.inl ⟨_, rfl, by rw [rebind_owned]; exact h1⟩
      · exact Or.inr ⟨h1, fun o' ho' => by rw [hx] at ho'; cases ho'⟩
    · cases h
  | copyAssign x y reuse =>
    simp only [step] at h
    split at h
    · rename_i t o ht ho
      split at h
      · cases h; exact i
      · cases h
        refine noLeak_set i x _ fun b hb => ?_
        rcases assignVec_ne hb with h1 | ⟨h1, h2⟩
        · exact Or.inl ⟨_, rfl, by rw [rebind_owned]; exact h1⟩
        · exact Or.inr ⟨h1, fun o' ho' => by rw [ht] at ho'; cases ho'; exact h2⟩
    · cases h
  | moveNew x y =>
    simp only [step] at h
    split at h
    · rename_i o hx ho
      cases h
      have hxy : y ≠ x := by rintro rfl; rw [hx] at ho; cases ho
      intro b hb
      rcases i b hb with h3 | ⟨z, o', h3, h4⟩
      · exact Or.inl h3
      · by_cases e : z = y
        · subst e
          rw [ho] at h3; cases h3
          exact Or.inr ⟨x, _, set_same _ _ _, by rw [rebind_owned]; exact h4⟩
        · refine Or.inr ⟨z, o', ?_, h4⟩
          have hzx : z ≠ x := by rintro rfl; rw [hx] at h3; cases h3
          simp only [moveNew, set_other _ _ hzx, set_other _ _ e]
          exact h3
    · cases h
  | moveAssign x y =>
    simp only [step] at h
    split at h
    · rename_i t o ht ho
      split at h
      · cases h; exact i
      · rename_i hxy
        cases h
        intro b hb
        obtain ⟨h1, h2⟩ := free_ne hb
        rcases i b h1 with h3 | ⟨z, o', h3, h4⟩
        · exact Or.inl h3
        · by_cases e : z = y
          · subst e
            rw [ho] at h3; cases h3
            exact Or.inr ⟨x, _, set_same _ _ _, by rw [rebind_owned]; exact h4⟩
          · refine Or.inr ⟨z, o', ?_, h4⟩
            have hzx : z ≠ x := by rintro rfl; rw [ht] at h3; cases h3; exact h2 h4
            simp only [moveAssign, set_other _ _ hzx, set_other _ _ e]
            exact h3
    · cases h
  | destroy x =>
    simp only [step] at h
    split at h
    · cases h
    · rename_i o ho
      cases h
      refine noLeak_set i x _ fun b hb => ?_
      obtain ⟨h1, h2⟩ := free_ne hb
      exact Or.inr ⟨h1, fun o' ho' => by rw [ho] at ho'; cases ho'; exact h2⟩

theorem run_noLeak {n : Nat} (moved : M → M) (ops : List (Op M)) {s s' : State M} (i : NoLeak n s.heap s.objs) (h : run moved s ops = some s') :
    NoLeak n s'.heap s'.objs := by
  induction ops generalizing s with
  | nil => cases h; exact i
  | cons op ops ih =>
    simp only [run] at h
    split at h
    · cases h
    · rename_i s1 e
      exact ih (step_noLeak moved op i e) h

end Cloudini.RosOwn
