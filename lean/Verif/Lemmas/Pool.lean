import Verif.Model.Pool

/-!
# The pool invariant
-/

namespace Cloudini.Pool

variable {A : Type}

theorem set_same {α : Type} (f : Nat → α) (k : Nat) (v : α) : set f k v k = v := if_pos rfl

theorem set_other {α : Type} (f : Nat → α) {k i : Nat} (v : α) (h : i ≠ k) : set f k v i = f i := if_neg h

structure Inv (s : State A) : Prop where
  size : s.pool.length ≤ maxPoolSize
  nodup : s.pool.Nodup
  pend : s.pending.Nodup
  /-- pooled clouds are there, empty, and nobody's -/
  pooled : ∀ p ∈ s.pool, s.refs p = 0 ∧ p ∉ s.pending ∧ ∃ c, s.heap p = some c ∧ c.data = [] ∧ c.fields = []
  pending : ∀ p ∈ s.pending, s.refs p = 0 ∧ (s.heap p).isSome
  held : ∀ p, 0 < s.refs p → (s.heap p).isSome
  leak : ∀ p, (s.heap p).isSome → p ∈ s.pool ∨ p ∈ s.pending ∨ 0 < s.refs p
  dead : s.alive = false → s.pool = []

theorem init_inv : Inv (init (A := A)) where
  size := by simp [init]
  nodup := by simp [init]
  pend := by simp [init]
  pooled p h := by simp [init] at h
  pending p h := by simp [init] at h
  held p h := by simp [init] at h
  leak p h := by simp [init] at h
  dead _ := rfl

theorem step_inv (blank : A) {s s' : State A} {op : Op A} {r : Option Nat} (i : Inv s) (h : step blank s op = .ok s' r) : Inv s' := by
  cases op with
  | acquire p =>
    simp only [step] at h
    split at h
    · rename_i ha
      split at h
      · rename_i q rest hp
        simp only [Out.ok.injEq] at h
        obtain ⟨rfl, -⟩ := h
        have hn := i.nodup
        rw [hp] at hn
        have hq := i.pooled q (by rw [hp]; exact .head _)
        constructor
        · have := i.size; rw [hp] at this; simp only [List.length_cons] at this; show rest.length ≤ _; omega
        · exact (List.nodup_cons.1 hn).2
        · exact i.pend
        · intro p hp'
          obtain ⟨h1, h2, h3⟩ := i.pooled p (by rw [hp]; exact .tail _ hp')
          have : p ≠ q := by rintro rfl; exact (List.nodup_cons.1 hn).1 hp'
          exact ⟨by simp only [set_other _ _ this]; exact h1, h2, h3⟩
        · intro p hp'
          obtain ⟨h1, h2⟩ := i.pending p hp'
          have : p ≠ q := by rintro rfl; exact hq.2.1 hp'
          exact ⟨by simp only [set_other _ _ this]; exact h1, h2⟩
        · intro p hp'
          by_cases e : p = q
          · subst e; obtain ⟨c, hc, -⟩ := hq.2.2; simp [hc]
          · simp only [set_other _ _ e] at hp'; exact i.held p hp'
        · intro p hp'
          by_cases e : p = q
          · subst e; exact Or.inr (Or.inr (by simp [set_same]))
          · rcases i.leak p hp' with h | h | h
            · rw [hp] at h
              rcases List.mem_cons.1 h with h | h
              · exact absurd h e
              · exact Or.inl h
            · exact Or.inr (Or.inl h)
            · exact Or.inr (Or.inr (by simp only [set_other _ _ e]; exact h))
        · intro h; simp only at h; rw [ha] at h; cases h
      · rename_i hp
        split at h
        · rename_i hnone
          simp only [Out.ok.injEq] at h
          obtain ⟨rfl, -⟩ := h
          have hnp : s.heap p = none := by simpa using hnone
          constructor
          · exact i.size
          · exact i.nodup
          · exact i.pend
          · intro q hq; simp only [hp] at hq; cases hq
          · intro q hq
            obtain ⟨h1, h2⟩ := i.pending q hq
            have : q ≠ p := by rintro rfl; rw [hnp] at h2; cases h2
            simp only [set_other _ _ this]; exact ⟨h1, h2⟩
          · intro q hq
            by_cases e : q = p
            · subst e; simp [set_same]
            · simp only [set_other _ _ e] at hq ⊢; exact i.held q hq
          · intro q hq
            by_cases e : q = p
            · subst e; exact Or.inr (Or.inr (by simp [set_same]))
            · simp only [set_other _ _ e] at hq ⊢; exact i.leak q hq
          · exact i.dead
        · cases h
    · cases h
  | write p c =>
    simp only [step] at h
    split at h
    · rename_i hr
      simp only [Out.ok.injEq] at h
      obtain ⟨rfl, -⟩ := h
      constructor
      · exact i.size
      · exact i.nodup
      · exact i.pend
      · intro q hq
        obtain ⟨h1, h2, h3⟩ := i.pooled q hq
        have : q ≠ p := by rintro rfl; omega
        exact ⟨h1, h2, by simp only [set_other _ _ this]; exact h3⟩
      · intro q hq
        obtain ⟨h1, h2⟩ := i.pending q hq
        have : q ≠ p := by rintro rfl; omega
        exact ⟨h1, by simp only [set_other _ _ this]; exact h2⟩
      · intro q hq
        by_cases e : q = p
        · subst e; simp [set_same]
        · simp only [set_other _ _ e]; exact i.held q hq
      · intro q hq
        by_cases e : q = p
        · subst e; exact Or.inr (Or.inr hr)
        · simp only [set_other _ _ e] at hq; exact i.leak q hq
      · exact i.dead
    · cases h
  | share p =>
    simp only [step] at h
    split at h
    · rename_i hr
      simp only [Out.ok.injEq] at h
      obtain ⟨rfl, -⟩ := h
      constructor
      · exact i.size
      · exact i.nodup
      · exact i.pend
      · intro q hq
        obtain ⟨h1, h2, h3⟩ := i.pooled q hq
        have : q ≠ p := by rintro rfl; omega
        exact ⟨by simp only [set_other _ _ this]; exact h1, h2, h3⟩
      · intro q hq
        obtain ⟨h1, h2⟩ := i.pending q hq
        have : q ≠ p := by rintro rfl; omega
        exact ⟨by simp only [set_other _ _ this]; exact h1, h2⟩
      · intro q hq
        by_cases e : q = p
        · subst e; exact i.held q hr
        · simp only [set_other _ _ e] at hq; exact i.held q hq
      · intro q hq
        by_cases e : q = p
        · subst e; exact Or.inr (Or.inr (by simp [set_same]))
        · simp only [set_other _ _ e]; exact i.leak q hq
      · exact i.dead
    · cases h
  | drop p =>
    simp only [step] at h
    split at h
    · cases h
    · rename_i h0
      split at h
      · rename_i h1
        simp only [Out.ok.injEq] at h
        obtain ⟨rfl, -⟩ := h
        have hnp : p ∉ s.pending := fun hm => h0 (i.pending p hm).1
        constructor
        · exact i.size
        · exact i.nodup
        · exact List.nodup_cons.2 ⟨hnp, i.pend⟩
        · intro q hq
          obtain ⟨h2, h3, h4⟩ := i.pooled q hq
          have : q ≠ p := by rintro rfl; exact h0 h2
          exact ⟨by simp only [set_other _ _ this]; exact h2, by simp [this, h3], h4⟩
        · intro q hq
          by_cases e : q = p
          · subst e; exact ⟨set_same _ _ _, i.held q (by omega)⟩
          · simp only [set_other _ _ e]
            exact i.pending q (by rcases List.mem_cons.1 hq with h | h; exact absurd h e; exact h)
        · intro q hq
          by_cases e : q = p
          · subst e; simp [set_same] at hq
          · simp only [set_other _ _ e] at hq; exact i.held q hq
        · intro q hq
          by_cases e : q = p
          · subst e; exact Or.inr (Or.inl (.head _))
          · simp only [set_other _ _ e]
            rcases i.leak q hq with h | h | h
            · exact Or.inl h
            · exact Or.inr (Or.inl (.tail _ h))
            · exact Or.inr (Or.inr h)
        · exact i.dead
      · rename_i h1
        simp only [Out.ok.injEq] at h
        obtain ⟨rfl, -⟩ := h
        constructor
        · exact i.size
        · exact i.nodup
        · exact i.pend
        · intro q hq
          obtain ⟨h2, h3, h4⟩ := i.pooled q hq
          have : q ≠ p := by rintro rfl; exact h0 h2
          exact ⟨by simp only [set_other _ _ this]; exact h2, h3, h4⟩
        · intro q hq
          obtain ⟨h2, h3⟩ := i.pending q hq
          have : q ≠ p := by rintro rfl; exact h0 h2
          exact ⟨by simp only [set_other _ _ this]; exact h2, h3⟩
        · intro q hq
          by_cases e : q = p
          · subst e; exact i.held q (by omega)
          · simp only [set_other _ _ e] at hq; exact i.held q hq
        · intro q hq
          by_cases e : q = p
          · subst e; exact Or.inr (Or.inr (by simp only [set_same]; omega))
          · simp only [set_other _ _ e]; exact i.leak q hq
        · exact i.dead
  | deleter p =>
    simp only [step] at h
    split at h
    · rename_i hm
      have hpend := i.pending p hm
      have herase : ∀ q, q ∈ s.pending.erase p ↔ q ≠ p ∧ q ∈ s.pending := fun q => by rw [i.pend.mem_erase_iff]
      split at h
      · rename_i ha
        split at h
        · cases h
        · rename_i c hc
          split at h
          · rename_i hl
            simp only [Out.ok.injEq] at h
            obtain ⟨rfl, -⟩ := h
            constructor
            · show s.pool.length + 1 ≤ _; omega
            · exact List.nodup_cons.2 ⟨fun hp => (i.pooled p hp).2.1 hm, i.nodup⟩
            · exact i.pend.erase p
            · intro q hq
              by_cases e : q = p
              · subst e
                exact ⟨hpend.1, by rw [herase]; exact fun h => h.1 rfl, _, set_same _ _ _, rfl, rfl⟩
              · obtain ⟨h2, h3, h4⟩ := i.pooled q (by rcases List.mem_cons.1 hq with h | h; exact absurd h e; exact h)
                exact ⟨h2, by rw [herase]; exact fun h => h3 h.2, by simp only [set_other _ _ e]; exact h4⟩
            · intro q hq
              rw [herase] at hq
              simp only [set_other _ _ hq.1]
              exact i.pending q hq.2
            · intro q hq
              by_cases e : q = p
              · subst e; simp [set_same]
              · simp only [set_other _ _ e]; exact i.held q hq
            · intro q hq
              by_cases e : q = p
              · subst e; exact Or.inl (.head _)
              · simp only [set_other _ _ e] at hq
                rcases i.leak q hq with h | h | h
                · exact Or.inl (.tail _ h)
                · exact Or.inr (Or.inl ((herase q).2 ⟨e, h⟩))
                · exact Or.inr (Or.inr h)
            · intro h; simp only at h; rw [ha] at h; cases h
          · simp only [Out.ok.injEq] at h
            obtain ⟨rfl, -⟩ := h
            constructor
            · exact i.size
            · exact i.nodup
            · exact i.pend.erase p
            · intro q hq
              obtain ⟨h2, h3, h4⟩ := i.pooled q hq
              have e : q ≠ p := by rintro rfl; exact h3 hm
              exact ⟨h2, by rw [herase]; exact fun h => h3 h.2, by simp only [set_other _ _ e]; exact h4⟩
            · intro q hq
              rw [herase] at hq
              simp only [set_other _ _ hq.1]
              exact i.pending q hq.2
            · intro q hq
              have e : q ≠ p := by rintro rfl; simp only at hq; omega
              simp only [set_other _ _ e]; exact i.held q hq
            · intro q hq
              by_cases e : q = p
              · subst e; simp [set_same] at hq
              · simp only [set_other _ _ e] at hq
                rcases i.leak q hq with h | h | h
                · exact Or.inl h
                · exact Or.inr (Or.inl ((herase q).2 ⟨e, h⟩))
                · exact Or.inr (Or.inr h)
            · intro h; simp only at h; rw [ha] at h; cases h
      · cases h
    · cases h
  | destroy =>
    simp only [step] at h
    split at h
    · simp only [Out.ok.injEq] at h
      obtain ⟨rfl, -⟩ := h
      have hnot : ∀ p, p ∈ s.pending ∨ 0 < s.refs p → p ∉ s.pool := by
        intro p hp hm
        obtain ⟨h1, h2, -⟩ := i.pooled p hm
        rcases hp with hp | hp
        · exact h2 hp
        · omega
      constructor
      · simp
      · exact List.nodup_nil
      · exact i.pend
      · intro q hq; cases hq
      · intro q hq
        refine ⟨(i.pending q hq).1, ?_⟩
        simp only [freeAll, if_neg (hnot q (Or.inl hq))]
        exact (i.pending q hq).2
      · intro q hq
        simp only [freeAll, if_neg (hnot q (Or.inr hq))]
        exact i.held q hq
      · intro q hq
        by_cases e : q ∈ s.pool
        · simp [freeAll, e] at hq
        · simp only [freeAll, if_neg e] at hq
          rcases i.leak q hq with h | h
          · exact absurd h e
          · exact Or.inr h
      · intro _; rfl
    · cases h

theorem run_inv (blank : A) (ops : List (Op A)) {s s' : State A} {r : Option Nat} (i : Inv s) (h : run blank s ops = .ok s' r) : Inv s' := by
  induction ops generalizing s with
  | nil => simp only [run, Out.ok.injEq] at h; obtain ⟨rfl, -⟩ := h; exact i
  | cons op ops ih =>
    simp only [run] at h
    split at h
    · rename_i s1 r1 e
      exact ih (step_inv blank i e) h
    · cases h
    · cases h

end Cloudini.Pool
