import Verif.Lemmas.Pool

/-!
# C45: the object pool of the PCL subscriber

`Reached blank ops s`: the history `ops` (any interleaving of acquisitions, writes, copies and drops of references, deleters and the
destructor) leads from a new subscriber to `s`.
-/

namespace Cloudini.Props

open Cloudini.Pool

variable {A : Type}

/-- The history leads to `s` without undefined behaviour. -/
def PoolReached (blank : A) (ops : List (Op A)) (s : Pool.State A) : Prop := ∃ r, Pool.run blank Pool.init ops = .ok s r

/-- **C45, acquire.** The cloud handed out is not referenced by anybody, not waiting for its deleter, has no data and no fields, and has then
exactly one reference; all other clouds and reference counts are as before. -/
theorem C45_acquire (blank : A) (ops : List (Op A)) (s s' : Pool.State A) (fresh : Nat) (r : Option Nat) (h : PoolReached blank ops s)
    (ha : Pool.step blank s (.acquire fresh) = .ok s' r) :
    ∃ p c, r = some p ∧ s.refs p = 0 ∧ p ∉ s.pending ∧ s'.heap p = some c ∧ c.data = [] ∧ c.fields = [] ∧ s'.refs p = 1 ∧ p ∉ s'.pool ∧
      ∀ q, q ≠ p → s'.refs q = s.refs q ∧ s'.heap q = s.heap q := by
  obtain ⟨_, e⟩ := h
  have i := Pool.run_inv blank ops Pool.init_inv e
  simp only [Pool.step] at ha
  split at ha
  · split at ha
    · rename_i q rest hp
      simp only [Out.ok.injEq] at ha
      obtain ⟨rfl, rfl⟩ := ha
      obtain ⟨h1, h2, c, h3, h4, h5⟩ := i.pooled q (by rw [hp]; exact .head _)
      have hn := i.nodup
      rw [hp] at hn
      exact ⟨q, c, rfl, h1, h2, h3, h4, h5, Pool.set_same _ _ _, (List.nodup_cons.1 hn).1, fun q' hq => ⟨Pool.set_other _ _ hq, rfl⟩⟩
    · rename_i hp
      split at ha
      · rename_i hnone
        simp only [Out.ok.injEq] at ha
        obtain ⟨rfl, rfl⟩ := ha
        have hnp : s.heap fresh = none := by simpa using hnone
        refine ⟨fresh, _, rfl, ?_, ?_, Pool.set_same _ _ _, rfl, rfl, Pool.set_same _ _ _, by simp only [hp]; simp,
          fun q' hq => ⟨Pool.set_other _ _ hq, Pool.set_other _ _ hq⟩⟩
        · exact Classical.byContradiction fun hr => by have := i.held fresh (by omega); rw [hnp] at this; cases this
        · intro hm; have := (i.pending fresh hm).2; rw [hnp] at this; cases this
      · cases ha
  · cases ha

/-- **C45, bound.** The pool never holds more than four clouds, none twice. -/
theorem C45_bound (blank : A) (ops : List (Op A)) (s : Pool.State A) (h : PoolReached blank ops s) : s.pool.length ≤ 4 ∧ s.pool.Nodup := by
  obtain ⟨_, e⟩ := h
  have i := Pool.run_inv blank ops Pool.init_inv e
  exact ⟨i.size, i.nodup⟩

/-- **C45, holders.** A referenced cloud exists, is not in the pool, and no step but a write by a holder changes it, not even the destructor. -/
theorem C45_holder (blank : A) (ops : List (Op A)) (s : Pool.State A) (h : PoolReached blank ops s) (p : Nat) (hp : 0 < s.refs p) :
    (s.heap p).isSome ∧ p ∉ s.pool ∧
      ∀ op s' r, Pool.step blank s op = .ok s' r → (∀ c, op ≠ .write p c) → s'.heap p = s.heap p := by
  obtain ⟨_, e⟩ := h
  have i := Pool.run_inv blank ops Pool.init_inv e
  have hnp : p ∉ s.pool := fun hm => by have := (i.pooled p hm).1; omega
  refine ⟨i.held p hp, hnp, ?_⟩
  intro op s' r hs hw
  cases op with
  | acquire q =>
    simp only [Pool.step] at hs
    split at hs
    · split at hs
      · simp only [Out.ok.injEq] at hs; obtain ⟨rfl, -⟩ := hs; rfl
      · split at hs
        · rename_i hnone
          simp only [Out.ok.injEq] at hs; obtain ⟨rfl, -⟩ := hs
          refine Pool.set_other _ _ ?_
          rintro rfl
          have := i.held p hp
          rw [Option.isNone_iff_eq_none.1 hnone] at this
          cases this
        · cases hs
    · cases hs
  | write q c =>
    simp only [Pool.step] at hs
    split at hs
    · simp only [Out.ok.injEq] at hs; obtain ⟨rfl, -⟩ := hs
      exact Pool.set_other _ _ (by rintro rfl; exact hw c rfl)
    · cases hs
  | share q =>
    simp only [Pool.step] at hs
    split at hs
    · simp only [Out.ok.injEq] at hs; obtain ⟨rfl, -⟩ := hs; rfl
    · cases hs
  | drop q =>
    simp only [Pool.step] at hs
    split at hs
    · cases hs
    · split at hs
      · simp only [Out.ok.injEq] at hs; obtain ⟨rfl, -⟩ := hs; rfl
      · simp only [Out.ok.injEq] at hs; obtain ⟨rfl, -⟩ := hs; rfl
  | deleter q =>
    simp only [Pool.step] at hs
    split at hs
    · rename_i hm
      have hne : p ≠ q := by rintro rfl; have := (i.pending p hm).1; omega
      split at hs
      · split at hs
        · cases hs
        · split at hs
          · simp only [Out.ok.injEq] at hs; obtain ⟨rfl, -⟩ := hs; exact Pool.set_other _ _ hne
          · simp only [Out.ok.injEq] at hs; obtain ⟨rfl, -⟩ := hs; exact Pool.set_other _ _ hne
      · cases hs
    · cases hs
  | destroy =>
    simp only [Pool.step] at hs
    split at hs
    · simp only [Out.ok.injEq] at hs; obtain ⟨rfl, -⟩ := hs; exact if_neg hnp
    · cases hs

/-- **C45, no leak.** Every cloud in memory is in the pool, referenced, or waiting for its deleter; none is left when the subscriber is gone
and nobody holds any. -/
theorem C45_no_leak (blank : A) (ops : List (Op A)) (s : Pool.State A) (h : PoolReached blank ops s) (p : Nat) (hp : (s.heap p).isSome) :
    p ∈ s.pool ∨ p ∈ s.pending ∨ 0 < s.refs p := by
  obtain ⟨_, e⟩ := h
  exact (Pool.run_inv blank ops Pool.init_inv e).leak p hp

/-- **C45, undefined behaviour, exactly.** The only one is a deleter running after the subscriber is gone. -/
theorem C45_ub_iff (blank : A) (ops : List (Op A)) (s : Pool.State A) (h : PoolReached blank ops s) (op : Op A) :
    Pool.step blank s op = .ub ↔ s.alive = false ∧ ∃ p ∈ s.pending, op = .deleter p := by
  obtain ⟨_, e⟩ := h
  have i := Pool.run_inv blank ops Pool.init_inv e
  constructor
  · intro hs
    cases op with
    | acquire q => simp only [Pool.step] at hs; repeat (split at hs <;> first | cases hs | skip)
    | write q c => simp only [Pool.step] at hs; split at hs <;> cases hs
    | share q => simp only [Pool.step] at hs; split at hs <;> cases hs
    | drop q => simp only [Pool.step] at hs; repeat (split at hs <;> first | cases hs | skip)
    | destroy => simp only [Pool.step] at hs; split at hs <;> cases hs
    | deleter q =>
      simp only [Pool.step] at hs
      split at hs
      · rename_i hm
        split at hs
        · split at hs
          · rename_i hc; have := (i.pending q hm).2; rw [hc] at this; cases this
          · split at hs <;> cases hs
        · rename_i ha; exact ⟨by simpa using ha, q, hm, rfl⟩
      · cases hs
  · rintro ⟨ha, p, hm, rfl⟩
    simp [Pool.step, hm, ha]

/-- **C45, safety (partial).** Histories in which the subscriber is not destroyed have no undefined behaviour.  Missing: clouds that outlive it
(`C45_outlives_ub`). -/
theorem C45_safe_partial (blank : A) (ops : List (Op A)) (hd : .destroy ∉ ops) : Pool.run blank Pool.init ops ≠ .ub := by
  have key : ∀ (ops : List (Op A)) (s : Pool.State A), Pool.Inv s → s.alive = true → .destroy ∉ ops → Pool.run blank s ops ≠ .ub := by
    intro ops
    induction ops with
    | nil => intro s _ _ _ h; cases h
    | cons op ops ih =>
      intro s i ha hn h
      simp only [Pool.run] at h
      split at h
      · rename_i s1 r1 e
        refine ih s1 (Pool.step_inv blank i e) ?_ (fun hm => hn (.tail _ hm)) h
        cases op with
        | destroy => exact absurd (.head _) hn
        | acquire q =>
          simp only [Pool.step] at e
          repeat (split at e <;> first | (simp only [Out.ok.injEq] at e; obtain ⟨rfl, -⟩ := e; exact ha) | cases e | skip)
        | write q c =>
          simp only [Pool.step] at e
          repeat (split at e <;> first | (simp only [Out.ok.injEq] at e; obtain ⟨rfl, -⟩ := e; exact ha) | cases e | skip)
        | share q =>
          simp only [Pool.step] at e
          repeat (split at e <;> first | (simp only [Out.ok.injEq] at e; obtain ⟨rfl, -⟩ := e; exact ha) | cases e | skip)
        | drop q =>
          simp only [Pool.step] at e
          repeat (split at e <;> first | (simp only [Out.ok.injEq] at e; obtain ⟨rfl, -⟩ := e; exact ha) | cases e | skip)
        | deleter q =>
          simp only [Pool.step] at e
          repeat (split at e <;> first | (simp only [Out.ok.injEq] at e; obtain ⟨rfl, -⟩ := e; exact ha) | cases e | skip)
      · rename_i e
        cases op with
        | deleter q =>
          simp only [Pool.step] at e
          split at e
          · rename_i hm
            split at e
            · rename_i hc; have := (i.pending q hm).2; rw [hc] at this; cases this
            · split at e <;> cases e
          · cases e
        | acquire q => simp only [Pool.step] at e; repeat (split at e <;> first | cases e | skip)
        | write q c => simp only [Pool.step] at e; split at e <;> cases e
        | share q => simp only [Pool.step] at e; split at e <;> cases e
        | drop q => simp only [Pool.step] at e; repeat (split at e <;> first | cases e | skip)
        | destroy => simp only [Pool.step] at e; split at e <;> cases e
      · cases h
  exact key ops Pool.init Pool.init_inv rfl hd

/-- **C45, clouds that outlive the subscriber.** The deleter uses the subscriber through `this`: dropping the last reference to a cloud after
the destructor ran is undefined behaviour. -/
theorem C45_outlives_ub (blank : A) : Pool.run blank Pool.init [.acquire 7, .destroy, .drop 7, .deleter 7] = .ub := by
  rfl

/-- **C45, stale members.** Only data and fields are cleared: the rest of a cloud (its header) is what the previous user left. -/
theorem C45_stale_members (blank x : A) : ∃ s s' r c, PoolReached blank [.acquire 7, .write 7 ⟨[1#8], [], x⟩, .drop 7, .deleter 7] s ∧
    Pool.step blank s (.acquire 9) = .ok s' r ∧ r = some 7 ∧ s'.heap 7 = some c ∧ c.other = x :=
  ⟨_, _, _, _, ⟨_, rfl⟩, rfl, rfl, rfl, rfl⟩

/-- A history that fills the pool, deletes the fifth cloud and re-uses one while another is held. -/
example : ∃ s, PoolReached (A := Unit) () [.acquire 1, .acquire 2, .acquire 3, .acquire 4, .acquire 5, .share 1, .drop 2, .drop 3, .drop 4, .deleter 3, .deleter 2,
      .deleter 4, .drop 5, .deleter 5, .drop 1, .acquire 6] s ∧ s.pool = [4, 2, 3] ∧ s.refs 1 = 1 ∧ s.refs 5 = 1 := by
  exact ⟨_, ⟨_, rfl⟩, rfl, rfl, rfl⟩

/-- The theorems applied to that history. -/
example : ∃ s, PoolReached (A := Unit) () [.acquire 1, .acquire 2, .acquire 3, .acquire 4, .acquire 5, .share 1, .drop 2, .drop 3, .drop 4, .deleter 3, .deleter 2,
      .deleter 4, .drop 5, .deleter 5, .drop 1, .acquire 6] s ∧ s.pool.length ≤ 4 ∧
    (∀ fresh s' r, Pool.step () s (.acquire fresh) = .ok s' r → ∃ p, r = some p ∧ s.refs p = 0 ∧ s'.refs p = 1) ∧ (s.heap 1).isSome ∧ 1 ∉ s.pool ∧
    (4 ∈ s.pool ∨ 4 ∈ s.pending ∨ 0 < s.refs 4) ∧ ∀ op, Pool.step () s op ≠ .ub := by
  obtain ⟨s, hr, _, h1, h4, ha⟩ : ∃ s, PoolReached (A := Unit) () [.acquire 1, .acquire 2, .acquire 3, .acquire 4, .acquire 5, .share 1, .drop 2, .drop 3, .drop 4,
      .deleter 3, .deleter 2, .deleter 4, .drop 5, .deleter 5, .drop 1, .acquire 6] s ∧ s.pool = [4, 2, 3] ∧ s.refs 1 = 1 ∧ (s.heap 4).isSome ∧ s.alive = true :=
    ⟨_, ⟨_, rfl⟩, rfl, rfl, rfl, rfl⟩
  have h1' : 0 < s.refs 1 := by omega
  refine ⟨s, hr, (C45_bound _ _ _ hr).1, ?_, (C45_holder _ _ _ hr 1 h1').1, (C45_holder _ _ _ hr 1 h1').2.1, C45_no_leak _ _ _ hr 4 h4, ?_⟩
  · intro fresh s' r h
    obtain ⟨p, c, h1, h2, _, _, _, _, h3, _⟩ := C45_acquire _ _ _ _ fresh r hr h
    exact ⟨p, h1, h2, h3⟩
  · intro op h
    have := ((C45_ub_iff _ _ _ hr op).1 h).1
    rw [ha] at this
    simp at this

end Cloudini.Props
