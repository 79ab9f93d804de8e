import Verif.Lemmas.Threads

/-! Progress, termination and absence of data races of the two-thread program. -/

namespace Cloudini.Threads

theorem mutex_free {C : Compressor} {opt : CompOpt} {s : St} (h : Inv C opt s) (hm : s.mpc.holds = false) (hw : s.wpc.holds = false) : s.mutex = none := by
  cases hx : s.mutex with
  | none => rfl
  | some t =>
    cases t with
    | main => have := h.mutexM.1 hx; rw [hm] at this; cases this
    | worker => have := h.mutexW.1 hx; rw [hw] at this; cases this

/-- The worker can move unless it sleeps, has finished, or main is inside a critical section. -/
theorem worker_enabled {C : Compressor} {opt : CompOpt} {s : St} (h : Inv C opt s) (hm : s.mpc.holds = false) (ha : s.wpc ≠ .asleep) (he : s.wpc ≠ .exited) :
    ∃ s', workStep C opt s = some s' := by
  unfold workStep
  cases hw : s.wpc
  case asleep => exact absurd hw ha
  case exited => exact absurd hw he
  case lockTop => have := mutex_free h hm (by simp [hw, WPc.holds]); simp [lockW, this]
  case lockDone => have := mutex_free h hm (by simp [hw, WPc.holds]); simp [lockW, this]
  case lockFail => have := mutex_free h hm (by simp [hw, WPc.holds]); simp [lockW, this]
  case inTop => simp only; split; · split <;> exact ⟨_, rfl⟩
                · exact ⟨_, rfl⟩
  case grab => simp only; split <;> exact ⟨_, rfl⟩
  case compress =>
    simp only
    cases hc : compressChunk C opt (s.compressing.take s.csize) s.wview.room with
    | ok y => exact ⟨_, rfl⟩
    | throw m => exact ⟨_, rfl⟩
    | ub k => exact absurd hc (compressChunk_noUB C opt _ _ k)
  all_goals exact ⟨_, rfl⟩

/-- While the worker holds the mutex it can move. -/
theorem worker_in_cs {C : Compressor} {opt : CompOpt} {s : St} (hw : s.wpc.holds = true) : ∃ s', workStep C opt s = some s' := by
  unfold workStep
  cases hp : s.wpc <;> simp only [hp, WPc.holds, Bool.false_eq_true] at hw ⊢
  case inTop => split; · split <;> exact ⟨_, rfl⟩
                · exact ⟨_, rfl⟩
  all_goals exact ⟨_, rfl⟩

theorem lock_progress {C : Compressor} {opt : CompOpt} {s : St} (h : Inv C opt s) (hm : s.mpc.holds = false) (next : MPc) :
    (∃ s', lockM s next = some s') ∨ ∃ s', workStep C opt s = some s' := by
  cases hw : s.wpc.holds with
  | true => exact Or.inr (worker_in_cs hw)
  | false => left; simp [lockM, mutex_free h hm hw]

theorem progress {C : Compressor} {opt : CompOpt} {s : St} (h : Inv C opt s) :
    s.mpc = .idle ∨ s.mpc = .dead ∨ (∃ s', mainStep s = some s') ∨ ∃ s', workStep C opt s = some s' := by
  have hpc := h.pc
  cases hm : s.mpc
  case idle => exact Or.inl rfl
  case dead => exact Or.inr (Or.inl rfl)
  all_goals refine Or.inr (Or.inr ?_)
  all_goals unfold mainStep
  all_goals simp only [hm]
  case join =>
    simp only [PcInv, hm] at hpc
    by_cases hw : s.wpc = .exited
    · exact Or.inl ⟨_, by rw [if_pos hw]⟩
    · refine Or.inr (worker_enabled h (by simp [hm, MPc.holds]) ?_ hw)
      intro h'; rw [h'] at hpc; simp [WPc.crashed] at hpc
  case joinExit =>
    simp only [PcInv, hm] at hpc
    by_cases hw : s.wpc = .exited
    · exact Or.inl ⟨_, by rw [if_pos hw]⟩
    · refine Or.inr (worker_enabled h (by simp [hm, MPc.holds]) ?_ hw)
      intro h'; have := h.wakeExit h' hpc.1; rw [hm] at this; cases this
  case sleeping =>
    have hr := run_of_open hpc (by simp [hm, MPc.open])
    simp only [PcInv, hm] at hpc
    right
    refine worker_enabled h (by simp [hm, MPc.holds]) ?_ ?_
    · intro h'
      rcases hr with hr | hr | hr | hr
      · have := hpc.2.2.2.2.2.1 hr.2.1; rw [h'] at this; cases this
      · have := h.wake h' hr.2.2.1; rw [hm] at this; cases this
      · have := hr.2.2.2; simp only [h'] at this
      · have := hr.2.2.2.1; simp [h', WPc.crashed] at this
    · intro h'
      rcases hr with hr | hr | hr | hr
      · have := hr.2.2.2.1; simp [h', WPc.calm] at this
      · have := hr.2.2.2.1; simp [h', WPc.calm] at this
      · have := hr.2.2.2; simp only [h'] at this
      · have := hpc.2.2.2.2.2.2 hr.1; rw [h'] at this; cases this
  case inWait =>
    left
    split
    · split <;> exact ⟨_, rfl⟩
    · exact ⟨_, rfl⟩
  all_goals first
    | exact lock_progress h (by simp [hm, MPc.holds]) _
    | exact Or.inl ⟨_, rfl⟩

/-! ### termination -/

def wrank : WPc → Nat
  | .asleep | .exited => 0
  | .inTop => 1
  | .lockTop => 2
  | .notifyDone => 5
  | .inDone => 6
  | .lockDone => 7
  | .store => 8
  | .compress => 9
  | .grab => 10
  | .notifyFail => 3
  | .inFail => 4
  | .lockFail => 5

def mrank (n : Nat) : MPc → Nat
  | .idle | .dead => 0
  | .lockRespawn => 40 * n + 35
  | .inRespawn => 40 * n + 34
  | .join => 40 * n + 33
  | .lockClear => 40 * n + 32
  | .inClear => 40 * n + 31
  | .spawn => 40 * n + 30
  | .lockReset => 40 * n + 27
  | .inReset => 40 * n + 26
  | .setView => 40 * n + 25
  | .header => 40 * n + 24
  | .alloc => 40 * n + 23
  | .fill => 40 * n + 20
  | .lockWait _ => 40 * n + 19
  | .inWait _ => 40 * n + 18
  | .sleeping _ => 40 * n + 17
  | .lockSubmit => 40 * n + 16
  | .inSubmit => 40 * n + 15
  | .notify => 40 * n + 24
  | .ret => 10
  | .lockExit => 8
  | .inExit => 7
  | .notifyExit => 6
  | .joinExit => 3

/-- Steps left, at most, without spurious wake-ups. -/
def rank (s : St) : Nat := mrank s.todo.length s.mpc + wrank s.wpc + if s.hasData then 10 else 0

theorem wrank_wake (s : St) : wrank (wakeWorker s) ≤ wrank s.wpc + 2 := by
  unfold wakeWorker; split
  · rename_i h; rw [h]; simp [wrank]
  · omega

theorem mrank_wake (s : St) (n : Nat) : mrank n (wakeMain s) ≤ mrank n s.mpc + 2 := by
  unfold wakeMain; split
  · rename_i f h; rw [h]; simp [mrank]
  · omega

theorem rank_main {C : Compressor} {opt : CompOpt} {s s' : St} (h : Inv C opt s) (hs : mainStep s = some s') : rank s' < rank s := by
  have hpc := h.pc
  have hab := h.noAbort
  unfold mainStep at hs
  cases hm : s.mpc
  all_goals simp only [hm, lockM, reduceCtorEq] at hs
  all_goals (try split at hs)
  all_goals (try split at hs)
  all_goals (try simp only [Option.some.injEq, reduceCtorEq] at hs)
  all_goals (try subst hs)
  all_goals unfold rank
  case fill =>
    unfold fillStep
    split
    · split <;> simp_all [mrank]
    · simp_all [mrank]
  case inSubmit =>
    simp only [PcInv, hm] at hpc
    obtain ⟨x, rest, ht, _⟩ := hpc.2.2.2
    have hd := hpc.1.2.2.1
    simp [ht, mrank, hm, hd]
    omega
  case notify =>
    have := wrank_wake s
    simp only [hm, mrank]; omega
  case notifyExit =>
    have := wrank_wake s
    simp only [hm, mrank]; omega
  case spawn =>
    simp only [PcInv, hm] at hpc
    simp [hm, mrank, wrank, hpc.2.2.1]
  case inReset =>
    simp [hm, mrank]
    omega
  case inRespawn => simp only [hm]; split <;> simp only [mrank] <;> omega
  case inWait.isTrue.isFalse => simp only [hm]; split <;> simp only [mrank] <;> omega
  all_goals simp only [hm, mrank]
  all_goals omega

theorem rank_work {C : Compressor} {opt : CompOpt} {s s' : St} (hs : workStep C opt s = some s') : rank s' < rank s := by
  unfold workStep at hs
  cases hm : s.wpc
  all_goals simp only [hm, lockW, reduceCtorEq] at hs
  all_goals (try split at hs)
  all_goals (try split at hs)
  all_goals (try simp only [Option.some.injEq, reduceCtorEq] at hs)
  all_goals (try subst hs)
  all_goals unfold rank
  case notifyDone => have := mrank_wake s s.todo.length; simp only [hm, wrank]; omega
  case notifyFail => have := mrank_wake s s.todo.length; simp only [hm, wrank]; omega
  case inTop.isTrue.isFalse h1 h2 =>
    have : s.hasData = true := by simpa [h2] using h1
    simp [hm, wrank, this]
  all_goals simp only [hm, wrank]
  all_goals omega

/-! ### data races -/

theorem no_race {C : Compressor} {opt : CompOpt} {s : St} (h : Inv C opt s) : ¬ Race s := by
  rintro ⟨l, a, b, hA, hB, hab⟩
  have hpc := h.pc
  have hex : ¬ (s.mpc.holds = true ∧ s.wpc.holds = true) := by
    rintro ⟨h1, h2⟩
    have h1 := h.mutexM.2 h1
    have h2 := h.mutexW.2 h2
    rw [h1] at h2; cases h2
  cases ho : s.mpc.open with
  | false =>
    have hcc := (closed_worker hpc ho).2
    unfold mainAccess at hA
    unfold workAccess at hB
    cases hw : s.wpc <;> simp only [hw, WPc.calm, WPc.crashed, List.not_mem_nil, Bool.false_eq_true, or_self] at hB hcc
    -- only `inTop` is left
    simp only [List.mem_singleton, Prod.mk.injEq] at hB
    obtain ⟨rfl, rfl⟩ := hB
    cases hm : s.mpc <;> simp [hm, hw, MPc.holds, WPc.holds] at hA hex
    all_goals first
      | (simp [PcInv, hm, hw] at hpc; done)
      | (simp [hm, MPc.open] at ho; done)
  | true =>
    unfold mainAccess at hA
    unfold workAccess at hB
    cases hm : s.mpc <;> simp only [hm, MPc.open, Bool.false_eq_true, List.not_mem_nil] at hA ho
    case inWait =>
      cases hw : s.wpc <;> simp [hw] at hB hA <;> simp_all [MPc.holds, WPc.holds]
    case fill =>
      cases hw : s.wpc <;> cases hb : s.stageB <;> simp [hw, hb] at hB hA <;> rcases hA with ⟨rfl, rfl⟩ | ⟨rfl, rfl⟩ <;> simp at hB

end Cloudini.Threads
