import Verif.Spec.Threads

/-! Invariant of the two-thread program. -/

namespace Cloudini.Threads

theorem seqRun_append (C : Compressor) (opt : CompOpt) (a b : List (List Byte)) (r : W × Nat) :
    seqRun C opt (a ++ b) r = (seqRun C opt a r >>= fun r' => seqRun C opt b r') := by
  induction a generalizing r with
  | nil => rfl
  | cons c cs ih =>
    simp only [List.cons_append, seqRun]
    cases workerChunk C opt c r.1 with
    | ok q => simp only [Res.ok_bind, ih]
    | throw m => rfl
    | ub k => rfl

theorem compressChunk_noUB (C : Compressor) (opt : CompOpt) (d : List Byte) (n : Nat) (k : UB) : compressChunk C opt d n ≠ .ub k := by
  unfold compressChunk
  split
  · simp
  · split
    · split
      · simp
      · split <;> simp
    · split
      · simp
      · split <;> simp
    · simp

/-- The result of handing over the chunks so far. -/
def sentRes (C : Compressor) (opt : CompOpt) (s : St) : Res (W × Nat) := seqRun C opt s.sent (start s.call)

def MPc.holds : MPc → Bool
  | .inRespawn | .inClear | .inReset | .inWait _ | .inSubmit | .inExit => true
  | _ => false

def WPc.holds : WPc → Bool
  | .inTop | .inDone | .inFail => true
  | _ => false

def WPc.calm : WPc → Bool
  | .lockTop | .inTop | .asleep | .notifyDone => true
  | _ => false

def WPc.crashed : WPc → Bool
  | .notifyFail | .exited => true
  | _ => false

/-- The buffer main fills. -/
def St.stage (s : St) : List Byte := if s.stageB then s.bufB else s.bufA

/-- Between calls. -/
def Rest (s : St) : Prop := s.hasData = false ∧ ((s.failed = false ∧ s.wpc.calm = true) ∨ (s.failed = true ∧ s.wpc.crashed = true))

def Quiet (C : Compressor) (opt : CompOpt) (s : St) : Prop :=
  s.failed = false ∧ s.done = true ∧ s.hasData = false ∧ s.wpc.calm = true ∧ sentRes C opt s = .ok (s.view, s.size)

def Posted (C : Compressor) (opt : CompOpt) (s : St) : Prop :=
  s.failed = false ∧ s.done = false ∧ s.hasData = true ∧ s.wpc.calm = true ∧
    sentRes C opt s = (workerChunk C opt (s.compressing.take s.csize) s.view >>= fun r => .ok (r.1, s.size + r.2))

def Taken (C : Compressor) (opt : CompOpt) (s : St) : Prop :=
  s.failed = false ∧ s.done = false ∧ s.hasData = false ∧
    match s.wpc with
    | .grab => sentRes C opt s = (workerChunk C opt (s.compressing.take s.csize) s.view >>= fun r => .ok (r.1, s.size + r.2))
    | .compress => ∃ w : W, 4 ≤ w.room ∧ s.wview = ⟨w.out, w.room - 4⟩ ∧
        sentRes C opt s = (workerChunk C opt (s.compressing.take s.csize) w >>= fun r => .ok (r.1, s.size + r.2))
    | .store => sentRes C opt s = .ok (⟨s.wview.out ++ toLE 4 s.wchunk.length ++ s.wchunk, s.wview.room - s.wchunk.length⟩, s.size + (s.wchunk.length + 4))
    | .lockDone | .inDone => sentRes C opt s = .ok (s.view, s.size + (s.wchunk.length + 4))
    | .lockFail | .inFail => sentRes C opt s = .throw s.wmsg
    | _ => False

def Failed (C : Compressor) (opt : CompOpt) (s : St) : Prop :=
  s.failed = true ∧ s.done = false ∧ s.hasData = false ∧ s.wpc.crashed = true ∧ sentRes C opt s = .throw s.exc

def Run (C : Compressor) (opt : CompOpt) (s : St) : Prop := Quiet C opt s ∨ Posted C opt s ∨ Taken C opt s ∨ Failed C opt s

/-- The stage buffer holds the next chunk. -/
def Loaded (s : St) : Prop := ∃ x rest, s.todo = x :: rest ∧ s.stage.take s.cur = x

/-- The result of the last call is that of the sequential program. -/
def ResultOk (C : Compressor) (opt : CompOpt) (s : St) : Prop :=
  ∀ r, s.result = some r → r = (seqRun C opt s.call.chunks (start s.call) >>= fun q => .ok (q.1.out, q.2))

def PcInv (C : Compressor) (opt : CompOpt) (s : St) : Prop :=
  match s.mpc with
  | .idle => Rest s ∧ s.exit = false ∧ ResultOk C opt s
  | .lockRespawn | .inRespawn => Rest s ∧ s.exit = false ∧ s.sent = [] ∧ s.todo = s.call.chunks
  | .join => s.hasData = false ∧ s.failed = true ∧ s.wpc.crashed = true ∧ s.exit = false ∧ s.sent = [] ∧ s.todo = s.call.chunks
  | .lockClear | .inClear => s.hasData = false ∧ s.failed = true ∧ s.wpc = .exited ∧ s.exit = false ∧ s.sent = [] ∧ s.todo = s.call.chunks
  | .spawn => s.hasData = false ∧ s.failed = false ∧ s.wpc = .exited ∧ s.exit = false ∧ s.sent = [] ∧ s.todo = s.call.chunks
  | .lockReset | .inReset => s.hasData = false ∧ s.failed = false ∧ s.wpc.calm = true ∧ s.exit = false ∧ s.sent = [] ∧ s.todo = s.call.chunks
  | .setView => s.hasData = false ∧ s.failed = false ∧ s.wpc.calm = true ∧ s.done = true ∧ s.size = 0 ∧ s.exit = false ∧ s.sent = [] ∧ s.todo = s.call.chunks
  | .header => s.hasData = false ∧ s.failed = false ∧ s.wpc.calm = true ∧ s.done = true ∧ s.size = 0 ∧ s.exit = false ∧ s.sent = [] ∧ s.todo = s.call.chunks
  | .alloc => Quiet C opt s ∧ s.exit = false ∧ s.call.chunks = s.sent ++ s.todo
  | .fill => Run C opt s ∧ s.exit = false ∧ s.call.chunks = s.sent ++ s.todo
  | .lockWait fin | .inWait fin => Run C opt s ∧ s.exit = false ∧ s.call.chunks = s.sent ++ s.todo ∧ (fin = true → s.todo = []) ∧ (fin = false → Loaded s)
  | .sleeping fin => Run C opt s ∧ s.exit = false ∧ s.call.chunks = s.sent ++ s.todo ∧ (fin = true → s.todo = []) ∧ (fin = false → Loaded s) ∧
      (s.done = true → s.wpc = .notifyDone) ∧ (s.failed = true → s.wpc = .notifyFail)
  | .lockSubmit | .inSubmit => Quiet C opt s ∧ s.exit = false ∧ s.call.chunks = s.sent ++ s.todo ∧ Loaded s
  | .notify => Run C opt s ∧ s.exit = false ∧ s.call.chunks = s.sent ++ s.todo
  | .ret => Quiet C opt s ∧ s.exit = false ∧ s.call.chunks = s.sent
  | .lockExit | .inExit => Rest s ∧ s.exit = false
  | .notifyExit | .joinExit => s.exit = true ∧ s.hasData = false ∧ (s.wpc.calm = true ∨ s.wpc.crashed = true)
  | .dead => s.exit = true ∧ s.wpc = .exited

structure Inv (C : Compressor) (opt : CompOpt) (s : St) : Prop where
  mutexM : s.mutex = some .main ↔ s.mpc.holds = true
  mutexW : s.mutex = some .worker ↔ s.wpc.holds = true
  wake : s.wpc = .asleep → s.hasData = true → s.mpc = .notify
  wakeExit : s.wpc = .asleep → s.exit = true → s.mpc = .notifyExit
  noAbort : s.call.abort = none
  pc : PcInv C opt s

theorem inv_init (C : Compressor) (opt : CompOpt) : Inv C opt {} where
  mutexM := by simp [MPc.holds]
  mutexW := by simp [WPc.holds]
  wake := by simp
  wakeExit := by simp
  noAbort := rfl
  pc := ⟨⟨rfl, Or.inl ⟨rfl, rfl⟩⟩, rfl, by intro r h; simp at h⟩


/-- `Run` and its parts do not look at main's program counter or the mutex. -/
theorem Run.congr {C : Compressor} {opt : CompOpt} {s s' : St} (h : Run C opt s)
    (h1 : s'.failed = s.failed) (h2 : s'.done = s.done) (h3 : s'.hasData = s.hasData) (h4 : s'.wpc = s.wpc) (h5 : s'.sent = s.sent)
    (h6 : s'.call = s.call) (h7 : s'.view = s.view) (h8 : s'.size = s.size) (h9 : s'.compressing = s.compressing) (h10 : s'.csize = s.csize)
    (h11 : s'.wview = s.wview) (h12 : s'.wchunk = s.wchunk) (h13 : s'.wmsg = s.wmsg) (h14 : s'.exc = s.exc) : Run C opt s' := by
  unfold Run Quiet Posted Taken Failed sentRes at *
  rw [h1, h2, h3, h4, h5, h6, h7, h8, h9, h10, h11, h12, h13, h14]
  exact h

theorem fill_compressing (s : St) (pc : MPc) (x : List Byte) (n : Nat) :
    (if s.stageB then { s with bufB := overwrite x s.bufB, cur := n, mpc := pc } else { s with bufA := overwrite x s.bufA, cur := n, mpc := pc } : St).compressing
      = s.compressing := by
  cases h : s.stageB <;> simp [St.compressing, h]

theorem take_overwrite (x b : List Byte) : (overwrite x b).take x.length = x := by simp [overwrite]

theorem throw_of_failed {C : Compressor} {opt : CompOpt} {s : St} {m : String} (h : sentRes C opt s = .throw m) (hc : s.call.chunks = s.sent ++ s.todo) :
    Res.throw m = (seqRun C opt s.call.chunks (start s.call) >>= fun q => (.ok (q.1.out, q.2) : Res (List Byte × Nat))) := by
  rw [hc, seqRun_append]
  unfold sentRes at h
  rw [h]; rfl

theorem posted_of_submit {C : Compressor} {opt : CompOpt} {s : St} {x : List Byte} {v : W × Nat} (h : sentRes C opt s = .ok v) :
    seqRun C opt (s.sent ++ [x]) (start s.call) = (workerChunk C opt x v.1 >>= fun r => .ok (r.1, v.2 + r.2)) := by
  rw [seqRun_append]
  unfold sentRes at h
  rw [h]; rfl

theorem wakeWorker_calm (s : St) (h : s.wpc.calm = true) : (wakeWorker s).calm = true := by
  unfold wakeWorker; split
  · rfl
  · exact h

theorem wakeWorker_holds (s : St) : (wakeWorker s).holds = s.wpc.holds := by
  unfold wakeWorker; split
  · rename_i h; rw [h]; rfl
  · rfl

theorem wakeWorker_ne (s : St) : wakeWorker s ≠ .asleep := by
  unfold wakeWorker; split
  · simp
  · assumption

theorem wakeWorker_of_ne (s : St) (h : s.wpc ≠ .asleep) : wakeWorker s = s.wpc := by unfold wakeWorker; rw [if_neg h]

theorem run_wake {C : Compressor} {opt : CompOpt} {s : St} (h : Run C opt s) (pc : MPc) : Run C opt { s with wpc := wakeWorker s, mpc := pc } := by
  by_cases hw : s.wpc = .asleep
  · rcases h with h | h | h | h
    · exact Or.inl ⟨h.1, h.2.1, h.2.2.1, wakeWorker_calm s h.2.2.2.1, h.2.2.2.2⟩
    · exact Or.inr (Or.inl ⟨h.1, h.2.1, h.2.2.1, wakeWorker_calm s h.2.2.2.1, h.2.2.2.2⟩)
    · have := h.2.2.2; simp only [hw] at this
    · have := h.2.2.2.1; simp [hw, WPc.crashed] at this
  · exact h.congr rfl rfl rfl (wakeWorker_of_ne s hw) rfl rfl rfl rfl rfl rfl rfl rfl rfl rfl

theorem run_failed {C : Compressor} {opt : CompOpt} {s : St} (h : Run C opt s) (hf : s.failed = true) : Failed C opt s := by
  rcases h with h | h | h | h
  · have := h.1; rw [hf] at this; cases this
  · have := h.1; rw [hf] at this; cases this
  · have := h.1; rw [hf] at this; cases this
  · exact h

theorem run_done {C : Compressor} {opt : CompOpt} {s : St} (h : Run C opt s) (hf : s.done = true) : Quiet C opt s := by
  rcases h with h | h | h | h
  · exact h
  · have := h.2.1; rw [hf] at this; cases this
  · have := h.2.1; rw [hf] at this; cases this
  · have := h.2.1; rw [hf] at this; cases this

theorem inv_fill {C : Compressor} {opt : CompOpt} {s : St} (h : Inv C opt s) (hm : s.mpc = .fill) : Inv C opt (fillStep s) := by
  obtain ⟨hM, hW, hwk, hwe, hab, hpc⟩ := h
  simp only [PcInv, hm] at hpc
  have hmx : s.mutex ≠ some .main := by intro h; have := hM.1 h; simp [hm, MPc.holds] at this
  have hdat : s.wpc = .asleep → s.hasData = true → False := by intro a b; have := hwk a b; simp [hm] at this
  have hexi : s.wpc = .asleep → s.exit = true → False := by intro a b; have := hwe a b; simp [hm] at this
  unfold fillStep
  cases ht : s.todo with
  | nil =>
    simp only [hab]
    exact ⟨by simp [hmx, MPc.holds], hW, fun a b => (hdat a b).elim, fun a b => (hexi a b).elim, hab,
      hpc.1.congr rfl rfl rfl rfl rfl rfl rfl rfl rfl rfl rfl rfl rfl rfl, hpc.2.1, hpc.2.2.trans (by rw [ht]), fun _ => rfl, by simp⟩
  | cons x rest =>
    simp only
    cases hb : s.stageB
    · simp only [Bool.false_eq_true, if_false]
      refine ⟨by simp [hmx, MPc.holds], hW, fun a b => (hdat a b).elim, fun a b => (hexi a b).elim, hab, ?_, hpc.2.1,
        hpc.2.2.trans (by rw [ht]), by simp, fun _ => ⟨x, rest, rfl, ?_⟩⟩
      · exact hpc.1.congr rfl rfl rfl rfl rfl rfl rfl rfl (by simp [St.compressing, hb]) rfl rfl rfl rfl rfl
      · simp [St.stage, take_overwrite]
    · simp only [if_true]
      refine ⟨by simp [hmx, MPc.holds], hW, fun a b => (hdat a b).elim, fun a b => (hexi a b).elim, hab, ?_, hpc.2.1,
        hpc.2.2.trans (by rw [ht]), by simp, fun _ => ⟨x, rest, rfl, ?_⟩⟩
      · exact hpc.1.congr rfl rfl rfl rfl rfl rfl rfl rfl (by simp [St.compressing, hb]) rfl rfl rfl rfl rfl
      · simp [St.stage, take_overwrite]

theorem inv_main {C : Compressor} {opt : CompOpt} {s s' : St} (h : Inv C opt s) (hs : mainStep s = some s') : Inv C opt s' := by
  obtain ⟨hM, hW, hwk, hwe, hab, hpc⟩ := h
  unfold mainStep at hs
  by_cases hfl : s.mpc = .fill
  · simp only [hfl, Option.some.injEq] at hs
    subst hs
    exact inv_fill ⟨hM, hW, hwk, hwe, hab, hpc⟩ hfl
  cases hm : s.mpc
  case fill => exact absurd hm hfl
  all_goals simp only [hm, lockM, reduceCtorEq] at hs
  all_goals (try split at hs)
  all_goals (try split at hs)
  all_goals (try simp only [Option.some.injEq, reduceCtorEq] at hs)
  all_goals (try subst hs)
  all_goals simp only [PcInv, hm] at hpc
  all_goals constructor
  all_goals try (first
    | (simp_all [MPc.holds, PcInv, Rest]; done)
    | (simp_all [MPc.holds, PcInv, Rest, Quiet, Run, Posted, Taken, Failed, sentRes, wakeWorker]; done))
  all_goals try (first
    | exact hpc
    | (simp_all [WPc.holds, WPc.calm, PcInv]; done)
    | (simp_all [MPc.holds, PcInv, Quiet, sentRes, start, seqRun]; done)
    | (simp [wakeWorker_holds, MPc.holds, wakeWorker_ne]; simp_all [MPc.holds]; done)
    | (simp only [PcInv, wakeWorker_holds]; simp_all [MPc.holds]; done))
  case inWait.isTrue.isTrue.pc =>
    rename_i hf
    have hF := run_failed hpc.1 hf
    exact ⟨⟨hF.2.2.1, Or.inr ⟨hF.1, hF.2.2.2.1⟩⟩, hpc.2.1, by
      intro r hr
      simp only [Option.some.injEq] at hr
      rw [← hr]; exact throw_of_failed hF.2.2.2.2 hpc.2.2.1⟩
  case inWait.isTrue.isFalse.mutexM fin _ _ =>
    cases fin <;> simp [MPc.holds]
  case inWait.isTrue.isFalse.pc fin hd hf =>
    have hd' : s.done = true := by simpa [hf] using hd
    have hQ := run_done hpc.1 hd'
    cases fin with
    | false => exact ⟨hQ, hpc.2.1, hpc.2.2.1, hpc.2.2.2.2 rfl⟩
    | true => exact ⟨hQ, hpc.2.1, by rw [hpc.2.2.1, hpc.2.2.2.1 rfl, List.append_nil]⟩
  case inWait.isFalse.pc fin hd =>
    have hd1 : s.done = false := by cases h : s.done <;> simp_all
    have hd2 : s.failed = false := by cases h : s.failed <;> simp_all
    refine ⟨hpc.1, hpc.2.1, hpc.2.2.1, hpc.2.2.2.1, hpc.2.2.2.2, ?_, ?_⟩
    · intro h; simp only [hd1] at h; cases h
    · intro h; simp only [hd2] at h; cases h
  case inSubmit.pc =>
    obtain ⟨hQ, hE, hC, x, rest, ht, hx⟩ := hpc
    refine ⟨Or.inr (Or.inl ⟨hQ.1, rfl, rfl, hQ.2.2.2.1, ?_⟩), hE, ?_⟩
    · have : (({ s with mutex := none, csize := s.cur, stageB := !s.stageB, hasData := true, done := false, sent := s.sent ++ s.todo.take 1,
                        todo := s.todo.drop 1, mpc := .notify } : St).compressing) = s.stage := by
        cases hb : s.stageB <;> simp [St.compressing, St.stage, hb]
      rw [this]
      simp only [sentRes, ht, List.take_succ_cons, List.take_zero, hx]
      exact posted_of_submit hQ.2.2.2.2
    · simp [ht, hC]
  case notify.wake => exact fun h => absurd h (wakeWorker_ne s)
  case notify.pc => exact ⟨run_wake hpc.1 _, hpc.2⟩
  case ret.pc =>
    obtain ⟨hQ, hE, hC⟩ := hpc
    refine ⟨⟨hQ.2.2.1, Or.inl ⟨hQ.1, hQ.2.2.2.1⟩⟩, hE, ?_⟩
    intro r hr
    simp only [Option.some.injEq] at hr
    have := hQ.2.2.2.2
    unfold sentRes at this
    rw [← hr, hC]
    simp only [this]; rfl
  case inExit.pc =>
    obtain ⟨⟨h1, h2⟩, hE⟩ := hpc
    refine ⟨rfl, h1, ?_⟩
    rcases h2 with h2 | h2
    · exact Or.inl h2.2
    · exact Or.inr h2.2
  case notifyExit.wakeExit => exact fun h => absurd h (wakeWorker_ne s)
  case notifyExit.pc =>
    refine ⟨hpc.1, hpc.2.1, ?_⟩
    rcases hpc.2.2 with h | h
    · exact Or.inl (wakeWorker_calm s h)
    · right
      have : s.wpc ≠ .asleep := by intro h'; simp [h', WPc.crashed] at h
      simp only [wakeWorker_of_ne s this]; exact h


/-- Main is inside the part of a call during which the worker may be working. -/
def MPc.open : MPc → Bool
  | .fill | .lockWait _ | .inWait _ | .sleeping _ | .notify => true
  | _ => false

theorem run_of_open {C : Compressor} {opt : CompOpt} {s : St} (h : PcInv C opt s) (ho : s.mpc.open = true) : Run C opt s := by
  unfold PcInv at h
  cases hm : s.mpc <;> simp only [hm, MPc.open, Bool.false_eq_true] at h ho <;> exact h.1

/-- Away from those parts, no data is pending and the worker is calm or crashed. -/
theorem closed_worker {C : Compressor} {opt : CompOpt} {s : St} (h : PcInv C opt s) (ho : s.mpc.open = false) :
    (s.hasData = false ∨ s.mpc = .dead) ∧ (s.wpc.calm = true ∨ s.wpc.crashed = true) := by
  have hex : WPc.crashed .exited = true := rfl
  unfold PcInv at h
  cases hm : s.mpc <;> simp only [hm, MPc.open, Bool.true_eq_false] at h ho
  all_goals first
    | exact ⟨Or.inl h.1.1, h.1.2.elim (fun x => Or.inl x.2) (fun x => Or.inr x.2)⟩
    | exact ⟨Or.inl h.1.2.2.1, Or.inl h.1.2.2.2.1⟩
    | exact ⟨Or.inl h.1, Or.inr h.2.2.1⟩
    | exact ⟨Or.inl h.1, Or.inr (by rw [h.2.2.1]; exact hex)⟩
    | exact ⟨Or.inl h.1, Or.inl h.2.2.1⟩
    | exact ⟨Or.inl h.2.1, h.2.2⟩
    | exact ⟨Or.inr rfl, Or.inr (by rw [h.2]; exact hex)⟩

theorem open_mk {C : Compressor} {opt : CompOpt} {s s' : St} (h : PcInv C opt s) (ho : s.mpc.open = true) (hr : Run C opt s')
    (h1 : s'.mpc = s.mpc) (h2 : s'.exit = s.exit) (h3 : s'.call = s.call) (h4 : s'.sent = s.sent) (h5 : s'.todo = s.todo) (h6 : s'.stage = s.stage) (h7 : s'.cur = s.cur)
    (hd : s'.done = true → s'.wpc = .notifyDone) (hf : s'.failed = true → s'.wpc = .notifyFail) : PcInv C opt s' := by
  unfold PcInv at h ⊢
  unfold Loaded at h ⊢
  cases hm : s.mpc <;> simp only [h1, hm, MPc.open, Bool.false_eq_true, h2, h3, h4, h5, h6, h7] at h ho ⊢
  case fill => exact ⟨hr, h.2⟩
  case lockWait => exact ⟨hr, h.2⟩
  case inWait => exact ⟨hr, h.2⟩
  case sleeping => exact ⟨hr, h.2.1, h.2.2.1, h.2.2.2.1, h.2.2.2.2.1, hd, hf⟩
  case notify => exact ⟨hr, h.2⟩

theorem taken_of {C : Compressor} {opt : CompOpt} {s : St} (h : PcInv C opt s) (h1 : s.wpc.calm = false) (h2 : s.wpc.crashed = false) :
    s.mpc.open = true ∧ Taken C opt s := by
  cases ho : s.mpc.open with
  | false => rcases (closed_worker h ho).2 with h' | h' <;> simp_all
  | true =>
    refine ⟨rfl, ?_⟩
    rcases run_of_open h ho with h | h | h | h
    · have := h.2.2.2.1; simp_all
    · have := h.2.2.2.1; simp_all
    · exact h
    · have := h.2.2.2.1; simp_all

/-- A step between calm positions of the worker. -/
theorem pc_calm {C : Compressor} {opt : CompOpt} {s : St} (h : PcInv C opt s) (hc : s.wpc.calm = true) (hn : s.wpc = .notifyDone → ∀ f, s.mpc ≠ .sleeping f) (p : WPc) (hp : p.calm = true) (m : Option Tid) :
    PcInv C opt { s with mutex := m, wpc := p } := by
  have hcr : s.wpc.crashed = false := by cases hw : s.wpc <;> simp_all [WPc.calm, WPc.crashed]
  have hex : s.wpc ≠ .exited := by intro h'; simp [h', WPc.calm] at hc
  have hnf : s.wpc ≠ .notifyFail := by intro h'; simp [h', WPc.calm] at hc
  cases ho : s.mpc.open with
  | true =>
    have hr := run_of_open h ho
    have hr' : Run C opt { s with mutex := m, wpc := p } := by
      rcases hr with hr | hr | hr | hr
      · exact Or.inl ⟨hr.1, hr.2.1, hr.2.2.1, hp, hr.2.2.2.2⟩
      · exact Or.inr (Or.inl ⟨hr.1, hr.2.1, hr.2.2.1, hp, hr.2.2.2.2⟩)
      · have := hr.2.2.2; cases hw : s.wpc <;> simp_all [WPc.calm]
      · have := hr.2.2.2.1; simp_all
    unfold PcInv at h ⊢
    cases hm : s.mpc <;> simp only [hm, MPc.open, Bool.false_eq_true] at h ho ⊢
    case sleeping => exact ⟨hr', h.2.1, h.2.2.1, h.2.2.2.1, h.2.2.2.2.1, fun hd => absurd hm (hn (h.2.2.2.2.2.1 hd) _), fun hd => absurd (h.2.2.2.2.2.2 hd) hnf⟩
    all_goals exact ⟨hr', h.2⟩
  | false =>
    unfold PcInv at h ⊢
    cases hm : s.mpc <;> simp only [hm, MPc.open, Bool.true_eq_false] at h ho ⊢
    all_goals first
      | exact ⟨⟨h.1.1, h.1.2.imp (fun x => ⟨x.1, hp⟩) (fun x => by have := x.2; simp_all)⟩, h.2⟩
      | exact ⟨⟨h.1.1, h.1.2.1, h.1.2.2.1, hp, h.1.2.2.2.2⟩, h.2⟩
      | exact ⟨h.1, h.2.1, hp, h.2.2.2⟩
      | exact absurd h.2.2.1 hex
      | (have := h.2.2.1; rw [hcr] at this; cases this)
      | exact ⟨h.1, h.2.1, Or.inl hp⟩
      | exact absurd h.2 hex

theorem exit_open {C : Compressor} {opt : CompOpt} {s : St} (h : PcInv C opt s) (he : s.exit = true) (hw : s.wpc ≠ .exited) :
    (s.mpc = .notifyExit ∨ s.mpc = .joinExit) ∧ s.hasData = false := by
  unfold PcInv at h
  cases hm : s.mpc <;> simp_all

theorem inv_work {C : Compressor} {opt : CompOpt} {s s' : St} (h : Inv C opt s) (hs : workStep C opt s = some s') : Inv C opt s' := by
  obtain ⟨hM, hW, hwk, hwe, hab, hpc⟩ := h
  unfold workStep at hs
  cases hm : s.wpc
  all_goals simp only [hm, lockW, reduceCtorEq] at hs
  all_goals (try split at hs)
  all_goals (try split at hs)
  all_goals (try simp only [Option.some.injEq, reduceCtorEq] at hs)
  all_goals (try subst hs)
  all_goals constructor
  all_goals try (first
    | (simp_all [WPc.holds]; done)
    | (cases hmp : s.mpc <;> simp_all [WPc.holds, MPc.holds, wakeMain]; done))
  case lockTop.isTrue.pc => exact pc_calm hpc (by simp [hm, WPc.calm]) (by simp [hm]) .inTop rfl (some .worker)
  case inTop.isFalse.pc => exact pc_calm hpc (by simp [hm, WPc.calm]) (by simp [hm]) .asleep rfl none
  case inTop.isTrue.isTrue.pc h1 he =>
    have := exit_open hpc he (by simp [hm])
    rcases this with ⟨h2 | h2, h3⟩
    · simp only [PcInv, h2]; exact ⟨he, h3, Or.inr rfl⟩
    · simp only [PcInv, h2]; exact ⟨he, h3, Or.inr rfl⟩
  case inTop.isTrue.isFalse.pc h1 he =>
    have hd : s.hasData = true := by simpa [he] using h1
    have ho : s.mpc.open = true := by
      cases ho : s.mpc.open with
      | true => rfl
      | false =>
        rcases (closed_worker hpc ho).1 with h' | h'
        · rw [hd] at h'; cases h'
        · simp only [PcInv, h'] at hpc; rw [hm] at hpc; exact absurd hpc.2 (by simp)
    rcases run_of_open hpc ho with hr | hr | hr | hr
    · have := hr.2.2.1; rw [hd] at this; cases this
    · refine open_mk hpc ho ?_ rfl rfl rfl rfl rfl rfl rfl ?_ ?_
      · exact Or.inr (Or.inr (Or.inl ⟨hr.1, hr.2.1, rfl, hr.2.2.2.2⟩))
      · intro h; have := hr.2.1; simp only at h; rw [h] at this; cases this
      · intro h; have := hr.1; simp only at h; rw [h] at this; cases this
    · have := hr.2.2.1; rw [hd] at this; cases this
    · have := hr.2.2.1; rw [hd] at this; cases this
  case notifyDone.pc =>
    by_cases hsl : ∃ f, s.mpc = .sleeping f
    · obtain ⟨f, hf⟩ := hsl
      have hr := run_of_open hpc (by simp [hf, MPc.open])
      simp only [PcInv, hf] at hpc
      simp only [PcInv, wakeMain, hf]
      refine ⟨?_, hpc.2.1, hpc.2.2.1, hpc.2.2.2.1, hpc.2.2.2.2.1⟩
      rcases hr with hr | hr | hr | hr
      · exact Or.inl ⟨hr.1, hr.2.1, hr.2.2.1, rfl, hr.2.2.2.2⟩
      · exact Or.inr (Or.inl ⟨hr.1, hr.2.1, hr.2.2.1, rfl, hr.2.2.2.2⟩)
      · have := hr.2.2.2; simp only [hm] at this
      · have := hr.2.2.2.1; simp [hm, WPc.crashed] at this
    · have hsl' : ∀ f, s.mpc ≠ .sleeping f := fun f hf => hsl ⟨f, hf⟩
      have : wakeMain s = s.mpc := by unfold wakeMain; split <;> simp_all
      rw [this]
      exact pc_calm hpc (by simp [hm, WPc.calm]) (fun _ => hsl') .lockTop rfl s.mutex
  case notifyFail.pc =>
    have hcr : s.wpc.crashed = true := by simp [hm, WPc.crashed]
    have hca : s.wpc.calm = false := by simp [hm, WPc.calm]
    cases ho : s.mpc.open with
    | true =>
      have hr := run_of_open hpc ho
      have hF : Failed C opt s := by
        rcases hr with hr | hr | hr | hr
        · have := hr.2.2.2.1; simp [hca] at this
        · have := hr.2.2.2.1; simp [hca] at this
        · have := hr.2.2.2; simp only [hm] at this
        · exact hr
      have hF' : Run C opt { s with mpc := wakeMain s, wpc := .exited } := Or.inr (Or.inr (Or.inr ⟨hF.1, hF.2.1, hF.2.2.1, rfl, hF.2.2.2.2⟩))
      unfold PcInv at hpc ⊢
      unfold wakeMain at hF' ⊢
      cases hmp : s.mpc <;> simp only [hmp, MPc.open, Bool.false_eq_true] at hpc ho hF' ⊢
      case sleeping => exact ⟨hF', hpc.2.1, hpc.2.2.1, hpc.2.2.2.1, hpc.2.2.2.2.1⟩
      all_goals exact ⟨hF', hpc.2⟩
    | false =>
      unfold PcInv at hpc ⊢
      unfold wakeMain
      cases hmp : s.mpc <;> simp only [hmp, MPc.open, Bool.true_eq_false] at hpc ho ⊢
      all_goals first
        | exact ⟨⟨hpc.1.1, hpc.1.2.imp (fun x => by have := x.2; simp [hca] at this) (fun x => ⟨x.1, rfl⟩)⟩, hpc.2⟩
        | (have := hpc.1.2.2.2.1; rw [hca] at this; cases this)
        | exact ⟨hpc.1, hpc.2.1, rfl, hpc.2.2.2⟩
        | (have := hpc.2.2.1; rw [hm] at this; cases this)
        | (have := hpc.2.2.1; rw [hca] at this; cases this)
        | exact ⟨hpc.1, hpc.2.1, Or.inr rfl⟩
        | exact ⟨hpc.1, trivial⟩
  all_goals
    obtain ⟨ho, hT⟩ := taken_of hpc (by simp [hm, WPc.calm]) (by simp [hm, WPc.crashed])
    obtain ⟨t1, t2, t3, t4⟩ := hT
    simp only [hm] at t4
  case inDone.pc =>
    refine open_mk hpc ho ?_ rfl rfl rfl rfl rfl rfl rfl (fun _ => rfl) (fun h => by simp [t1] at h)
    exact Or.inl ⟨t1, rfl, t3, rfl, t4⟩
  case inFail.pc =>
    refine open_mk hpc ho ?_ rfl rfl rfl rfl rfl rfl rfl (fun h => by simp [t2] at h) (fun _ => rfl)
    exact Or.inr (Or.inr (Or.inr ⟨rfl, t2, t3, rfl, t4⟩))
  all_goals
    refine open_mk hpc ho ?_ rfl rfl rfl rfl rfl rfl rfl (fun h => by simp [t2] at h) (fun h => by simp [t1] at h)
    refine Or.inr (Or.inr (Or.inl ⟨t1, t2, t3, ?_⟩))
    simp only
  case store.pc => exact t4
  case lockDone.isTrue.pc => exact t4
  case lockFail.isTrue.pc => exact t4
  case grab.isTrue.pc hlt => exact t4.trans (by unfold workerChunk; rw [if_pos hlt]; rfl)
  case grab.isFalse.pc hlt => exact ⟨s.view, by omega, rfl, t4⟩
  case h_1.isTrue.pc y hy hlt =>
    obtain ⟨w, hw4, hwv, he⟩ := t4
    refine he.trans ?_
    unfold workerChunk
    rw [hwv] at hy hlt
    rw [if_neg (by omega), hy, Res.ok_bind, if_pos hlt, hwv]
    rfl
  case h_1.isFalse.pc y hy hlt =>
    obtain ⟨w, hw4, hwv, he⟩ := t4
    refine he.trans ?_
    unfold workerChunk
    rw [hwv] at hy hlt
    rw [if_neg (by omega), hy, Res.ok_bind, if_neg hlt]
    rfl
  case h_2.pc y hy =>
    obtain ⟨w, hw4, hwv, he⟩ := t4
    refine he.trans ?_
    unfold workerChunk
    rw [hwv] at hy
    rw [if_neg (by omega), hy]
    rfl

theorem inv_step {C : Compressor} {opt : CompOpt} {s s' : St} (h : Inv C opt s) (hs : Step C opt (fun c => c.abort = none) s s') : Inv C opt s' := by
  cases hs with
  | main _ hs => exact inv_main h hs
  | work _ hs => exact inv_work h hs
  | start c hi hc =>
    obtain ⟨hM, hW, hwk, hwe, hab, hpc⟩ := h
    simp only [PcInv, hi] at hpc
    refine ⟨?_, hW, fun a b => ?_, fun a b => ?_, hc, hpc.1, hpc.2.1, rfl, rfl⟩
    · simp [hi, MPc.holds] at hM; simp [MPc.holds, hM]
    · have := hwk a b; rw [hi] at this; cases this
    · have := hwe a b; rw [hi] at this; cases this
  | destroy hi =>
    obtain ⟨hM, hW, hwk, hwe, hab, hpc⟩ := h
    simp only [PcInv, hi] at hpc
    refine ⟨?_, hW, fun a b => ?_, fun a b => ?_, hab, hpc.1, hpc.2.1⟩
    · simp [hi, MPc.holds] at hM; simp [MPc.holds, hM]
    · have := hwk a b; rw [hi] at this; cases this
    · have := hwe a b; rw [hi] at this; cases this
  | wakeMain fin hi =>
    obtain ⟨hM, hW, hwk, hwe, hab, hpc⟩ := h
    simp only [PcInv, hi] at hpc
    refine ⟨?_, hW, fun a b => ?_, fun a b => ?_, hab, hpc.1, hpc.2.1, hpc.2.2.1, hpc.2.2.2.1, hpc.2.2.2.2.1⟩
    · simp [hi, MPc.holds] at hM; simp [MPc.holds, hM]
    · have := hwk a b; rw [hi] at this; cases this
    · have := hwe a b; rw [hi] at this; cases this
  | wakeWorker hi =>
    obtain ⟨hM, hW, hwk, hwe, hab, hpc⟩ := h
    refine ⟨hM, ?_, by simp, by simp, hab, pc_calm hpc (by simp [hi, WPc.calm]) (by simp [hi]) .lockTop rfl s.mutex⟩
    simp [hi, WPc.holds] at hW; simp [WPc.holds, hW]

theorem reach_inv {C : Compressor} {opt : CompOpt} {s : St} (h : Reach C opt (fun c => c.abort = none) s) : Inv C opt s := by
  induction h with
  | init => exact inv_init C opt
  | step s s' _ hs ih => exact inv_step ih hs

end Cloudini.Threads
