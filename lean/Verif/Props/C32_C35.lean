import Verif.Lemmas.ThreadsLink
import Verif.Lemmas.ThreadsLive
import Verif.Props.Witness

/-!
# C32 to C35: the threaded encoder

`Reach C opt allowed s`: the encoder object, its worker and its caller can be in state `s`, for some schedule of the two threads, some
sequence of calls satisfying `allowed`, and some spurious wake-ups.
-/

namespace Cloudini.Props

open Threads

/-- Calls in which stage 1 does not fail by itself. -/
abbrev NoAbort (c : Call) : Prop := c.abort = none

/-- Run the given threads one step each. -/
def schedule (C : Compressor) (opt : CompOpt) : List Tid → St → Option St
  | [], s => some s
  | .main :: ts, s => (mainStep s).bind (schedule C opt ts)
  | .worker :: ts, s => (workStep C opt s).bind (schedule C opt ts)

theorem schedule_reach {C : Compressor} {opt : CompOpt} {P : Call → Prop} {s s' : St} (ts : List Tid) (h : Threads.Reach C opt P s)
    (hs : schedule C opt ts s = some s') : Threads.Reach C opt P s' := by
  induction ts generalizing s with
  | nil => simp only [schedule, Option.some.injEq] at hs; subst hs; exact h
  | cons t ts ih =>
    cases t with
    | main =>
      simp only [schedule, Option.bind_eq_some_iff] at hs
      obtain ⟨u, h1, h2⟩ := hs
      exact ih (.step _ _ h (.main _ _ h1)) h2
    | worker =>
      simp only [schedule, Option.bind_eq_some_iff] at hs
      obtain ⟨u, h1, h2⟩ := hs
      exact ih (.step _ _ h (.work _ _ h1)) h2

/-- The state right after `encode` was entered. -/
def enter (s : St) (c : Call) : St := { s with call := c, todo := c.chunks, sent := [], result := none, mpc := .lockRespawn }

theorem enter_reach {C : Compressor} {opt : CompOpt} {P : Call → Prop} {s : St} {c : Call} (h : Threads.Reach C opt P s) (hi : s.mpc = .idle) (hc : P c) :
    Threads.Reach C opt P (enter s c) := .step _ _ h (.start s c hi hc)

/-! ## C32 -/

/-- **C32.** In whatever way the two threads were scheduled, during this call and all earlier ones: what the call returns is what
compressing its chunks one after the other gives. -/
theorem C32_result (C : Compressor) (opt : CompOpt) (s : St) (h : Threads.Reach C opt NoAbort s) (hi : s.mpc = .idle) (r : Res (List Byte × Nat))
    (hr : s.result = some r) : r = sequential C opt s.call := by
  have := (Threads.reach_inv h).pc
  simp only [PcInv, hi] at this
  exact this.2.2 r hr

/-- **C32, against the single-threaded encoder.** A threaded call on a cloud (whose checks pass) returns bytes and size `out`, `n` iff
the single-threaded `encode` does, and throws iff that throws. -/
theorem C32_threaded_equals_sequential (F : FloatOps) (C : Compressor) (enc : Encoder) (cloud : List Byte) (room : Nat) (wh : Bool)
    (ho : enc.info.compression_opt ≠ .none) (h0 : enc.info.point_step ≠ 0#32) (h1 : cloud.length % enc.info.point_step.toNat = 0)
    (m : Nat) (hm : maxCompressedSize C enc.info (cloud.length / enc.info.point_step.toNat) = .ok m)
    (hroom : m + (if wh then enc.header.length else 0) ≤ room)
    (es : List Enc) (cs : List (List Byte)) (hst : stage1Chunks F enc cloud = .ok (es, cs))
    (s : St) (h : Threads.Reach C enc.info.compression_opt NoAbort s) (hi : s.mpc = .idle) (hcall : s.call = callOf enc room wh cs)
    (r : Res (List Byte × Nat)) (hr : s.result = some r) :
    (∀ out n, r = .ok (out, n) ↔ encodeView F C enc cloud room wh = .ok ({ enc with encs := es }, out, n)) ∧
    (r.isThrow = true ↔ (encodeView F C enc cloud room wh).isThrow = true) := by
  have hE := C32_result C _ s h hi r hr
  rw [hcall] at hE
  have hch : (callOf enc room wh cs).chunks = cs := rfl
  unfold sequential at hE
  rw [hch] at hE
  have hsame := encodeView_same F C enc ho cloud room wh es cs m h0 h1 hm hroom hst
  cases hq : seqRun C enc.info.compression_opt cs (start (callOf enc room wh cs)) with
  | ok q =>
    rw [hq] at hE hsame
    simp only [Res.ok_bind] at hE hsame
    rcases hsame with ⟨x, e1, e2⟩ | ⟨m, m', _, e2⟩
    · simp only [Res.ok.injEq] at e2
      subst e2
      rw [e1, hE]
      refine ⟨fun out n => ?_, by simp [Res.isThrow]⟩
      simp only [Res.ok.injEq, Prod.mk.injEq, true_and]
    · simp at e2
  | throw q =>
    rw [hq] at hE hsame
    rcases hsame with ⟨x, e1, e2⟩ | ⟨m, m', e1, _⟩
    · exact absurd e2 (by simp)
    · rw [e1, hE]
      refine ⟨fun out n => ?_, ?_⟩
      · constructor <;> intro hh <;> simp at hh
      · constructor <;> intro _ <;> rfl
  | ub k =>
    rw [hq] at hsame
    rcases hsame with ⟨x, e1, e2⟩ | ⟨m, m', _, e2⟩
    · exact absurd e2 (by simp)
    · exact absurd e2 (by simp)

/-- `n` steps of main, `n` steps of the worker. -/
abbrev M (n : Nat) : List Tid := List.replicate n .main
abbrev W' (n : Nat) : List Tid := List.replicate n .worker

/-- A call with two chunks. -/
def twoChunks : Call := { header := [9#8], room := 100, chunks := [[1#8, 2#8, 3#8], [4#8]] }
def twoOut : List Byte := [9#8, 4#8, 0#8, 0#8, 0#8, 0#8, 1#8, 2#8, 3#8, 2#8, 0#8, 0#8, 0#8, 0#8, 4#8]

/-- The state after a schedule on a fresh encoder. -/
def after (ts : List Tid) (c : Call) : Option St := schedule storeComp .zstd ts (enter {} c)

theorem after_reach (P : Call → Prop) {ts : List Tid} {c : Call} (hc : P c) {s : St} (h : after ts c = some s) : Threads.Reach storeComp .zstd P s :=
  schedule_reach ts (enter_reach .init rfl hc) h

def twoLate : St := (after (M 16 ++ W' 8 ++ M 8 ++ W' 8 ++ M 3) twoChunks).getD {}
def twoEarly : St := (after (W' 2 ++ M 13 ++ W' 10 ++ M 6 ++ W' 10 ++ M 4) twoChunks).getD {}

/-- The worker starts late: main goes to sleep twice. -/
theorem twoLate_after : after (M 16 ++ W' 8 ++ M 8 ++ W' 8 ++ M 3) twoChunks = some twoLate := by decide +kernel
/-- The worker is always first, and goes to sleep. -/
theorem twoEarly_after : after (W' 2 ++ M 13 ++ W' 10 ++ M 6 ++ W' 10 ++ M 4) twoChunks = some twoEarly := by decide +kernel

example : Threads.Reach storeComp .zstd NoAbort twoLate ∧ twoLate.mpc = .idle ∧ twoLate.result = some (.ok (twoOut, 15)) ∧ twoLate.call = twoChunks :=
  ⟨after_reach NoAbort rfl twoLate_after, by decide +kernel, by decide +kernel, by decide +kernel⟩
example : Threads.Reach storeComp .zstd NoAbort twoEarly ∧ twoEarly.mpc = .idle ∧ twoEarly.result = some (.ok (twoOut, 15)) ∧ twoEarly.call = twoChunks :=
  ⟨after_reach NoAbort rfl twoEarly_after, by decide +kernel, by decide +kernel, by decide +kernel⟩

/-- The two-point cloud of `Witness`, compressed by a thread. -/
def mixChunks : Res (List Enc × List (List Byte)) := stage1Chunks bitsOps mixEncZ mixCloud
def mixCall : Call := callOf mixEncZ 10000 false (match mixChunks with | .ok r => r.2 | _ => [])
def mixDone : St := (after (M 16 ++ W' 8 ++ M 3) mixCall).getD {}
theorem mixDone_after : after (M 16 ++ W' 8 ++ M 3) mixCall = some mixDone := by decide +kernel

example : Threads.Reach storeComp mixEncZ.info.compression_opt NoAbort mixDone ∧ mixDone.mpc = .idle ∧
    mixDone.result = some (.ok (mixOutZ.2.1, mixOutZ.2.2)) ∧ mixDone.call = mixCall ∧ mixChunks.isOk = true ∧ mixCall.chunks.length = 1 :=
  ⟨after_reach NoAbort rfl mixDone_after, by decide +kernel, by decide +kernel, by decide +kernel, by decide +kernel, by decide +kernel⟩

/-! ## C33 -/

theorem exec_inv {C : Compressor} {opt : CompOpt} {n k : Nat} {s s' : St} (h : Threads.Inv C opt s) (he : Exec C opt n k s s') : Threads.Inv C opt s' := by
  induction he with
  | nil => exact h
  | main n k s t u _ hs ih => exact inv_step (ih h) (.main _ _ hs)
  | work n k s t u _ hs ih => exact inv_step (ih h) (.work _ _ hs)
  | wakeMain n k s t fin _ hs ih => exact inv_step (ih h) (.wakeMain _ _ hs)
  | wakeWorker n k s t _ hs ih => exact inv_step (ih h) (.wakeWorker _ hs)

theorem exec_rank {C : Compressor} {opt : CompOpt} {n k : Nat} {s s' : St} (h : Threads.Inv C opt s) (he : Exec C opt n k s s') : n + rank s' ≤ rank s + 2 * k := by
  induction he with
  | nil => omega
  | main n k s t u hx hs ih => have := rank_main (exec_inv h hx) hs; have := ih h; omega
  | work n k s t u hx hs ih => have := rank_work hs; have := ih h; omega
  | wakeMain n k s t fin hx hs ih => have := ih h; simp only [rank, hs, mrank] at this ⊢; omega
  | wakeWorker n k s t hx hs ih => have := ih h; simp only [rank, hs, wrank] at this ⊢; omega

theorem mrank_le (n : Nat) (p : MPc) : mrank n p ≤ 40 * n + 35 := by cases p <;> simp only [mrank] <;> omega
theorem wrank_le (p : WPc) : wrank p ≤ 10 := by cases p <;> simp only [wrank] <;> omega

/-- **C33, no deadlock.** In every reachable state, unless main is between calls or has destroyed the object, one of the threads can make
a step of its own (no spurious wake-up is needed). -/
theorem C33_no_deadlock (C : Compressor) (opt : CompOpt) (s : St) (h : Threads.Reach C opt NoAbort s) (hi : s.mpc ≠ .idle) (hd : s.mpc ≠ .dead) :
    (∃ s', mainStep s = some s') ∨ ∃ s', workStep C opt s = some s' := by
  rcases progress (Threads.reach_inv h) with h | h | h
  · exact absurd h hi
  · exact absurd h hd
  · exact h

/-- **C33, no livelock.** From every reachable state, whatever the schedule: without new calls the threads make at most a fixed number
of steps, 2 more for each spurious wake-up.  No fairness is assumed. -/
theorem C33_terminates (C : Compressor) (opt : CompOpt) (s : St) (h : Threads.Reach C opt NoAbort s) (n k : Nat) (s' : St) (he : Exec C opt n k s s') :
    n ≤ 40 * s.todo.length + 55 + 2 * k := by
  have h1 := exec_rank (Threads.reach_inv h) he
  have h2 := mrank_le s.todo.length s.mpc
  have h3 := wrank_le s.wpc
  have h4 : (if s.hasData then 10 else 0) ≤ 10 := by split <;> omega
  unfold rank at h1
  omega

theorem inCall_main {s s' : St} (h : s.mpc.inCall = true ∨ s.mpc = .idle ∧ s.result ≠ none) (hab : s.call.abort = none) (hs : mainStep s = some s') :
    s'.mpc.inCall = true ∨ s'.mpc = .idle ∧ s'.result ≠ none := by
  unfold mainStep at hs
  rcases h with h | ⟨h, _⟩
  · cases hm : s.mpc
    all_goals simp only [hm, MPc.inCall, Bool.false_eq_true] at h
    all_goals simp only [hm, lockM, reduceCtorEq] at hs
    all_goals (try split at hs)
    all_goals (try split at hs)
    all_goals (try simp only [Option.some.injEq, reduceCtorEq] at hs)
    all_goals (try subst hs)
    all_goals try (simp [MPc.inCall]; done)
    all_goals first
      | (simp only; split <;> simp [MPc.inCall]; done)
      | (unfold fillStep; split
         · split <;> simp [MPc.inCall]
         · simp [hab, MPc.inCall])
  · rw [h] at hs; simp at hs

theorem inCall_work {C : Compressor} {opt : CompOpt} {s s' : St} (h : s.mpc.inCall = true ∨ s.mpc = .idle ∧ s.result ≠ none) (hs : workStep C opt s = some s') :
    s'.mpc.inCall = true ∨ s'.mpc = .idle ∧ s'.result ≠ none := by
  have hw : (wakeMain s).inCall = true ∨ wakeMain s = .idle ∧ s.result ≠ none := by
    unfold wakeMain
    split
    · left; rfl
    · exact h
  unfold workStep lockW at hs
  cases hm : s.wpc <;> simp only [hm, reduceCtorEq] at hs
  all_goals (try split at hs)
  all_goals (try split at hs)
  all_goals (try simp only [Option.some.injEq, reduceCtorEq] at hs)
  all_goals (try subst hs)
  all_goals first
    | exact h
    | exact hw

theorem inDtor_main {s s' : St} (h : s.mpc.inDtor = true ∨ s.mpc = .dead) (hs : mainStep s = some s') : s'.mpc.inDtor = true ∨ s'.mpc = .dead := by
  unfold mainStep at hs
  rcases h with h | h
  · cases hm : s.mpc
    all_goals simp only [hm, MPc.inDtor, Bool.false_eq_true] at h
    all_goals simp only [hm, lockM] at hs
    all_goals (try split at hs)
    all_goals (try simp only [Option.some.injEq, reduceCtorEq] at hs)
    all_goals (try subst hs)
    all_goals simp [MPc.inDtor]
  · rw [h] at hs; simp at hs

theorem inDtor_work {C : Compressor} {opt : CompOpt} {s s' : St} (h : s.mpc.inDtor = true ∨ s.mpc = .dead) (hs : workStep C opt s = some s') :
    s'.mpc.inDtor = true ∨ s'.mpc = .dead := by
  have hw : (wakeMain s).inDtor = true ∨ wakeMain s = .dead := by
    unfold wakeMain
    split
    · rename_i heq; rw [heq] at h; simp [MPc.inDtor] at h
    · exact h
  unfold workStep lockW at hs
  cases hm : s.wpc <;> simp only [hm, reduceCtorEq] at hs
  all_goals (try split at hs)
  all_goals (try split at hs)
  all_goals (try simp only [Option.some.injEq, reduceCtorEq] at hs)
  all_goals (try subst hs)
  all_goals first
    | exact h
    | exact hw

theorem stuck_of {C : Compressor} {opt : CompOpt} {s : St} (h : Threads.Inv C opt s) (hs : Stuck C opt s) : s.mpc = .idle ∨ s.mpc = .dead := by
  rcases progress h with h | h | ⟨_, h⟩ | ⟨_, h⟩
  · exact Or.inl h
  · exact Or.inr h
  · rw [hs.1] at h; cases h
  · rw [hs.2] at h; cases h

/-- **C33, encode returns.** Wherever main is inside a call: when the threads have made all the steps they can make (which by
`C33_terminates` happens after finitely many), the call has returned or thrown. -/
theorem C33_encode_returns (C : Compressor) (opt : CompOpt) (s : St) (h : Threads.Reach C opt NoAbort s) (hc : s.mpc.inCall = true) (n k : Nat) (s' : St)
    (he : Exec C opt n k s s') (hst : Stuck C opt s') : s'.mpc = .idle ∧ ∃ r, s'.result = some r := by
  have hi := Threads.reach_inv h
  have key : s'.mpc.inCall = true ∨ s'.mpc = .idle ∧ s'.result ≠ none := by
    clear hst
    induction he with
    | nil => exact Or.inl hc
    | main n k s t u hx hs ih => exact inCall_main (ih h hc hi) (exec_inv hi hx).noAbort hs
    | work n k s t u hx hs ih => exact inCall_work (ih h hc hi) hs
    | wakeMain n k s t fin hx hs ih => left; rfl
    | wakeWorker n k s t hx hs ih => exact ih h hc hi
  rcases stuck_of (exec_inv hi he) hst with hp | hp
  · refine ⟨hp, ?_⟩
    rcases key with hk | ⟨_, hk⟩
    · rw [hp] at hk; simp [MPc.inCall] at hk
    · exact Option.ne_none_iff_exists'.1 hk
  · rcases key with hk | ⟨hk, _⟩
    · rw [hp] at hk; simp [MPc.inCall] at hk
    · rw [hp] at hk; cases hk

/-- **C33, destruction.** Wherever main is inside the destructor: when the threads have made all the steps they can make, the destructor
has returned and the worker has exited. -/
theorem C33_destructor (C : Compressor) (opt : CompOpt) (s : St) (h : Threads.Reach C opt NoAbort s) (hc : s.mpc.inDtor = true) (n k : Nat) (s' : St)
    (he : Exec C opt n k s s') (hst : Stuck C opt s') : s'.mpc = .dead ∧ s'.wpc = .exited := by
  have hi := Threads.reach_inv h
  have key : s'.mpc.inDtor = true ∨ s'.mpc = .dead := by
    clear hst
    induction he with
    | nil => exact Or.inl hc
    | main n k s t u hx hs ih => exact inDtor_main (ih h hc hi) hs
    | work n k s t u hx hs ih => exact inDtor_work (ih h hc hi) hs
    | wakeMain n k s t fin hx hs ih => have := ih h hc hi; rw [hs] at this; simp [MPc.inDtor] at this
    | wakeWorker n k s t hx hs ih => exact ih h hc hi
  have hi' := exec_inv hi he
  rcases stuck_of hi' hst with hp | hp
  · rw [hp] at key; simp [MPc.inDtor] at key
  · refine ⟨hp, ?_⟩
    have := hi'.pc
    simp only [PcInv, hp] at this
    exact this.2

/-- The destructor of the encoder after the call of `twoLate`: both threads end. -/
def twoGone : St := (schedule storeComp .zstd (M 3 ++ W' 2 ++ M 1) { twoLate with mpc := .lockExit }).getD {}
example : Threads.Reach storeComp .zstd NoAbort twoGone ∧ twoGone.mpc = .dead ∧ twoGone.wpc = .exited :=
  ⟨schedule_reach (M 3 ++ W' 2 ++ M 1) (.step twoLate { twoLate with mpc := .lockExit } (after_reach NoAbort rfl twoLate_after) (.destroy _ (by decide +kernel)))
    (by decide +kernel), by decide +kernel, by decide +kernel⟩

/-! ## C34 -/

/-- **C34, the failure reaches the caller.** If the chunks before `c` compress and compressing `c` fails with `m`, the call throws `m`,
whatever the schedule. -/
theorem C34_failure_thrown (C : Compressor) (opt : CompOpt) (s : St) (h : Threads.Reach C opt NoAbort s) (hi : s.mpc = .idle) (r : Res (List Byte × Nat))
    (hr : s.result = some r) (before after : List (List Byte)) (c : List Byte) (hc : s.call.chunks = before ++ c :: after) (w : W × Nat)
    (hb : seqRun C opt before (start s.call) = .ok w) (m : String) (hf : workerChunk C opt c w.1 = .throw m) : r = .throw m := by
  rw [C32_result C opt s h hi r hr]
  unfold sequential
  rw [hc, seqRun_append, hb]
  simp only [Res.ok_bind, seqRun, hf]
  rfl

/-- **C34, no false success.** A call that returns successfully has compressed every chunk. -/
theorem C34_no_false_success (C : Compressor) (opt : CompOpt) (s : St) (h : Threads.Reach C opt NoAbort s) (hi : s.mpc = .idle) (out : List Byte) (n : Nat)
    (hr : s.result = some (.ok (out, n))) (before after : List (List Byte)) (c : List Byte) (hc : s.call.chunks = before ++ c :: after) :
    ∃ w w', seqRun C opt before (start s.call) = .ok w ∧ workerChunk C opt c w.1 = .ok w' := by
  have hE := C32_result C opt s h hi _ hr
  unfold sequential at hE
  rw [hc, seqRun_append] at hE
  cases h1 : seqRun C opt before (start s.call) with
  | ok w =>
    rw [h1] at hE
    simp only [Res.ok_bind, seqRun] at hE
    cases h2 : workerChunk C opt c w.1 with
    | ok w' => exact ⟨w, w', rfl, h2⟩
    | throw m => rw [h2] at hE; exact absurd hE (by simp)
    | ub k => rw [h2] at hE; exact absurd hE (by simp)
  | throw m => rw [h1] at hE; exact absurd hE (by simp)
  | ub k => rw [h1] at hE; exact absurd hE (by simp)

/-- **C34, the encoder stays usable.** What a call returns depends on the call only: not on earlier calls, whether they succeeded or
failed, nor on the schedule. -/
theorem C34_like_fresh (C : Compressor) (opt : CompOpt) (s t : St) (hs : Threads.Reach C opt NoAbort s) (ht : Threads.Reach C opt NoAbort t)
    (his : s.mpc = .idle) (hit : t.mpc = .idle) (hc : s.call = t.call) (r q : Res (List Byte × Nat)) (hr : s.result = some r) (hq : t.result = some q) : r = q := by
  rw [C32_result C opt s hs his r hr, C32_result C opt t ht hit q hq, hc]

/-- A call whose second chunk does not fit, then `twoChunks` on the same encoder: the first throws, the worker is restarted and the
second gives what a fresh encoder gives. -/
def tight : Call := { header := [9#8], room := 10, chunks := [[1#8, 2#8, 3#8], [4#8]] }
def tightDone : St := (after (M 16 ++ W' 8 ++ M 8 ++ W' 6 ++ M 2) tight).getD {}
theorem tightDone_after : after (M 16 ++ W' 8 ++ M 8 ++ W' 6 ++ M 2) tight = some tightDone := by decide +kernel
def tightThenTwo : St := (schedule storeComp .zstd (M 2 ++ M 18 ++ W' 8 ++ M 8 ++ W' 8 ++ M 3) (enter tightDone twoChunks)).getD {}

example : Threads.Reach storeComp .zstd NoAbort tightDone ∧ tightDone.mpc = .idle ∧ tightDone.failed = true ∧
    tightDone.result = some (.throw "Cannot trim more than the current size") :=
  ⟨after_reach NoAbort rfl tightDone_after, by decide +kernel, by decide +kernel, by decide +kernel⟩
example : Threads.Reach storeComp .zstd NoAbort tightThenTwo ∧ tightThenTwo.mpc = .idle ∧ tightThenTwo.call = twoChunks ∧
    tightThenTwo.result = some (.ok (twoOut, 15)) :=
  ⟨schedule_reach (M 2 ++ M 18 ++ W' 8 ++ M 8 ++ W' 8 ++ M 3) (enter_reach (s := tightDone) (c := twoChunks) (after_reach NoAbort rfl tightDone_after) (by decide +kernel) rfl)
    (by decide +kernel), by decide +kernel, by decide +kernel, by decide +kernel⟩

/-! ## C35 -/

/-- **C35.** In no reachable state are the two threads about to access the same location (the output cursor, the output, the two stage
buffers and the pointers to them, the sizes, the flags), one of them writing.  Partial: for calls in which stage 1 itself does not fail behind a hand-over; see `C35_abort_race`. -/
theorem C35_no_race_partial (C : Compressor) (opt : CompOpt) (s : St) (h : Threads.Reach C opt NoAbort s) : ¬ Race s := no_race (Threads.reach_inv h)

/-- Main is filling the second chunk while the worker compresses the first one. -/
def overlap : St := (after (M 13 ++ W' 3) twoChunks).getD {}
theorem overlap_reach : Threads.Reach storeComp .zstd NoAbort overlap :=
  after_reach NoAbort rfl (by decide +kernel : after (M 13 ++ W' 3) twoChunks = some overlap)
example : Threads.Reach storeComp .zstd NoAbort overlap ∧ overlap.mpc = .fill ∧ overlap.wpc = .compress :=
  ⟨overlap_reach, by decide +kernel, by decide +kernel⟩

/-- A call in which stage 1 fails (an allocation in it, say) behind a hand-over. -/
def aborted : Call := { header := [], room := 50, chunks := [[1#8, 1#8]], abort := some "std::bad_alloc" }
def abortedDone : St := (after (M 14 ++ W' 3) aborted).getD {}
theorem aborted_after : after (M 14 ++ W' 3) aborted = some abortedDone := by decide +kernel

/-- **C35 fails when stage 1 fails behind a hand-over**: `encode` leaves by the exception without waiting for the worker.  The caller
has the output back while the worker is still writing to it. -/
theorem C35_abort_race : ∃ s, Threads.Reach storeComp .zstd (fun _ => True) s ∧ s.mpc = .idle ∧ s.result = some (.throw "std::bad_alloc") ∧
    s.wpc = .compress ∧ Race s :=
  ⟨abortedDone, after_reach (fun _ => True) trivial aborted_after, by decide +kernel, by decide +kernel, by decide +kernel,
    .output, true, true, by decide +kernel, by decide +kernel, Or.inl rfl⟩

def afterAbort : Call := { header := [7#8], room := 50, chunks := [[2#8]] }
def afterAbortDone : St := (schedule storeComp .zstd (W' 1 ++ M 14 ++ W' 3 ++ M 3) (enter abortedDone afterAbort)).getD {}

/-- **C34 fails then, too**: a later call on the encoder takes the end of the old chunk for the end of its own and returns success with
a wrong size, before its chunk has been compressed. -/
theorem C34_abort_next_call : ∃ s, Threads.Reach storeComp .zstd (fun _ => True) s ∧ s.mpc = .idle ∧ s.call = afterAbort ∧
    sequential storeComp .zstd afterAbort = .ok ([7#8, 2#8, 0#8, 0#8, 0#8, 0#8, 2#8], 7) ∧ (∃ out, s.result = some (.ok (out, 8))) :=
  ⟨afterAbortDone, schedule_reach (W' 1 ++ M 14 ++ W' 3 ++ M 3) (enter_reach (s := abortedDone) (c := afterAbort) (after_reach (fun _ => True) trivial aborted_after) (by decide +kernel) trivial)
    (by decide +kernel), by decide +kernel, by decide +kernel, by decide +kernel, afterAbortDone.view.out, by decide +kernel⟩

/-! ## The theorems applied to concrete executions -/

/-- The thread's result for the cloud of `Witness` is the sequential one. -/
example (r : Res (List Byte × Nat)) (hr : mixDone.result = some r) :
    ∃ es, ∀ out n, r = .ok (out, n) ↔ encodeView bitsOps storeComp mixEncZ mixCloud 10000 false = .ok ({ mixEncZ with encs := es }, out, n) := by
  have hm : ∃ m, maxCompressedSize storeComp mixEncZ.info (mixCloud.length / mixEncZ.info.point_step.toNat) = .ok m ∧ m ≤ 10000 := by
    have : (match maxCompressedSize storeComp mixEncZ.info (mixCloud.length / mixEncZ.info.point_step.toNat) with | .ok m => decide (m ≤ 10000) | _ => false) = true := by
      decide +kernel
    cases h : maxCompressedSize storeComp mixEncZ.info (mixCloud.length / mixEncZ.info.point_step.toNat) with
    | ok m => rw [h] at this; exact ⟨m, rfl, by simpa using this⟩
    | throw e => rw [h] at this; simp at this
    | ub e => rw [h] at this; simp at this
  obtain ⟨m, hm, hle⟩ := hm
  have hok : mixChunks.isOk = true := by decide +kernel
  cases hst : mixChunks with
  | throw e => rw [hst] at hok; simp at hok
  | ub e => rw [hst] at hok; simp at hok
  | ok p =>
    obtain ⟨es, cs⟩ := p
    have hcall : mixDone.call = callOf mixEncZ 10000 false cs := by
      have h1 : mixDone.call = mixCall := by decide +kernel
      rw [h1]; unfold mixCall; rw [hst]
    exact ⟨es, (C32_threaded_equals_sequential bitsOps storeComp mixEncZ mixCloud 10000 false (by decide +kernel) (by decide +kernel) (by decide +kernel) m hm (by simpa using hle)
      es cs hst mixDone (after_reach NoAbort rfl mixDone_after) (by decide +kernel) hcall r hr).1⟩
/-- Both threads in the middle of their work: one of them can go on, the rest of the call is short, and it ends with a result. -/
example : (∃ s', mainStep overlap = some s') ∨ ∃ s', workStep storeComp .zstd overlap = some s' :=
  C33_no_deadlock storeComp .zstd overlap overlap_reach (by decide +kernel) (by decide +kernel)
example (n k : Nat) (s' : St) (he : Exec storeComp .zstd n k overlap s') : n ≤ 40 * overlap.todo.length + 55 + 2 * k :=
  C33_terminates storeComp .zstd overlap overlap_reach n k s' he
example (n k : Nat) (s' : St) (he : Exec storeComp .zstd n k overlap s') (hs : Stuck storeComp .zstd s') : s'.mpc = .idle ∧ ∃ r, s'.result = some r :=
  C33_encode_returns storeComp .zstd overlap overlap_reach (by decide +kernel) n k s' he hs
example (n k : Nat) (s' : St) (he : Exec storeComp .zstd n k { twoLate with mpc := .lockExit } s') (hs : Stuck storeComp .zstd s') : s'.mpc = .dead ∧ s'.wpc = .exited :=
  C33_destructor storeComp .zstd { twoLate with mpc := .lockExit }
    (.step twoLate { twoLate with mpc := .lockExit } (after_reach NoAbort rfl twoLate_after) (.destroy _ (by decide +kernel))) rfl n k s' he hs
/-- The second chunk does not fit into ten bytes. -/
example (r : Res (List Byte × Nat)) (hr : tightDone.result = some r) : r = .throw "Cannot trim more than the current size" :=
  C34_failure_thrown storeComp .zstd tightDone (after_reach NoAbort rfl tightDone_after) (by decide +kernel) r hr [[1#8, 2#8, 3#8]] [] [4#8] (by decide +kernel)
    (⟨[9#8, 4#8, 0#8, 0#8, 0#8, 0#8, 1#8, 2#8, 3#8], 1⟩, 9) (by decide +kernel) _ (by decide +kernel)
example : ∃ w w', seqRun storeComp .zstd [[1#8, 2#8, 3#8]] (start twoLate.call) = .ok w ∧ workerChunk storeComp .zstd [4#8] w.1 = .ok w' :=
  C34_no_false_success storeComp .zstd twoLate (after_reach NoAbort rfl twoLate_after) (by decide +kernel) twoOut 15 (by decide +kernel) [[1#8, 2#8, 3#8]] [] [4#8] (by decide +kernel)
/-- After the failed call the next one gives what a fresh encoder under another schedule gives. -/
example (r q : Res (List Byte × Nat)) (hr : tightThenTwo.result = some r) (hq : twoEarly.result = some q) : r = q :=
  C34_like_fresh storeComp .zstd tightThenTwo twoEarly
    (schedule_reach (M 2 ++ M 18 ++ W' 8 ++ M 8 ++ W' 8 ++ M 3) (enter_reach (s := tightDone) (c := twoChunks) (after_reach NoAbort rfl tightDone_after) (by decide +kernel) rfl) (by decide +kernel))
    (after_reach NoAbort rfl twoEarly_after) (by decide +kernel) (by decide +kernel) (by decide +kernel) r q hr hq
example : ¬ Race overlap := C35_no_race_partial storeComp .zstd overlap overlap_reach

end Cloudini.Props
