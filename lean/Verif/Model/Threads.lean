import Verif.Model.Cloud

/-!
# The threaded path of `PointcloudEncoder` (`cloudini.cpp:430-623`, `use_threads` and a compression option other than NONE)

Two threads: the caller of the public functions ("main") and `compressionWorker` ("worker").  A state is the shared members of
the object, the program counter and locals of each thread, and the mutex.  Each function below makes one step of one thread.

Granularity: acquiring the mutex is a step of its own, the body of a critical section together with its unlock is one step, and every
access to a shared member outside the mutex is a step of its own.  `condition_variable::wait(lock, pred)` is: test the predicate while
holding the mutex; if false, unlock and sleep in one step; a notification or a spurious wake-up sends the sleeper back to acquiring
the mutex.  A notification without a sleeper is lost.

What main computes between two hand-overs (stage 1: `EncodeV4Stage1Chunk`, `EncodeV5Stage1`) touches only main's own data and the
stage buffer; it is the list of chunks of a `Call`, filled in one step each.  Buffer capacities are the subject of C21 and not
repeated here.  Failures of `std::thread` and of the mutex operations (`std::system_error`) are not modelled.
-/

namespace Cloudini.Threads

inductive Tid where
  | main
  | worker
  deriving DecidableEq, Repr

/-- What one call of `encode(cloud, view, write_header)` (cloudini.cpp:522) is about to do once its checks (523-534) have passed. -/
structure Call where
  /-- the header bytes if `write_header`, otherwise none -/
  header : List Byte
  /-- `output.size()` -/
  room : Nat
  /-- the stage-1 chunks, in order -/
  chunks : List (List Byte)
  /-- stage 1 throws this behind the last chunk -/
  abort : Option String := none
  deriving DecidableEq, Repr

/-- Where main is.  The argument of the waiting positions tells the wait at the end of `encode` (line 617) from the one before a
hand-over (line 577). -/
inductive MPc where
  | idle
  | lockRespawn | inRespawn | join | lockClear | inClear | spawn
  | lockReset | inReset | setView | header | alloc
  | fill | lockWait (fin : Bool) | inWait (fin : Bool) | sleeping (fin : Bool)
  | lockSubmit | inSubmit | notify | ret
  | lockExit | inExit | notifyExit | joinExit | dead
  deriving DecidableEq, Repr

/-- Where the worker is; `exited` is a finished (or not yet restarted) thread. -/
inductive WPc where
  | lockTop | inTop | asleep
  | grab | compress | store
  | lockDone | inDone | notifyDone
  | lockFail | inFail | notifyFail
  | exited
  deriving DecidableEq, Repr

/-- cloudini.hpp:185-210, and the threads' program counters and locals. -/
structure St where
  mpc : MPc := .idle
  /-- the current (or last) call -/
  call : Call := ⟨[], 0, [], none⟩
  /-- chunks of the call not yet handed over -/
  todo : List (List Byte) := []
  /-- chunks of the call handed over (not a variable of the program) -/
  sent : List (List Byte) := []
  /-- `serialized_size` -/
  cur : Nat := 0
  /-- what the last call returned: the bytes in its output and the size, or its exception -/
  result : Option (Res (List Byte × Nat)) := none
  wpc : WPc := .lockTop
  /-- the worker's copy of the output view, behind the reserved length -/
  wview : W := ⟨[], 0⟩
  /-- the compressed chunk -/
  wchunk : List Byte := []
  /-- the exception on its way to `worker_exception_` -/
  wmsg : String := ""
  mutex : Option Tid := none
  /-- the two stage buffers, and whether `buffer_` is the second one (`buffer_compressing_` is the other) -/
  bufA : List Byte := []
  bufB : List Byte := []
  stageB : Bool := false
  /-- `buffer_compressing_size_` -/
  csize : Nat := 0
  hasData : Bool := false
  done : Bool := false
  exit : Bool := false
  failed : Bool := false
  exc : String := ""
  /-- `compressed_size_` -/
  size : Nat := 0
  /-- `output_view_`: what was written into the output so far and the room left -/
  view : W := ⟨[], 0⟩
  deriving DecidableEq, Repr

/-- `memcpy` of `x` to the front of a buffer. -/
def overwrite (x buf : List Byte) : List Byte := x ++ buf.drop x.length

/-- `cv_ready_to_compress_.notify_one()`. -/
def wakeWorker (s : St) : WPc := if s.wpc = .asleep then .lockTop else s.wpc

/-- `cv_done_compressing_.notify_one()` / `notify_all()`. -/
def wakeMain (s : St) : MPc :=
  match s.mpc with
  | .sleeping fin => .lockWait fin
  | pc => pc

/-- The buffer the worker reads. -/
def St.compressing (s : St) : List Byte := if s.stageB then s.bufA else s.bufB

/-- Take the mutex if it is free. -/
def lockM (s : St) (next : MPc) : Option St := if s.mutex = none then some { s with mutex := some .main, mpc := next } else none
def lockW (s : St) (next : WPc) : Option St := if s.mutex = none then some { s with mutex := some .worker, wpc := next } else none

/-- cloudini.cpp:608-613 and v5_codec.cpp:908-963: the next chunk into `buffer_`, or the end of stage 1. -/
def fillStep (s : St) : St :=
  match s.todo with
  | x :: _ =>
    if s.stageB then { s with bufB := overwrite x s.bufB, cur := x.length, mpc := .lockWait false }
    else { s with bufA := overwrite x s.bufA, cur := x.length, mpc := .lockWait false }
  | [] =>
    match s.call.abort with
    | some m => { s with result := some (.throw m), mpc := .idle }
    | none => { s with mpc := .lockWait true }

/-- One step of main inside a call or the destructor; `none` if it is blocked or has nothing to do. -/
def mainStep (s : St) : Option St :=
  match s.mpc with
  | .idle => none
  -- 537-541
  | .lockRespawn => lockM s .inRespawn
  | .inRespawn => some { s with mutex := none, mpc := if s.failed then .join else .lockReset }
  -- 543-545
  | .join => if s.wpc = .exited then some { s with mpc := .lockClear } else none
  -- 546-550
  | .lockClear => lockM s .inClear
  | .inClear => some { s with mutex := none, failed := false, exc := "", mpc := .spawn }
  -- 551
  | .spawn => some { s with wpc := .lockTop, mpc := .lockReset }
  -- 555-562
  | .lockReset => lockM s .inReset
  | .inReset => some { s with mutex := none, size := 0, exit := false, hasData := false, done := true, csize := 0, mpc := .setView }
  -- 563
  | .setView => some { s with view := ⟨[], s.call.room⟩, mpc := .header }
  -- 566-570
  | .header => some { s with view := ⟨s.call.header, s.call.room - s.call.header.length⟩, size := s.size + s.call.header.length, mpc := .alloc }
  -- 591-595, 600-606: `ensureScratchBuffer` keeps or replaces the buffers; their contents do not matter here
  | .alloc => some { s with mpc := .fill }
  | .fill => some (fillStep s)
  -- 493-499
  | .lockWait fin => lockM s (.inWait fin)
  | .inWait fin =>
    if s.done || s.failed then
      if s.failed then some { s with mutex := none, result := some (.throw s.exc), mpc := .idle }
      else some { s with mutex := none, mpc := if fin then .ret else .lockSubmit }
    else some { s with mutex := none, mpc := .sleeping fin }
  | .sleeping _ => none
  -- 579-586
  | .lockSubmit => lockM s .inSubmit
  | .inSubmit => some { s with mutex := none, csize := s.cur, stageB := !s.stageB, hasData := true, done := false, sent := s.sent ++ s.todo.take 1, todo := s.todo.drop 1,
                               mpc := .notify }
  -- 587
  | .notify => some { s with wpc := wakeWorker s, mpc := .fill }
  -- 622
  | .ret => some { s with result := some (.ok (s.view.out, s.size)), mpc := .idle }
  -- 442-451
  | .lockExit => lockM s .inExit
  | .inExit => some { s with mutex := none, exit := true, mpc := .notifyExit }
  | .notifyExit => some { s with wpc := wakeWorker s, mpc := .joinExit }
  | .joinExit => if s.wpc = .exited then some { s with mpc := .dead } else none
  | .dead => none

/-- One step of the worker; `none` if it is blocked or finished. -/
def workStep (C : Compressor) (opt : CompOpt) (s : St) : Option St :=
  match s.wpc with
  -- 457-458
  | .lockTop => lockW s .inTop
  | .inTop =>
    if s.hasData || s.exit then
      if s.exit then some { s with mutex := none, wpc := .exited }
      else some { s with mutex := none, hasData := false, wpc := .grab }
    else some { s with mutex := none, wpc := .asleep }
  | .asleep => none
  -- 466-467, 470
  | .grab =>
    if s.view.room < 4 then some { s with wmsg := "Cannot trim more than the current size", wpc := .lockFail }
    else some { s with wview := ⟨s.view.out, s.view.room - 4⟩, view := ⟨s.view.out ++ [0#8, 0#8, 0#8, 0#8], s.view.room - 4⟩, wpc := .compress }
  -- 469-471
  | .compress =>
    match compressChunk C opt (s.compressing.take s.csize) s.wview.room with
    | .ok y => some { s with wchunk := y, wpc := if y.length ≤ s.wview.room then .store else .lockFail,
                             wmsg := if y.length ≤ s.wview.room then s.wmsg else "Cannot trim more than the current size" }
    | .throw m => some { s with wmsg := m, wpc := .lockFail }
    | .ub _ => none
  -- 472-473
  | .store => some { s with view := ⟨s.wview.out ++ toLE 4 s.wchunk.length ++ s.wchunk, s.wview.room - s.wchunk.length⟩, wpc := .lockDone }
  -- 475-479
  | .lockDone => lockW s .inDone
  | .inDone => some { s with mutex := none, size := s.size + (s.wchunk.length + 4), done := true, wpc := .notifyDone }
  -- 481
  | .notifyDone => some { s with mpc := wakeMain s, wpc := .lockTop }
  -- 483-488
  | .lockFail => lockW s .inFail
  | .inFail => some { s with mutex := none, failed := true, exc := s.wmsg, wpc := .notifyFail }
  | .notifyFail => some { s with mpc := wakeMain s, wpc := .exited }
  | .exited => none

/-- The steps of the program: a thread's own step, the user's next call or the destructor when main is between calls, and spurious
wake-ups.  `allowed` restricts the calls considered. -/
inductive Step (C : Compressor) (opt : CompOpt) (allowed : Call → Prop) : St → St → Prop
  | main (s s' : St) : mainStep s = some s' → Step C opt allowed s s'
  | work (s s' : St) : workStep C opt s = some s' → Step C opt allowed s s'
  /-- cloudini.cpp:522: the next call of `encode` -/
  | start (s : St) (c : Call) : s.mpc = .idle → allowed c →
      Step C opt allowed s { s with call := c, todo := c.chunks, sent := [], result := none, mpc := .lockRespawn }
  /-- cloudini.cpp:442: the destructor -/
  | destroy (s : St) : s.mpc = .idle → Step C opt allowed s { s with mpc := .lockExit }
  | wakeMain (s : St) (fin : Bool) : s.mpc = .sleeping fin → Step C opt allowed s { s with mpc := .lockWait fin }
  | wakeWorker (s : St) : s.wpc = .asleep → Step C opt allowed s { s with wpc := .lockTop }

/-- The states the program can get into from a freshly constructed encoder (cloudini.cpp:430-440). -/
inductive Reach (C : Compressor) (opt : CompOpt) (allowed : Call → Prop) : St → Prop
  | init : Reach C opt allowed {}
  | step (s s' : St) : Reach C opt allowed s → Step C opt allowed s s' → Reach C opt allowed s'

/-! ### memory accesses of the next step, for data races -/

inductive Loc where
  | flags | view | output | size | csize | stagePtr | compressingPtr | bufA | bufB
  deriving DecidableEq, Repr

/-- Locations main's next step reads (`false`) or writes (`true`).  Between calls the user may do anything with the output and after
destruction the memory of the object is gone. -/
def mainAccess (s : St) : List (Loc × Bool) :=
  match s.mpc with
  | .idle => [(.output, true)]
  | .inRespawn => [(.flags, false)]
  | .inClear => [(.flags, true)]
  | .inReset => [(.flags, true), (.size, true), (.csize, true)]
  | .setView => [(.view, true)]
  | .header => [(.view, true), (.output, true), (.size, true)]
  | .alloc => [(.stagePtr, true), (.compressingPtr, true), (.bufA, true), (.bufB, true)]
  | .fill => [(.stagePtr, false), (if s.stageB then .bufB else .bufA, true)]
  | .inWait _ => [(.flags, false)]
  | .inSubmit => [(.flags, true), (.csize, true), (.stagePtr, true), (.compressingPtr, true)]
  | .ret => [(.size, false)]
  | .inExit => [(.flags, true)]
  | .dead => [(.flags, true), (.view, true), (.output, true), (.size, true), (.csize, true), (.stagePtr, true), (.compressingPtr, true),
      (.bufA, true), (.bufB, true)]
  | _ => []

def workAccess (s : St) : List (Loc × Bool) :=
  match s.wpc with
  | .inTop => [(.flags, true)]
  | .grab => [(.view, true)]
  | .compress => [(.view, false), (.compressingPtr, false), (.csize, false), (if s.stageB then .bufA else .bufB, false), (.output, true)]
  | .store => [(.view, true), (.output, true)]
  | .inDone => [(.flags, true), (.size, true)]
  | .inFail => [(.flags, true)]
  | _ => []

/-- Both threads are about to access the same location, and one of them writes. -/
def Race (s : St) : Prop := ∃ l a b, (l, a) ∈ mainAccess s ∧ (l, b) ∈ workAccess s ∧ (a = true ∨ b = true)

end Cloudini.Threads
