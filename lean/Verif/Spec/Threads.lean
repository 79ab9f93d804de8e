import Verif.Model.Threads

/-!
# What a threaded call should return: the chunks compressed one after the other, by one thread
-/

namespace Cloudini.Threads

/-- One chunk: 4 bytes reserved for the length, the compressed bytes behind them, or the failure. -/
def workerChunk (C : Compressor) (opt : CompOpt) (data : List Byte) (w : W) : Res (W × Nat) :=
  if w.room < 4 then .throw "Cannot trim more than the current size"
  else do
    let y ← compressChunk C opt data (w.room - 4)
    if y.length ≤ w.room - 4 then .ok (⟨w.out ++ toLE 4 y.length ++ y, w.room - 4 - y.length⟩, y.length + 4)
    else .throw "Cannot trim more than the current size"

/-- All chunks in order, with the bytes written, the room left and the running size; stops at the first failure. -/
def seqRun (C : Compressor) (opt : CompOpt) : List (List Byte) → W × Nat → Res (W × Nat)
  | [], r => .ok r
  | c :: cs, r => do
    let (w, k) ← workerChunk C opt c r.1
    seqRun C opt cs (w, r.2 + k)

/-- The output of a call before any chunk. -/
def start (c : Call) : W × Nat := (⟨c.header, c.room - c.header.length⟩, c.header.length)

/-- The bytes and the size the call returns, or its failure. -/
def sequential (C : Compressor) (opt : CompOpt) (c : Call) : Res (List Byte × Nat) :=
  seqRun C opt c.chunks (start c) >>= fun q => .ok (q.1.out, q.2)

/-- One thread's step, `n` of them, mixed with `k` spurious wake-ups of either condition variable. -/
inductive Exec (C : Compressor) (opt : CompOpt) : Nat → Nat → St → St → Prop
  | nil (s : St) : Exec C opt 0 0 s s
  | main (n k : Nat) (s t u : St) : Exec C opt n k s t → mainStep t = some u → Exec C opt (n + 1) k s u
  | work (n k : Nat) (s t u : St) : Exec C opt n k s t → workStep C opt t = some u → Exec C opt (n + 1) k s u
  | wakeMain (n k : Nat) (s t : St) (fin : Bool) : Exec C opt n k s t → t.mpc = .sleeping fin → Exec C opt n (k + 1) s { t with mpc := .lockWait fin }
  | wakeWorker (n k : Nat) (s t : St) : Exec C opt n k s t → t.wpc = .asleep → Exec C opt n (k + 1) s { t with wpc := .lockTop }

/-- Neither thread can make a step of its own. -/
def Stuck (C : Compressor) (opt : CompOpt) (s : St) : Prop := mainStep s = none ∧ workStep C opt s = none

/-- Main is inside a call of `encode`. -/
def MPc.inCall : MPc → Bool
  | .idle | .lockExit | .inExit | .notifyExit | .joinExit | .dead => false
  | _ => true

/-- Main is inside the destructor. -/
def MPc.inDtor : MPc → Bool
  | .lockExit | .inExit | .notifyExit | .joinExit => true
  | _ => false

end Cloudini.Threads
