import Verif.Model.Foxglove
import Verif.Model.Mcap

/-!
# The web page (`cloudini_web/main.js`): compression statistics of an MCAP file

The page reads a file with the MCAP reader of `@mcap/core` (a file is what that reader delivers of it, as in `Model/Mcap`), copies every message of the topics
with clouds into the WebAssembly memory (allocator as in `Model/Foxglove`), asks `cldn_ComputeCompressedSize` for the size after compression with a resolution
of a millimetre and shows counts and sums.  `catching` says whether the module was built with exception catching (`cloudini_wasm.js`, which the page loads,
was not: `CMakeLists.txt:175`); without it a C++ exception arrives as a JavaScript error.  Left out: HTML, the console, loading the module, the rounding of
the ratio to three digits.  JavaScript numbers are exact here (true below `2 ^ 53`), and the function's result is below `2 ^ 31` (the memory has 128 MiB).
-/

namespace Cloudini.Web

open Cloudini.Foxglove (Heap Malloc)
open Cloudini.Mcap (File Message find pointcloudName)

/-- The bits of `0.001f` (main.js:188). -/
def millimetre : BitVec 32 := 0x3A83126F#32

/-- The loaded module: its allocator, `cldn_ComputeCompressedSize` without its `try`, and how it was built. -/
structure Module where
  malloc : Malloc
  compute : List Byte → Res Nat
  catching : Bool

/-- The module with the library's own function. -/
def Module.lib (T : FloatText) (F : FloatOps) (C : Compressor) (M : Malloc) (catching : Bool) : Module :=
  ⟨M, fun data => Wasm.computeBody T F C data millimetre, catching⟩

/-- main.js:149-151: the sums for one channel, and the WebAssembly memory. -/
structure Tally where
  count : Nat := 0
  total : Nat := 0
  compressed : Nat := 0
  heap : Heap
  deriving DecidableEq

/-- main.js:158-206: one message.  The message is counted first (159-161).  A message of more than a quarter of the memory is skipped (169-177).  The result of
`_malloc` is not tested (183): address 0 would be written to.  An error of the call leaves the block allocated (188-189, 201-206). -/
def step (m : Module) (t : Tally) (data : List Byte) : Res Tally :=
  let t := { t with count := t.count + 1, total := t.total + data.length }
  if t.heap.size < 4 * data.length then .ok t
  else match m.malloc t.heap data.length with
    | none => .ub .mem
    | some (p, _, s) =>
      let h := t.heap.take p s
      match m.compute data with
      | .ub k => .ub k
      | .throw _ => if m.catching then .ok { t with heap := h.free p } else .ok { t with heap := h }
      | .ok n => .ok { t with compressed := t.compressed + n, heap := h.free p }

/-- main.js:153-207: the loop over the messages of a topic. -/
def loop (m : Module) : List (List Byte) → Tally → Res Tally
  | [], t => .ok t
  | d :: ds, t => do
    let t ← step m t d
    loop m ds t

/-- main.js:153-157: the data of the messages `readMessages` delivers for a topic: those of every channel with that topic, whatever its type. -/
def ofTopic (f : File) (topic : List Byte) : List (List Byte) :=
  f.messages.filterMap fun m =>
    match find f.channels m.channel with
    | some c => if c.topic = topic then some m.data else none
    | none => none

/-- main.js:123-140: the topics of the channels with clouds. -/
def cloudTopics (f : File) : List (List Byte) :=
  f.channels.filterMap fun c =>
    match find f.schemas c.2.schema with
    | some s => if s.name = pointcloudName then some c.2.topic else none
    | none => none

/-- main.js:209-215: the figures shown for one channel. -/
structure Row where
  topic : List Byte
  count : Nat
  total : Nat
  compressed : Nat
  deriving DecidableEq

/-- main.js:148-216: the loop over the channels; the module (and its memory) is shared. -/
def rows (m : Module) (f : File) : List (List Byte) → Heap → Res (List Row × Heap)
  | [], h => .ok ([], h)
  | t :: ts, h => do
    let r ← loop m (ofTopic f t) { heap := h }
    let (rs, h) ← rows m f ts r.heap
    .ok (⟨t, r.count, r.total, r.compressed⟩ :: rs, h)

/-- main.js:86-292 `analyzeFile`: one row per channel, the grand totals (221-222) and the memory afterwards. -/
structure Report where
  rows : List Row
  total : Nat
  compressed : Nat
  heap : Heap
  deriving DecidableEq

def analyze (m : Module) (f : File) (h : Heap) : Res Report := do
  let (rs, h) ← rows m f (cloudTopics f) h
  .ok ⟨rs, (rs.map (·.total)).sum, (rs.map (·.compressed)).sum, h⟩

end Cloudini.Web
