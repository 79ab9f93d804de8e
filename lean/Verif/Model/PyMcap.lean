import Verif.Model.Mcap
import Verif.Model.Python

/-!
# `cloudini_py/decode_mcap.py`

The script that decodes the clouds of an MCAP file with one `CloudiniDecoder`.  The decoder's block for points survives from message to message; what a message that
fails leaves there is not known to the model (`Python.decode` has no block when it raises) and comes from outside (`left`).  The reader is as in `Model/Mcap`.
-/

namespace Cloudini.PyMcap

open Cloudini.Mcap (File find)
open Cloudini.Python (NpArray Info)

/-- `b in a` for strings. -/
def within (b : List Byte) : List Byte → Bool
  | [] => b.isEmpty
  | c :: a => b.isPrefixOf (c :: a) || within b a

/-- What is printed for one message (decode_mcap.py:52-77): topic, time, and the array with its header if decoding succeeded.  The ratio is
`len(tobytes())` over `size`. -/
structure Line where
  topic : List Byte
  time : Nat
  size : Nat
  result : Option (NpArray × Info)

/-- decode_mcap.py:44-49: the messages `iter_messages` gives whose schema has the text in its name, with topic, time and data. -/
def compressed (f : File) : List (List Byte × Nat × List Byte) :=
  f.messages.filterMap fun m =>
    match find f.channels m.channel with
    | none => none
    | some c =>
      match find f.schemas c.schema with
      | none => none
      | some s => if within (ascii "CompressedPointCloud2") s.name then some (c.topic, m.logTime, m.data) else none

/-- decode_mcap.py:80: `if max_messages and count >= max_messages` (0 is false). -/
def stops (limit : Option Nat) (count : Nat) : Bool :=
  match limit with
  | some n => n ≠ 0 && count ≥ n
  | none => false

/-- decode_mcap.py:44-81: the loop; `count` messages have been counted.  `left k` is the block after message number `k` (from 1) failed. -/
def loop (T : FloatText) (F : FloatOps) (C : Compressor) (fuel : Nat) (left : Nat → List Byte) (limit : Option Nat) :
    List (List Byte × Nat × List Byte) → (count : Nat) → (block : List Byte) → Res (List Line)
  | [], _, _ => .ok []
  | (topic, time, data) :: ms, count, block =>
    let count := count + 1
    let stop := stops limit count
    match Python.decode T F C fuel block data with
    | .ub k => .ub k
    | .throw _ => do
      let rest ← (if stop then .ok [] else loop T F C fuel left limit ms count (left count) : Res (List Line))
      .ok (⟨topic, time, data.length, none⟩ :: rest)
    | .ok (a, h, block) => do
      let rest ← (if stop then .ok [] else loop T F C fuel left limit ms count block : Res (List Line))
      .ok (⟨topic, time, data.length, some (a, h)⟩ :: rest)

/-- decode_mcap.py:15-84 and line 128: the option is negative for "all".  A file without summary or statistics raises at line 34.  Result: the lines, and the
number shown at the end. -/
def run (T : FloatText) (F : FloatOps) (C : Compressor) (fuel : Nat) (left : Nat → List Byte) (max : Int) (summary : Bool) (block : List Byte) (f : File) :
    Res (List Line × Nat) :=
  if !summary then .throw "AttributeError"
  else do
    let lines ← loop T F C fuel left (if max < 0 then none else some max.toNat) (compressed f) 0 block
    .ok (lines, lines.length)

end Cloudini.PyMcap
