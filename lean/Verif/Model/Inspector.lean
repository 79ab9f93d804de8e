import Verif.Model.Mcap

/-!
# The header inspector (`tools/src/mcap_header_inspector.cpp`)

As for the other MCAP tools, a file is what the MCAP library's reader delivers of it; `none` stands for a file that is missing or cannot be opened.  What the
program prints is represented by the items in the order of printing; the wording around them and the test of the file name's extension are left out.
-/

namespace Cloudini.Inspector

open Cloudini.Mcap (File Message find compressedName)

/-- mcap_header_inspector.cpp:145-153: what is printed about one field. -/
structure FieldLine where
  name : List Byte
  offset : Nat
  type : List Byte
  resolution : List Byte
  deriving DecidableEq, Repr

/-- mcap_header_inspector.cpp:107-143: what is printed about the message. -/
structure Shown where
  topic : List Byte
  time : Nat
  messageSize : Nat
  dataSize : Nat
  yaml : List Byte
  version : Nat
  width : Nat
  height : Nat
  pointStep : Nat
  points : Nat
  bytes : Nat
  encoding : List Byte
  compression : List Byte
  fields : List FieldLine
  deriving DecidableEq, Repr

/-- A run of the program: the exit code, the topics announced (lines 82-88) and what was printed about the first message. -/
structure Run where
  exit : Nat
  topics : List (List Byte) := []
  shown : Option Shown := none
  deriving DecidableEq, Repr

/-- The bits of `1.0f`. -/
def one32 : BitVec 32 := 0x3F800000#32

/-- mcap_header_inspector.cpp:146-152; `value_or(1.0)` on an `optional<float>` is a `float`. -/
def fieldLine (T : FloatText) (f : PointField) : FieldLine :=
  { name := f.name, offset := f.offset.toNat, type := f.type.name, resolution := T.print (f.resolution.getD one32) }

/-- mcap_header_inspector.cpp:112-153: the message is parsed, its header decoded, and printed.  The products of lines 138-140 are `uint32_t`. -/
def showMessage (T : FloatText) (topic : List Byte) (m : Message) : Res Shown := do
  let pc ← Ros.getMessage m.data
  let (info, _) ← decodeHeader T pc.data
  .ok { topic := topic, time := m.logTime, messageSize := m.data.length, dataSize := pc.data.length, yaml := infoToYaml T info,
        version := info.version.toNat, width := info.width.toNat, height := info.height.toNat, pointStep := info.point_step.toNat,
        points := (info.width * info.height).toNat, bytes := (info.width * info.height * info.point_step).toNat,
        encoding := info.encoding_opt.name, compression := info.compression_opt.name, fields := info.fields.map (fieldLine T) }

/-- mcap_header_inspector.cpp:80-88: the channels with compressed clouds (ids and topics), in the order of the ids (the reader's map has no order). -/
def channels (f : File) : List (Nat × List Byte) :=
  f.channels.filterMap fun c =>
    match find f.schemas c.2.schema with
    | some s => if s.name = compressedName then some (c.1, c.2.topic) else none
    | none => none

/-- mcap_header_inspector.cpp:99-157: the loop stops at the first message of such a channel. -/
def firstMessage (cs : List (Nat × List Byte)) : List Message → Option (Message × List Byte)
  | [] => none
  | m :: ms =>
    match find cs m.channel with
    | some topic => some (m, topic)
    | none => firstMessage cs ms

/-- mcap_header_inspector.cpp:164-167: an exception ends the program with exit code 1. -/
def finish (topics : List (List Byte)) : Res Shown → Res Run
  | .ok s => .ok ⟨0, topics, some s⟩
  | .throw _ => .ok ⟨1, topics, none⟩
  | .ub k => .ub k

/-- mcap_header_inspector.cpp:62-169.  `reader->schema(id)` is a null pointer for a channel without schema and is dereferenced (lines 83-84). -/
def inspect (T : FloatText) (f : Option File) : Res Run :=
  match f with
  | none => .ok ⟨1, [], none⟩
  | some f =>
    if f.channels.all fun c => (find f.schemas c.2.schema).isSome then
      if (channels f).isEmpty then .ok ⟨0, [], none⟩
      else match firstMessage (channels f) f.messages with
        | none => .ok ⟨1, (channels f).map (·.2), none⟩
        | some (m, topic) => finish ((channels f).map (·.2)) (showMessage T topic m)
    else .ub .mem

end Cloudini.Inspector
