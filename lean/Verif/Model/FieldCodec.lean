import Verif.Model.Types
import Verif.Model.Varint
import Verif.Model.Gorilla

/-!
# Field encoders and decoders (`field_encoder.hpp/.cpp`, `field_decoder.hpp/.cpp`)

Each class is one constructor of `Enc` / `Dec`; the mutable members are its arguments.
-/

namespace Cloudini

/-- encoding_utils.hpp:69-73 `ToInt64<T>`: sign- or zero-extension of a `size`-byte integer. -/
def toI64 (size : Nat) (signed : Bool) (bs : List Byte) : BitVec 64 :=
  if signed then (BitVec.ofNat (8 * size) (fromLE bs)).signExtend 64
  else BitVec.ofNat 64 (fromLE bs)

/-- One lane of the vector float codec: `offset_[i]`, the resolution behind `multiplier_[i]`, `prev_vect_[i]`. -/
structure Lane where
  off : Nat
  res : BitVec 32
  prev : BitVec 32
  deriving DecidableEq, Repr

/-- The field encoder classes. -/
inductive Enc where
  /-- field_encoder.hpp:51-67 -/
  | copy (off size : Nat)
  /-- field_encoder.hpp:72-94 -/
  | int (off size : Nat) (signed : Bool) (prev : BitVec 64)
  /-- field_encoder.hpp:99-118 with `float` -/
  | lossy32 (off : Nat) (res : BitVec 32) (prev : BitVec 64)
  /-- field_encoder.hpp:99-118 with `double` -/
  | lossy64 (off : Nat) (res : BitVec 32) (prev : BitVec 64)
  /-- field_encoder.hpp:123-141; `size` is `sizeof(IntType)` -/
  | xor (off size : Nat) (prev : BitVec 64)
  /-- field_encoder.hpp:157-195; `size` is `sizeof(IntType)` -/
  | gorilla (off size : Nat) (st : GorillaState)
  /-- field_encoder.hpp:316-339; the lanes in use -/
  | floatN (lanes : List Lane)
  deriving DecidableEq, Repr

/-- `reset()` of each class. -/
def Enc.reset : Enc → Enc
  | .copy o s => .copy o s
  | .int o s g _ => .int o s g 0#64
  | .lossy32 o r _ => .lossy32 o r 0#64
  | .lossy64 o r _ => .lossy64 o r 0#64
  | .xor o s _ => .xor o s 0#64
  | .gorilla o s _ => .gorilla o s {}
  | .floatN ls => .floatN (ls.map fun l => { l with prev := 0#32 })

/-- field_encoder.cpp:42-90 `FieldEncoderFloatN_Lossy::encode`, one lane: quantise, subtract the previous
(32-bit wrap-around, `_mm_sub_epi32`), emit a varint; NaN emits one 0 byte and clears `prev_vect_[i]`.
The fast path for "no NaN in any lane" (lines 60-75) is this loop with the NaN test hoisted. -/
def laneEncode (F : FloatOps) (mem : List Byte) (l : Lane) : Res (Lane × List Byte) := do
  let bs ← readAt mem l.off 4
  let x := BitVec.ofNat 32 (fromLE bs)
  if isNaN32 x then .ok ({ l with prev := 0#32 }, [0#8])
  else
    let q := F.quantV l.res x
    .ok ({ l with prev := q }, encodeVarint64 ((q - l.prev).signExtend 64))

/-- field_encoder.cpp:78-86, all lanes in order. -/
def lanesEncode (F : FloatOps) (mem : List Byte) : List Lane → Res (List Lane × List Byte)
  | [] => .ok ([], [])
  | l :: ls => do
    let (l', b) ← laneEncode F mem l
    let (ls', bs) ← lanesEncode F mem ls
    .ok (l' :: ls', b ++ bs)

/-- field_encoder.cpp:43-47: lanes not in use still load a float from offset 0. -/
def readUnusedLane (mem : List Byte) (used : Nat) : Res (List Byte) :=
  if used < 4 then readAt mem 0 4 else .ok []

/-- `encode(point_view, output)` of each class: the updated encoder and the bytes it writes.
`mem` is the readable memory starting at the current point (to the end of the cloud).  None of the classes
checks the output capacity; the caller accounts for it (`runOps`). -/
def Enc.step (F : FloatOps) (mem : List Byte) : Enc → Res (Enc × List Byte)
  | .copy o s => do
    -- field_encoder.hpp:56-60
    let bs ← readAt mem o s
    .ok (.copy o s, bs)
  | .int o s g prev => do
    -- field_encoder.hpp:78-85
    let bs ← readAt mem o s
    let value := toI64 s g bs
    let diff ← subI64 value prev
    .ok (.int o s g value, encodeVarint64 diff)
  | .lossy32 o r prev => do
    -- field_encoder.hpp:343-357
    let bs ← readAt mem o 4
    let x := BitVec.ofNat 32 (fromLE bs)
    if isNaN32 x then .ok (.lossy32 o r 0#64, [0#8])
    else
      match F.quant32 r x with
      | none => .ub .conv
      | some value => do
        let delta ← subI64 value prev
        .ok (.lossy32 o r value, encodeVarint64 delta)
  | .lossy64 o r prev => do
    -- field_encoder.hpp:343-357
    let bs ← readAt mem o 8
    let x := BitVec.ofNat 64 (fromLE bs)
    if isNaN64 x then .ok (.lossy64 o r 0#64, [0#8])
    else
      match F.quant64 r x with
      | none => .ub .conv
      | some value => do
        let delta ← subI64 value prev
        .ok (.lossy64 o r value, encodeVarint64 delta)
  | .xor o s prev => do
    -- field_encoder.hpp:359-370
    let bs ← readAt mem o s
    let cur := BitVec.ofNat 64 (fromLE bs)
    .ok (.xor o s cur, toLE s (cur ^^^ prev).toNat)
  | .gorilla o s st => do
    -- field_encoder.hpp:246-306
    let bs ← readAt mem o s
    let (st', out) := gorillaEncode (8 * s) st (BitVec.ofNat 64 (fromLE bs))
    .ok (.gorilla o s st', out)
  | .floatN lanes => do
    -- field_encoder.cpp:42-90; lanes not in use read offset 0 (lines 43-47)
    let _ ← readUnusedLane mem lanes.length
    let (lanes', out) ← lanesEncode F mem lanes
    .ok (.floatN lanes', out)

/-- The field decoder classes. -/
inductive Dec where
  /-- field_decoder.hpp:56-75 -/
  | copy (off size : Nat)
  /-- field_decoder.hpp:79-106 -/
  | int (off size : Nat) (prev : BitVec 64)
  /-- field_decoder.hpp:110-133 with `float` -/
  | lossy32 (off : Nat) (res : BitVec 32) (prev : BitVec 64)
  /-- field_decoder.hpp:110-133 with `double` -/
  | lossy64 (off : Nat) (res : BitVec 32) (prev : BitVec 64)
  /-- field_decoder.hpp:137-156 -/
  | xor (off size : Nat) (prev : BitVec 64)
  /-- field_decoder.hpp:162-194 -/
  | gorilla (off size : Nat) (st : GorillaState)
  /-- field_decoder.hpp:304-327 -/
  | floatN (lanes : List Lane)
  deriving DecidableEq, Repr

/-- `reset()` of each class. -/
def Dec.reset : Dec → Dec
  | .copy o s => .copy o s
  | .int o s _ => .int o s 0#64
  | .lossy32 o r _ => .lossy32 o r 0#64
  | .lossy64 o r _ => .lossy64 o r 0#64
  | .xor o s _ => .xor o s 0#64
  | .gorilla o s _ => .gorilla o s {}
  | .floatN ls => .floatN (ls.map fun l => { l with prev := 0#32 })

/-- `minInputBytes()` as set by each constructor. -/
def Dec.minInputBytes : Dec → Nat
  | .copy _ s => s
  | .int _ _ _ => 1
  | .lossy32 _ _ _ => 1
  | .lossy64 _ _ _ => 1
  | .xor _ s _ => s
  | .gorilla _ _ _ => 0
  | .floatN ls => ls.length

/-- A `memcpy` of decoded bytes into the destination point, relative to the point's start. -/
abbrev Write := Nat × List Byte

/-- `if (offset_ != kDecodeButSkipStore) memcpy(dest + offset_, …)`. -/
def store (off : Nat) (bs : List Byte) : List Write :=
  if off = kDecodeButSkipStore then [] else [(off, bs)]

/-- `int32_t` addition; signed overflow is undefined behaviour. -/
def addI32 (a b : BitVec 32) : Res (BitVec 32) :=
  if BitVec.saddOverflow a b then .ub .overflow else .ok (a + b)

/-- field_decoder.cpp:54-69: one lane; new lane state, value bits, remaining input. -/
def laneDecode (F : FloatOps) (l : Lane) (input : List Byte) : Res (Lane × BitVec 32 × List Byte) :=
  match input with
  | [] => .throw "FieldDecoderFloatN_Lossy::decode: truncated input"
  | b :: rest =>
    if b = 0#8 then .ok ({ l with prev := 0#32 }, qNaN32, rest)
    else do
      let (diff, count) ← decodeVarint input
      let v ← addI32 (diff.setWidth 32) l.prev
      .ok ({ l with prev := v }, F.dequantV l.res v, input.drop count)

/-- field_decoder.cpp:54-77: all lanes, then the stores. -/
def lanesDecode (F : FloatOps) : List Lane → List Byte → Res (List Lane × List Write × List Byte)
  | [], input => .ok ([], [], input)
  | l :: ls, input => do
    let (l', v, input) ← laneDecode F l input
    let (ls', ws, input) ← lanesDecode F ls input
    .ok (l' :: ls', store l.off (toLE 4 v.toNat) ++ ws, input)

/-- `decode(input, dest_point_view)` of each class: new state, the writes into the destination point, and the
remaining input.  Reading beyond `input` is `ub mem` (the classes rely on the caller's per-point check). -/
def Dec.step (F : FloatOps) (input : List Byte) : Dec → Res (Dec × List Write × List Byte)
  | .copy o s =>
    -- field_decoder.hpp:62-68: the memcpy precedes the checked trim_front
    if o ≠ kDecodeButSkipStore then
      if s ≤ input.length then .ok (.copy o s, [(o, input.take s)], input.drop s) else .ub .mem
    else
      if s ≤ input.length then .ok (.copy o s, [], input.drop s)
      else .throw "Cannot trim more than the current size"
  | .int o s prev => do
    -- field_decoder.hpp:86-97
    let (diff, count) ← decodeVarint input
    let value ← addI64 prev diff
    .ok (.int o s value, store o (toLE s value.toNat), input.drop count)
  | .lossy32 o r prev =>
    -- field_decoder.hpp:331-353: `input.data()[0]` is read unchecked
    match input with
    | [] => .ub .mem
    | b :: rest =>
      if b = 0#8 then .ok (.lossy32 o r 0#64, store o (toLE 4 qNaN32.toNat), rest)
      else do
        let (diff, count) ← decodeVarint input
        let value ← addI64 prev diff
        .ok (.lossy32 o r value, store o (toLE 4 (F.dequant32 r value).toNat), input.drop count)
  | .lossy64 o r prev =>
    match input with
    | [] => .ub .mem
    | b :: rest =>
      if b = 0#8 then .ok (.lossy64 o r 0#64, store o (toLE 8 qNaN64.toNat), rest)
      else do
        let (diff, count) ← decodeVarint input
        let value ← addI64 prev diff
        .ok (.lossy64 o r value, store o (toLE 8 (F.dequant64 r value).toNat), input.drop count)
  | .xor o s prev =>
    -- field_decoder.hpp:355-370: memcpy from the input before the checked trim_front
    if s ≤ input.length then
      let cur := BitVec.ofNat 64 (fromLE (input.take s)) ^^^ prev
      .ok (.xor o s cur, store o (toLE s cur.toNat), input.drop s)
    else .ub .mem
  | .gorilla o s st => do
    -- field_decoder.hpp:255-300
    let (st', v, rest) ← gorillaDecode (8 * s) st input
    .ok (.gorilla o s st', store o (toLE s v.toNat), rest)
  | .floatN lanes => do
    -- field_decoder.cpp:42-86
    if input.length = 0 then .throw "FieldDecoderFloatN_Lossy::decode: empty input buffer"
    else
      let (lanes', ws, rest) ← lanesDecode F lanes input
      .ok (.floatN lanes', ws, rest)

end Cloudini
