import Verif.Model.CodecCommon

/-!
# Version 3/4 stage 1 (`v4_codec.cpp`)
-/

namespace Cloudini

/-- codec_common.hpp:28 `kPointsPerChunk`. -/
def kPointsPerChunk : Nat := 32 * 1024

/-- Map a constructor over the fields, stopping at the first exception. -/
def buildAll {α : Type} (mk : PointField → Res α) : List PointField → Res (List α)
  | [] => .ok []
  | f :: fs => do
    let a ← mk f
    let as ← buildAll mk fs
    .ok (a :: as)

/-- v4_codec.cpp:26-40 `BuildV4Encoders`. -/
def buildV4Encoders (F : FloatOps) (info : EncodingInfo) : Res (List Enc) :=
  if info.encoding_opt = .none then
    .ok (info.fields.map fun f => .copy f.offset.toNat (sizeOf f.type))
  else do
    let lead ← leadingEncoder F info
    let rest ← buildAll (createEncoder F info) (info.fields.drop (leadingLossyFloatCount info))
    .ok (lead ++ rest)

/-- v4_codec.cpp:42-64 `BuildV4Decoders`: decoders and `min_encoded_point_bytes`. -/
def buildV4Decoders (F : FloatOps) (info : EncodingInfo) : Res (List Dec × Nat) :=
  if info.encoding_opt = .none then
    .ok (info.fields.map (fun f => .copy f.offset.toNat (sizeOf f.type)),
         (info.fields.map fun f => sizeOf f.type).sum)
  else do
    let lead ← leadingDecoder F info
    let rest ← buildAll (createDecoder F info) (info.fields.drop (leadingLossyFloatCount info))
    let ds := lead ++ rest
    .ok (ds, (ds.map Dec.minInputBytes).sum)

/-- v4_codec.cpp:71-79: the point loop of `EncodeV4Stage1Chunk`, at most `n` points. -/
def encodePoints (F : FloatOps) (step : Nat) : Nat → List Enc → List Byte → W → Res (List Enc × List Byte × W)
  | 0, es, mem, w => .ok (es, mem, w)
  | n + 1, es, mem, w =>
    if mem.length = 0 then .ok (es, mem, w)
    else do
      let (es, w) ← encodeFields F mem es w
      if step ≤ mem.length then encodePoints F step n es (mem.drop step) w
      else .throw "Cannot trim more than the current size"

/-- v4_codec.cpp:66-83 `EncodeV4Stage1Chunk` into a stage buffer of `cap` bytes: the encoders, the cloud bytes
left, and the stage-1 chunk.  `flush` writes nothing in every encoder class that overrides it or not
(field_encoder.hpp:44-46, 176-180: the Gorilla encoder flushes in `encode`). -/
def encodeV4Chunk (F : FloatOps) (step : Nat) (es : List Enc) (mem : List Byte) (n cap : Nat) :
    Res (List Enc × List Byte × List Byte) := do
  let (es, mem, w) ← encodePoints F step n (es.map Enc.reset) mem ⟨[], cap⟩
  .ok (es, mem, w.out)

/-- v4_codec.cpp:102-108: the loop over `expected_points`; `base` is the position of `output_buffer.data()`. -/
def decodePointsV4 (F : FloatOps) (min step : Nat) : Nat → List Dec → List Byte → List Byte → Nat →
    Res (List Dec × List Byte × List Byte × Nat)
  | 0, ds, input, buf, base => .ok (ds, input, buf, base)
  | n + 1, ds, input, buf, base =>
    if input.length < min then .throw "Truncated encoded data: not enough bytes for a complete point"
    else if buf.length - base < step then .throw "Output buffer is too small to hold the decoded data"
    else do
      let (ds, input, buf) ← decodeFields F ds input buf base
      decodePointsV4 F min step n ds input buf (base + step)

/-- v4_codec.cpp:109-115: the loop until the input is empty (files without chunk framing, version 2).
`fuel` bounds the iterations; running out of it means the loop was still going. -/
def decodeUntilEmptyV4 (F : FloatOps) (min step : Nat) : Nat → List Dec → List Byte → List Byte → Nat →
    Res (List Dec × List Byte × List Byte × Nat)
  | 0, ds, input, buf, base => if input.length = 0 then .ok (ds, input, buf, base) else .ub .loop
  | fuel + 1, ds, input, buf, base =>
    if input.length = 0 then .ok (ds, input, buf, base)
    else if input.length < min then .throw "Truncated encoded data: not enough bytes for a complete point"
    else if buf.length - base < step then .throw "Output buffer is too small to hold the decoded data"
    else do
      let (ds, input, buf) ← decodeFields F ds input buf base
      decodeUntilEmptyV4 F min step fuel ds input buf (base + step)

/-- v4_codec.cpp:85-117 `DecodeV4Stage1Chunk`: decoders, output buffer and its new position.  Bytes left in
the chunk are ignored (the caller's view is a local copy). -/
def decodeV4Chunk (F : FloatOps) (fuel : Nat) (ds : List Dec) (min step expected : Nat) (input buf : List Byte)
    (base : Nat) : Res (List Dec × List Byte × Nat) := do
  let ds := ds.map Dec.reset
  if expected > 0 then
    let (ds, _, buf, base) ← decodePointsV4 F min step expected ds input buf base
    .ok (ds, buf, base)
  else
    let (ds, _, buf, base) ← decodeUntilEmptyV4 F min step fuel ds input buf base
    .ok (ds, buf, base)

end Cloudini
