import Verif.Model.V5

/-!
# Whole clouds: `PointcloudEncoder::encode`, `PointcloudDecoder::decode`, `MaxCompressedSize` (`cloudini.cpp`)

This is the sequential path (`use_threads == false`, or no compression).  The threaded path is in
`Verif.Model.Threads`; it performs the same chunk computations on another thread.
-/

namespace Cloudini

/-- cloudini.cpp:265-288: the bound of one chunk of `n` points, without its length prefix. -/
def chunkBound (C : Compressor) (info : EncodingInfo) (perPoint n : Nat) : Res Nat :=
  let input := n * perPoint + (if usesV5 info then info.fields.length * 32 + 1024 else 0)
  match info.compression_opt with
  | .none => .ok input
  | .lz4 => if input > intMax then .throw "Chunk size too large for LZ4" else .ok (C.bound .lz4 input)
  | .zstd => .ok (C.bound .zstd input)
  | .bad _ => .throw "Unsupported compression option in MaxCompressedSize"

/-- cloudini.cpp:255-291: sum of the chunk bounds, `points` left to account for. -/
def maxCompressedChunks (C : Compressor) (info : EncodingInfo) (perPoint : Nat) (points : Nat) : Res Nat :=
  if _h : points = 0 then .ok 0
  else do
    let b ← chunkBound C info perPoint (min points kPointsPerChunk)
    let rest ← maxCompressedChunks C info perPoint (points - min points kPointsPerChunk)
    .ok (4 + b + rest)
termination_by points
decreasing_by
  simp only [kPointsPerChunk]
  omega

/-- cloudini.cpp:249-292 `MaxCompressedSize(info, points_count, include_header = false)`.  The header part is
`11 + 2 + yaml + 1` bytes and is added by the caller of this definition. -/
def maxCompressedSize (C : Compressor) (info : EncodingInfo) (points : Nat) : Res Nat :=
  if info.point_step = 0#32 then .throw "point_step cannot be 0"
  else do
    let m ← maxSerializedPointSize info.encoding_opt info.fields
    maxCompressedChunks C info m points

/-- State of a `PointcloudEncoder` that survives a call: the V4 field encoders (`encoders_`). -/
structure Encoder where
  info : EncodingInfo
  header : List Byte
  encs : List Enc
  deriving DecidableEq, Repr

/-- cloudini.cpp:430-440 the constructor; `header` is the result of `EncodeHeader`. -/
def mkEncoder (F : FloatOps) (info : EncodingInfo) (header : List Byte) : Res Encoder :=
  if usesV5 info then .ok ⟨info, header, []⟩
  else do
    let es ← buildV4Encoders F info
    .ok ⟨info, header, es⟩

/-- cloudini.cpp:608-613: `while (!remaining.empty())` over V4 chunks.  `points` counts the points left; the
caller has checked that the size is a multiple of `point_step > 0`, so it is 0 exactly when `remaining` is empty.
`size` is `compressed_size_`. -/
def encodeV4Loop (F : FloatOps) (C : Compressor) (info : EncodingInfo) (cap : Nat) (points : Nat) (es : List Enc)
    (mem : List Byte) (w : W) (size : Nat) : Res (List Enc × W × Nat) :=
  if _h : points = 0 then .ok (es, w, size)
  else do
    let (es, mem, chunk) ← encodeV4Chunk F info.point_step.toNat es mem kPointsPerChunk cap
    let (w, n) ← writeStage1Chunk C info.compression_opt chunk w
    encodeV4Loop F C info cap (points - min points kPointsPerChunk) es mem w (size + n)
termination_by points
decreasing_by simp only [kPointsPerChunk]; omega

/-- v5_codec.cpp:905-963: the chunk loop of `EncodeV5Stage1` with the write callback. -/
def encodeV5Loop (F : FloatOps) (C : Compressor) (hash : BitVec 64 → BitVec 64) (info : EncodingInfo) (cap : Nat)
    (points : Nat) (es : List Enc) (as : List AField) (mem : List Byte) (w : W) (size : Nat) :
    Res (W × Nat) :=
  if _h : points = 0 then .ok (w, size)
  else do
    let (es, as, mem, chunk) ←
      encodeV5Chunk F hash info.point_step.toNat es as mem (min points kPointsPerChunk) cap
    let (w, n) ← writeStage1Chunk C info.compression_opt chunk w
    encodeV5Loop F C hash info cap (points - min points kPointsPerChunk) es as mem w (size + n)
termination_by points
decreasing_by simp only [kPointsPerChunk]; omega

/-- cloudini.cpp:590-614: stage 1 and stage 2 of every chunk, into the output view. -/
def encodePayload (F : FloatOps) (C : Compressor) (enc : Encoder) (points : Nat) (cloud : List Byte) (w : W)
    (size : Nat) : Res (Encoder × W × Nat) :=
  if usesV5 enc.info then do
    let cap ← v5StageBufferSize enc.info kPointsPerChunk
    let (es, as) ← buildV5Plan F enc.info
    let (w, size) ← encodeV5Loop F C hashPaletteValue enc.info cap points es as cloud w size
    .ok (enc, w, size)
  else do
    let m ← maxSerializedPointSize enc.info.encoding_opt enc.info.fields
    let (es, w, size) ←
      encodeV4Loop F C enc.info (kPointsPerChunk * max enc.info.point_step.toNat m) points enc.encs cloud w size
    .ok ({ enc with encs := es }, w, size)

/-- cloudini.cpp:522-623 `encode(cloud_data, BufferView& output, write_header)` into a view of `room` bytes:
the encoder afterwards, the bytes written and the value returned (`compressed_size_`). -/
def encodeView (F : FloatOps) (C : Compressor) (enc : Encoder) (cloud : List Byte) (room : Nat) (writeHeader : Bool) :
    Res (Encoder × List Byte × Nat) :=
  if enc.info.point_step = 0#32 then .throw "point_step cannot be 0"
  else if cloud.length % enc.info.point_step.toNat ≠ 0 then
    .throw "Input cloud_data size is not a multiple of point_step"
  else do
    let points := cloud.length / enc.info.point_step.toNat
    let m ← maxCompressedSize C enc.info points
    if room < m + (if writeHeader then enc.header.length else 0) then
      .throw "Output buffer too small for worst-case compressed size"
    else do
      let w ← (⟨[], room⟩ : W).raw (if writeHeader then enc.header else [])
      let (enc, w, size) ← encodePayload F C enc points cloud w (if writeHeader then enc.header.length else 0)
      .ok (enc, w.out, size)

/-- cloudini.cpp:501-520 `encode(cloud_data, std::vector<uint8_t>& output)`: the vector and the value returned.
`headerBound` is `MaxCompressedSize`'s own header estimate (cloudini.cpp:258). -/
def encodeVector (F : FloatOps) (C : Compressor) (enc : Encoder) (headerBound : Nat) (cloud : List Byte) :
    Res (Encoder × List Byte × Nat) :=
  if enc.info.point_step = 0#32 then .throw "point_step cannot be 0"
  else if cloud.length % enc.info.point_step.toNat ≠ 0 then
    .throw "Input cloud_data size is not a multiple of point_step"
  else do
    let m ← maxCompressedSize C enc.info (cloud.length / enc.info.point_step.toNat)
    let w ← (⟨[], headerBound + m⟩ : W).raw enc.header
    let (enc, out, added) ← encodeView F C enc cloud w.room false
    let size := enc.header.length + added
    .ok (enc, (w.out ++ out).take size, size)

/-! ### decoding -/

/-- State of a `PointcloudDecoder` after `updateDecoders` (cloudini.cpp:627-633). -/
def buildDecoders (F : FloatOps) (info : EncodingInfo) : Res (List Dec × Nat) :=
  if usesV5 info then do
    let ds ← buildV5Decoders F info
    .ok (ds, (ds.map Dec.minInputBytes).sum)
  else buildV4Decoders F info

/-- cloudini.cpp:672-673: `max_decompressed_size`, computed in `size_t` (64-bit wrap-around). -/
def maxDecompressed (info : EncodingInfo) : Nat :=
  info.width.toNat * info.height.toNat * info.point_step.toNat % 2 ^ 64

/-- cloudini.cpp:670-684 `decodeChunk`. -/
def decodeChunk (F : FloatOps) (C : Compressor) (fuel : Nat) (info : EncodingInfo) (ds : List Dec) (min : Nat)
    (chunk buf : List Byte) (base expected : Nat) : Res (List Dec × List Byte × Nat) := do
  let view ← decompressChunk C info.compression_opt chunk (maxDecompressed info)
  if usesV5 info then
    decodeV5Chunk F ds (getAdaptiveFields info) info.point_step.toNat expected view buf base
  else
    decodeV4Chunk F fuel ds min info.point_step.toNat expected view buf base

/-- cloudini.cpp:646-664: the chunk loop of versions ≥ 3. -/
def decodeLoop (F : FloatOps) (C : Compressor) (info : EncodingInfo) (min' : Nat) (points : Nat) (ds : List Dec)
    (data buf : List Byte) (base : Nat) : Res (List Byte) :=
  if data.length = 0 then
    if points ≠ 0 then .throw "Encoded data ended before all declared points were decoded" else .ok buf
  else if _h : points = 0 then .throw "Encoded data contains more chunks than declared points"
  else do
    let (size, data) ← decodeInt 4 data
    if size > data.length then .throw "Invalid chunk size found while decoding"
    else do
      let n := min points kPointsPerChunk
      let (ds, buf, base) ← decodeChunk F C 0 info ds min' (data.take size) buf base n
      decodeLoop F C info min' (points - n) ds (data.drop size) buf base
termination_by points
decreasing_by simp only [kPointsPerChunk]; omega

/-- cloudini.cpp:30-32 `kMagicHeader`, 10 characters. -/
def magic : List Byte := [0x43#8, 0x4C#8, 0x4F#8, 0x55#8, 0x44#8, 0x49#8, 0x4E#8, 0x49#8, 0x5F#8, 0x56#8]

/-- cloudini.cpp:635-668 `PointcloudDecoder::decode(info, compressed_data, BufferView output)`: the contents of the
output buffer afterwards.  The decoder object keeps no state that survives `updateDecoders`; `fuel` bounds the
loop of version-2 data only. -/
def decodeCloud (F : FloatOps) (C : Compressor) (fuel : Nat) (info : EncodingInfo) (data buf : List Byte) :
    Res (List Byte) := do
  let (ds, min) ← buildDecoders F info
  if data.take 10 = magic then
    .throw "compressed_data contains the header. You should use DecodeHeader first"
  else if info.version ≥ 3#8 then
    decodeLoop F C info min (info.width.toNat * info.height.toNat) ds data buf 0
  else do
    let (_, buf, _) ← decodeChunk F C fuel info ds min data buf 0 0
    .ok buf

end Cloudini
