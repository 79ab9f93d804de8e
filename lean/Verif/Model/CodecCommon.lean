import Verif.Model.FieldCodec

/-!
# Buffers, encoder/decoder selection and stage-2 compression (`codec_common.cpp`, `chunk_writer.cpp`, `span.hpp`)
-/

namespace Cloudini

/-! ### writable views -/

/-- A `BufferView` being written front to back: the bytes written so far and `size()`, the bytes left. -/
structure W where
  out : List Byte
  room : Nat
  deriving DecidableEq, Repr

/-- `memcpy(view.data(), bs, n); view.trim_front(n)` without a size test: past the end is undefined. -/
def W.raw (w : W) (bs : List Byte) : Res W :=
  if bs.length ≤ w.room then .ok ⟨w.out ++ bs, w.room - bs.length⟩ else .ub .mem

/-- The same after a size test that throws. -/
def W.checked (w : W) (msg : String) (bs : List Byte) : Res W :=
  if bs.length ≤ w.room then .ok ⟨w.out ++ bs, w.room - bs.length⟩ else .throw msg

/-- encoding_utils.hpp:34-41 `encode<T>(val, buff)` for an unsigned integer of `n` bytes. -/
def W.encodeInt (w : W) (n v : Nat) : Res W :=
  w.checked "encode: not enough output buffer space" (toLE n v)

/-- encoding_utils.hpp:43-53 `encode(std::string, buff)`: the length is truncated to 16 bits. -/
def W.encodeString (w : W) (s : List Byte) : Res W := do
  let len := s.length % 65536
  let w ← w.encodeInt 2 len
  w.checked "encode(string): not enough output buffer space" (s.take len)

/-- encoding_utils.hpp:77-84 `decode<T>(buff, val)`: value and remaining view. -/
def decodeInt (n : Nat) (buf : List Byte) : Res (Nat × List Byte) :=
  if n ≤ buf.length then do
    let bs ← readAt buf 0 n
    .ok (fromLE bs, buf.drop n)
  else .throw "decode: not enough input data"

/-- encoding_utils.hpp:86-96 `decode(buff, std::string)`. -/
def decodeString (buf : List Byte) : Res (List Byte × List Byte) := do
  let (len, buf) ← decodeInt 2 buf
  if len ≤ buf.length then do
    let bs ← readAt buf 0 len
    .ok (bs, buf.drop len)
  else .throw "decode(string): not enough input data"

/-! ### sizes -/

/-- codec_common.cpp:29-59 `MaxSerializedFieldSize`. -/
def maxSerializedFieldSize (opt : EncOpt) (f : PointField) : Res Nat :=
  match f.type with
  | .int16 | .uint16 | .int32 | .uint32 | .int64 | .uint64 => .ok 10
  | .float32 => if opt = .lossy ∧ f.resolution.isSome then .ok 10 else .ok 7
  | .float64 => if opt = .lossy ∧ f.resolution.isSome then .ok 10 else .ok 11
  | .int8 | .uint8 => .ok 1
  | _ => .throw "Unsupported field type in MaxSerializedFieldSize"

/-- codec_common.cpp:61-67 `MaxSerializedPointSize`. -/
def maxSerializedPointSize (opt : EncOpt) : List PointField → Res Nat
  | [] => .ok 0
  | f :: fs => do
    let a ← maxSerializedFieldSize opt f
    let b ← maxSerializedPointSize opt fs
    .ok (a + b)

/-- codec_common.cpp:75-80: length of the leading run of FLOAT32 fields with a resolution. -/
def leadingFloats : List PointField → Nat
  | [] => 0
  | f :: fs => if f.type = .float32 ∧ f.resolution.isSome then leadingFloats fs + 1 else 0

/-- codec_common.cpp:69-82 `LeadingLossyFloatFieldCount`. -/
def leadingLossyFloatCount (info : EncodingInfo) : Nat :=
  if info.encoding_opt = .lossy then
    let n := leadingFloats info.fields
    if n = 3 ∨ n = 4 then n else 0
  else 0

/-! ### encoder and decoder selection -/

/-- The `FieldData` list of codec_common.cpp:91-95 (`resolution.value()` is present for these fields). -/
def lanesOf (fs : List PointField) : List Lane :=
  fs.map fun f => { off := f.offset.toNat, res := f.resolution.getD 0#32, prev := 0#32 }

/-- field_encoder.cpp:24-40 the constructor's resolution test. -/
def mkFloatNEnc (F : FloatOps) (fs : List PointField) : Res Enc :=
  if (lanesOf fs).any (fun l => F.invNonPos l.res) then
    .throw "FieldEncoderFloatN_Lossy requires a resolution with value > 0.0"
  else .ok (.floatN (lanesOf fs))

/-- field_decoder.cpp:24-40. -/
def mkFloatNDec (F : FloatOps) (fs : List PointField) : Res Dec :=
  if (lanesOf fs).any (fun l => F.resNonPos l.res) then
    .throw "FieldDecoderFloatN_Lossy requires a resolution with value > 0.0"
  else .ok (.floatN (lanesOf fs))

/-- codec_common.cpp:84-98 `AppendLeadingLossyFloatEncoder`: the vector encoder, if any. -/
def leadingEncoder (F : FloatOps) (info : EncodingInfo) : Res (List Enc) :=
  let n := leadingLossyFloatCount info
  if n = 0 then .ok []
  else do
    let e ← mkFloatNEnc F (info.fields.take n)
    .ok [e]

/-- codec_common.cpp:100-114 `AppendLeadingLossyFloatDecoder`. -/
def leadingDecoder (F : FloatOps) (info : EncodingInfo) : Res (List Dec) :=
  let n := leadingLossyFloatCount info
  if n = 0 then .ok []
  else do
    let d ← mkFloatNDec F (info.fields.take n)
    .ok [d]

/-- field_encoder.hpp:103-107 (constructor of `FieldEncoderFloat_Lossy<float>`). -/
def mkLossy32Enc (F : FloatOps) (off : Nat) (r : BitVec 32) : Res Enc :=
  if F.resNonPos r then .throw "FieldEncoder(Float/Lossy) requires a resolution with value > 0.0"
  else .ok (.lossy32 off r 0#64)

/-- field_encoder.hpp:103-107 for `double`. -/
def mkLossy64Enc (F : FloatOps) (off : Nat) (r : BitVec 32) : Res Enc :=
  if F.resNonPos r then .throw "FieldEncoder(Float/Lossy) requires a resolution with value > 0.0"
  else .ok (.lossy64 off r 0#64)

/-- field_decoder.hpp:114-119. -/
def mkLossy32Dec (F : FloatOps) (off : Nat) (r : BitVec 32) : Res Dec :=
  if F.resNonPos r then .throw "FieldDecoder(Float/Lossy) requires a resolution with value > 0.0"
  else .ok (.lossy32 off r 0#64)

/-- field_decoder.hpp:114-119 for `double`. -/
def mkLossy64Dec (F : FloatOps) (off : Nat) (r : BitVec 32) : Res Dec :=
  if F.resNonPos r then .throw "FieldDecoder(Float/Lossy) requires a resolution with value > 0.0"
  else .ok (.lossy64 off r 0#64)

/-- codec_common.cpp:116-153 `CreateCompatibleEncoder`. -/
def createEncoder (F : FloatOps) (info : EncodingInfo) (f : PointField) : Res Enc :=
  let off := f.offset.toNat
  match f.type with
  | .float32 =>
    match f.resolution with
    | some r =>
      if info.encoding_opt = .lossy then mkLossy32Enc F off r
      else if info.encoding_opt = .lossless then .ok (.xor off 4 0#64)
      else .ok (.copy off 4)
    | none =>
      if info.encoding_opt = .lossless then .ok (.xor off 4 0#64) else .ok (.copy off 4)
  | .float64 =>
    match f.resolution with
    | some r =>
      if info.encoding_opt = .lossy then mkLossy64Enc F off r
      else .ok (.xor off 8 0#64)
    | none =>
      if info.version ≥ 4#8 then .ok (.gorilla off 8 {}) else .ok (.xor off 8 0#64)
  | .int16 => .ok (.int off 2 true 0#64)
  | .int32 => .ok (.int off 4 true 0#64)
  | .uint16 => .ok (.int off 2 false 0#64)
  | .uint32 => .ok (.int off 4 false 0#64)
  | .uint64 => .ok (.int off 8 false 0#64)
  | .int64 => .ok (.int off 8 true 0#64)
  | .int8 | .uint8 => .ok (.copy off 1)
  | _ => .throw "Unsupported field type"

/-- codec_common.cpp:155-198 `CreateCompatibleDecoder`. -/
def createDecoder (F : FloatOps) (info : EncodingInfo) (f : PointField) : Res Dec :=
  let off := f.offset.toNat
  match f.type with
  | .float32 =>
    match f.resolution with
    | some r =>
      if info.encoding_opt = .lossy then mkLossy32Dec F off r
      else if info.encoding_opt = .lossless then .ok (.xor off 4 0#64)
      else mkLossy32Dec F off r
    | none =>
      if info.encoding_opt = .lossless then .ok (.xor off 4 0#64) else .ok (.copy off 4)
  | .float64 =>
    match f.resolution with
    | some r =>
      if info.encoding_opt ≠ .lossless then mkLossy64Dec F off r
      else .ok (.xor off 8 0#64)
    | none =>
      if info.version ≥ 4#8 then .ok (.gorilla off 8 {}) else .ok (.xor off 8 0#64)
  | .int16 => .ok (.int off 2 0#64)
  | .int32 => .ok (.int off 4 0#64)
  | .uint16 => .ok (.int off 2 0#64)
  | .uint32 => .ok (.int off 4 0#64)
  | .uint64 => .ok (.int off 8 0#64)
  | .int64 => .ok (.int off 8 0#64)
  | .int8 | .uint8 => .ok (.copy off 1)
  | _ => .throw "Unsupported field type"

/-! ### stage 2 -/

/-- The LZ4 and ZSTD library calls used by the code.  Not modelled further; `Compressor.Lawful` below is
what the theorems assume of them. -/
structure Compressor where
  /-- `LZ4_compress_default` / `ZSTD_compress`: input, destination capacity; `none` is an error code -/
  compress : CompOpt → List Byte → Nat → Option (List Byte)
  /-- `LZ4_decompress_safe` / `ZSTD_decompress`: input, destination capacity -/
  decompress : CompOpt → List Byte → Nat → Option (List Byte)
  /-- `LZ4_compressBound` / `ZSTD_compressBound` -/
  bound : CompOpt → Nat → Nat

/-- The documented contract of the two libraries. `lz4MaxInput` is `LZ4_MAX_INPUT_SIZE`. -/
def lz4MaxInput : Nat := 0x7E000000

def intMax : Nat := 0x7FFFFFFF
def u32Max : Nat := 0xFFFFFFFF

structure Compressor.Lawful (C : Compressor) : Prop where
  /-- output fits the destination and is never empty -/
  compress_fits : ∀ o x cap y, C.compress o x cap = some y → 0 < y.length ∧ y.length ≤ cap
  /-- decompression inverts compression when the destination is large enough -/
  inverse : ∀ o x cap y lim, C.compress o x cap = some y → x.length ≤ lim → C.decompress o y lim = some x
  /-- decompression never produces more than the destination holds -/
  decompress_fits : ∀ o y lim x, C.decompress o y lim = some x → x.length ≤ lim
  /-- compression succeeds when the destination has `compressBound` bytes, and uses no more -/
  bound_ok : ∀ o x cap, (o = .lz4 → x.length ≤ lz4MaxInput) → x.length ≤ u32Max → C.bound o x.length ≤ cap →
    ∃ y, C.compress o x cap = some y ∧ y.length ≤ C.bound o x.length
  /-- the bound is monotone up to the maximal input -/
  bound_mono : ∀ o a b, a ≤ b → (o = .lz4 → b ≤ lz4MaxInput) → C.bound o a ≤ C.bound o b

/-- codec_common.cpp:220-258 `CompressChunk` into the view `w`. -/
def compressChunk (C : Compressor) (opt : CompOpt) (input : List Byte) (room : Nat) : Res (List Byte) :=
  if input.length > u32Max then .throw "Chunk too large"
  else
    match opt with
    | .lz4 =>
      if input.length > intMax ∨ room > intMax then .throw "Chunk size too large for LZ4"
      else
        match C.compress .lz4 input room with
        | none => .throw "LZ4 compression failed"
        | some y => .ok y
    | .zstd =>
      match C.compress .zstd input room with
      | none => .throw "ZSTD compression failed"
      | some y => if y.length > u32Max then .throw "Compressed chunk too large" else .ok y
    | _ => .throw "Unsupported compression option"

/-- codec_common.cpp:260-299 `DecompressChunk`. -/
def decompressChunk (C : Compressor) (opt : CompOpt) (chunk : List Byte) (lim : Nat) : Res (List Byte) :=
  match opt with
  | .none => .ok chunk
  | .lz4 =>
    if chunk.length > intMax ∨ lim > intMax then .throw "Chunk size too large for LZ4"
    else
      match C.decompress .lz4 chunk lim with
      | none => .throw "LZ4 decompression failed"
      | some x => .ok x
  | .zstd =>
    match C.decompress .zstd chunk lim with
    | none => .throw "ZSTD decompression failed"
    | some x => .ok x
  | .bad _ => .throw "Unsupported compression option"

/-- chunk_writer.cpp:27-48 `WriteStage1Chunk`: length prefix and chunk; the view and the returned size.  With
compression the prefix is reserved first (checked `trim_front`), the chunk is compressed behind it, then the
prefix is filled in. -/
def writeStage1Chunk (C : Compressor) (opt : CompOpt) (data : List Byte) (w : W) : Res (W × Nat) :=
  if data.length > u32Max then .throw "Chunk too large"
  else if opt = .none then do
    let w ← w.encodeInt 4 data.length
    let w ← w.checked "Output buffer too small for uncompressed chunk" data
    .ok (w, data.length + 4)
  else if w.room < 4 then .throw "Cannot trim more than the current size"
  else do
    let y ← compressChunk C opt data (w.room - 4)
    -- `output.trim_front(chunk_size)`; the library never writes more than the room it was given
    let w ← (⟨w.out ++ toLE 4 y.length, w.room - 4⟩ : W).checked "Cannot trim more than the current size" y
    .ok (w, y.length + 4)

/-! ### decoder output -/

/-- The stores of a field decoder into the destination point that starts at `base` of the output buffer.
The destination pointer is `output.data() + offset` with no test against the point or the buffer. -/
def applyWrites (buf : List Byte) (base : Nat) : List Write → Res (List Byte)
  | [] => .ok buf
  | (o, v) :: ws => do
    let buf ← writeAt buf (base + o) v
    applyWrites buf base ws

/-- One point: every decoder in order (v4_codec.cpp:93-100, v5_codec.cpp:996-1001). -/
def decodeFields (F : FloatOps) : List Dec → List Byte → List Byte → Nat →
    Res (List Dec × List Byte × List Byte)
  | [], input, buf, _ => .ok ([], input, buf)
  | d :: ds, input, buf, base => do
    let (d', ws, input) ← d.step F input
    let buf ← applyWrites buf base ws
    let (ds', input, buf) ← decodeFields F ds input buf base
    .ok (d' :: ds', input, buf)

/-- One point: every encoder in order (v4_codec.cpp:74-76, v5_codec.cpp:926-928). -/
def encodeFields (F : FloatOps) (mem : List Byte) : List Enc → W → Res (List Enc × W)
  | [], w => .ok ([], w)
  | e :: es, w => do
    let (e', bs) ← e.step F mem
    let w ← w.raw bs
    let (es', w) ← encodeFields F mem es w
    .ok (e' :: es', w)

end Cloudini
