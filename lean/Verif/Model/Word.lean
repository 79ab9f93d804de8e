import Verif.Model.Wasm

/-!
# Decoding where `size_t` is small (WebAssembly: 32 bits)

`Model/Cloud` computes in `size_t` of 64 bits, where no product of the decoder but `max_decompressed_size` can wrap.  The WebAssembly module has 32 bits.  These are
the functions of the decoder that multiply in `size_t`, for `M` values of `size_t` (`M` = 2^32 there); the others are those of `Model/Cloud`.  Addresses are positions in
the output buffer: the product wraps, then the address is taken.
-/

namespace Cloudini.Word

/-- `output_base + i * point_step`, `p * info.point_step`: the product in `size_t`. -/
def place (M base step i : Nat) : Nat := base + i * step % M

/-- v5_codec.cpp:122-124 with line 791, 823, 842, 866 (as `writeValue`). -/
def writeValue (M : Nat) (buf : List Byte) (base step : Nat) (f : AField) (i : Nat) (v : BitVec 64) : Res (List Byte) :=
  writeAt buf (place M base step i + f.offset) (toLE f.bpv v.toNat)

/-- v5_codec.cpp:781-794 (as `decodeDeltas`). -/
def decodeDeltas (M : Nat) (f : AField) (base step : Nat) : Nat → Nat → BitVec 64 → List Byte → List Byte → Res (List Byte × List Byte)
  | 0, _, _, input, buf => .ok (input, buf)
  | n + 1, i, prev, input, buf => do
    let (diff, consumed) ← decodeVarint input
    let value ← addI64 prev diff
    let buf ← writeValue M buf base step f i value
    decodeDeltas M f base step n (i + 1) value (input.drop consumed) buf

/-- v5_codec.cpp:818-824 (as `decodePaletteIndexes`). -/
def decodePaletteIndexes (M : Nat) (f : AField) (base step bits : Nat) (palette : List (BitVec 64)) : Nat → Nat → List Byte → BitVec 64 → Nat → List Byte → Res (List Byte)
  | 0, _, _, _, _, buf => .ok buf
  | n + 1, i, ptr, scratch, held, buf => do
    let (idx, ptr, scratch, held) ← readBitpackedIndex bits ptr scratch held
    match palette[idx]? with
    | none => .throw "V5 adaptive int: palette index out of range"
    | some v => do
      let buf ← writeValue M buf base step f i v
      decodePaletteIndexes M f base step bits palette n (i + 1) ptr scratch held buf

/-- v5_codec.cpp:841-844 (as `writeRun`). -/
def writeRun (M : Nat) (f : AField) (base step : Nat) (v : BitVec 64) : Nat → Nat → List Byte → Res (List Byte)
  | 0, _, buf => .ok buf
  | k + 1, i, buf => do
    let buf ← writeValue M buf base step f i v
    writeRun M f base step v k (i + 1) buf

/-- v5_codec.cpp:832-845 (as `decodeRleRuns`): `out_index` is a `size_t`, `run_len` and the sum have 64 bits. -/
def decodeRleRuns (M : Nat) (f : AField) (base step expected : Nat) : Nat → Nat → List Byte → List Byte → Res (Nat × List Byte × List Byte)
  | 0, outIndex, input, buf => .ok (outIndex, input, buf)
  | r + 1, outIndex, input, buf =>
    if input.length < f.bpv then .throw "V5 adaptive int: truncated RLE value"
    else do
      let bs ← readAt input 0 f.bpv
      let v := BitVec.ofNat 64 (fromLE bs)
      let (runLen, input) ← readUVarint (input.drop f.bpv)
      if (BitVec.ofNat 64 outIndex + runLen).toNat > expected then .throw "V5 adaptive int: RLE run exceeds point count"
      else do
        let buf ← writeRun M f base step v runLen.toNat outIndex buf
        decodeRleRuns M f base step expected r ((outIndex + runLen.toNat) % M) input buf

/-- v5_codec.cpp:862-869 (as `writeDeltaRun`). -/
def writeDeltaRun (M : Nat) (f : AField) (base step : Nat) (diff : BitVec 64) : Nat → Nat → BitVec 64 → List Byte → Res (BitVec 64 × List Byte)
  | 0, _, prev, buf => .ok (prev, buf)
  | k + 1, i, prev, buf => do
    let value ← addI64 prev diff
    let buf ← writeValue M buf base step f i value
    writeDeltaRun M f base step diff k (i + 1) value buf

/-- v5_codec.cpp:854-870 (as `decodeDeltaRleRuns`). -/
def decodeDeltaRleRuns (M : Nat) (f : AField) (base step expected : Nat) : Nat → Nat → BitVec 64 → List Byte → List Byte → Res (Nat × List Byte × List Byte)
  | 0, outIndex, _, input, buf => .ok (outIndex, input, buf)
  | r + 1, outIndex, prev, input, buf => do
    let (diff, consumed) ← decodeVarint input
    let (runLen, input) ← readUVarint (input.drop consumed)
    if (BitVec.ofNat 64 outIndex + runLen).toNat > expected then .throw "V5 adaptive int: Delta-RLE run exceeds point count"
    else do
      let (prev, buf) ← writeDeltaRun M f base step diff runLen.toNat outIndex prev buf
      decodeDeltaRleRuns M f base step expected r ((outIndex + runLen.toNat) % M) prev input buf

/-- v5_codec.cpp:764-879 `decodeV5AdaptiveIntSection` (as `decodeSection`; `index_bytes` is at most 65536). -/
def decodeSection (M : Nat) (f : AField) (base step expected : Nat) (input buf : List Byte) : Res (List Byte × List Byte) :=
  match input with
  | [] => .throw "V5 adaptive int: missing mode byte"
  | m :: input =>
    if m = 0#8 then decodeDeltas M f base step expected 0 0#64 input buf
    else if m = 1#8 then do
      let (count, input) ← decodeInt 2 input
      if count = 0 then .throw "V5 adaptive int: empty palette"
      else do
        let (palette, input) ← readPalette f.bpv count input
        let bits := bitsForPaletteIndex count
        let indexBytes := (bits * expected + 7) / 8
        if input.length < indexBytes then .throw "V5 adaptive int: truncated palette indexes"
        else do
          let buf ← decodePaletteIndexes M f base step bits palette expected 0 input 0#64 0 buf
          .ok (input.drop indexBytes, buf)
    else if m = 2#8 then do
      let (runs, input) ← decodeInt 4 input
      let (outIndex, input, buf) ← decodeRleRuns M f base step expected runs 0 input buf
      if outIndex ≠ expected then .throw "V5 adaptive int: RLE run count does not fill chunk"
      else .ok (input, buf)
    else if m = 3#8 then do
      let (runs, input) ← decodeInt 4 input
      let (outIndex, input, buf) ← decodeDeltaRleRuns M f base step expected runs 0 0#64 input buf
      if outIndex ≠ expected then .throw "V5 adaptive int: Delta-RLE run count does not fill chunk"
      else .ok (input, buf)
    else .throw "V5 adaptive int: unknown mode byte"

/-- v5_codec.cpp:1003-1006 (as `decodeSections`). -/
def decodeSections (M base step expected : Nat) : List AField → List Byte → List Byte → Res (List Byte × List Byte)
  | [], input, buf => .ok (input, buf)
  | f :: fs, input, buf => do
    let (input, buf) ← decodeSection M f base step expected input buf
    decodeSections M base step expected fs input buf

/-- v5_codec.cpp:997-1002 (as `decodePointsV5`), `p` the next point. -/
def decodePoints (M : Nat) (F : FloatOps) (base step : Nat) : Nat → Nat → List Dec → List Byte → List Byte → Res (List Dec × List Byte × List Byte)
  | 0, _, ds, input, buf => .ok (ds, input, buf)
  | n + 1, p, ds, input, buf => do
    let (ds, input, buf) ← decodeFields F ds input buf (place M base step p)
    decodePoints M F base step n (p + 1) ds input buf

/-- v5_codec.cpp:984-1012 `DecodeV5Stage1Chunk`: `output_bytes` wraps. -/
def decodeV5Chunk (M : Nat) (F : FloatOps) (ds : List Dec) (as : List AField) (step expected : Nat) (input buf : List Byte) (base : Nat) :
    Res (List Dec × List Byte × Nat) :=
  if expected = 0 then .throw "V5 chunks require an expected point count"
  else if buf.length - base < expected * step % M then .throw "Output buffer is too small to hold the decoded V5 data"
  else do
    let (ds, input, buf) ← decodePoints M F base step expected 0 (ds.map Dec.reset) input buf
    let (input, buf) ← decodeSections M base step expected as input buf
    if input.length ≠ 0 then .throw "V5 chunk has trailing bytes after decode"
    else .ok (ds, buf, base + expected * step % M)

/-- cloudini.cpp:670-684 `decodeChunk`: `max_decompressed_size` wraps. -/
def decodeChunk (M : Nat) (F : FloatOps) (C : Compressor) (fuel : Nat) (info : EncodingInfo) (ds : List Dec) (min : Nat) (chunk buf : List Byte) (base expected : Nat) :
    Res (List Dec × List Byte × Nat) := do
  let view ← decompressChunk C info.compression_opt chunk (info.width.toNat * info.height.toNat * info.point_step.toNat % M)
  if usesV5 info then decodeV5Chunk M F ds (getAdaptiveFields info) info.point_step.toNat expected view buf base
  else decodeV4Chunk F fuel ds min info.point_step.toNat expected view buf base

/-- cloudini.cpp:647-664: the chunk loop of versions ≥ 3. -/
def decodeLoop (M : Nat) (F : FloatOps) (C : Compressor) (info : EncodingInfo) (min' : Nat) (points : Nat) (ds : List Dec) (data buf : List Byte) (base : Nat) : Res (List Byte) :=
  if data.length = 0 then
    if points ≠ 0 then .throw "Encoded data ended before all declared points were decoded" else .ok buf
  else if _h : points = 0 then .throw "Encoded data contains more chunks than declared points"
  else do
    let (size, data) ← decodeInt 4 data
    if size > data.length then .throw "Invalid chunk size found while decoding"
    else do
      let n := min points kPointsPerChunk
      let (ds, buf, base) ← decodeChunk M F C 0 info ds min' (data.take size) buf base n
      decodeLoop M F C info min' (points - n) ds (data.drop size) buf base
termination_by points
decreasing_by simp only [kPointsPerChunk]; omega

/-- cloudini.cpp:635-668 `PointcloudDecoder::decode`: `points_remaining` wraps. -/
def decodeCloud (M : Nat) (F : FloatOps) (C : Compressor) (fuel : Nat) (info : EncodingInfo) (data buf : List Byte) : Res (List Byte) := do
  let (ds, min) ← buildDecoders F info
  if data.take 10 = magic then .throw "compressed_data contains the header. You should use DecodeHeader first"
  else if info.version ≥ 3#8 then decodeLoop M F C info min (info.width.toNat * info.height.toNat % M) ds data buf 0
  else do
    let (_, buf, _) ← decodeChunk M F C fuel info ds min data buf 0 0
    .ok buf

/-- wasm_functions.cpp:143-168 `cldn_DecodeCompressedData` in the module (as `Wasm.decodeData`). -/
def decodeData (T : FloatText) (F : FloatOps) (C : Compressor) (fuel : Nat) (data mem : List Byte) : Res Wasm.Out :=
  match decodeHeader T data with
  | .throw _ => .ok ⟨0, some []⟩
  | .ub k => .ub k
  | .ok (info, payload) =>
    if mem.length < (info.width * info.height * info.point_step).toNat then .ub .mem
    else Wasm.guarded do
      let buf ← decodeCloud (2 ^ 32) F C fuel info payload (mem.take (info.width * info.height * info.point_step).toNat)
      .ok ⟨(info.width * info.height * info.point_step).toNat, some buf⟩

/-- wasm_functions.cpp:122-141 `cldn_DecodeCompressedMessage` in the module (as `Wasm.decodeMessage`). -/
def decodeMessage (T : FloatText) (F : FloatOps) (C : Compressor) (fuel : Nat) (msg mem : List Byte) : Res Wasm.Out := do
  let pc ← Ros.getMessage msg
  Wasm.guarded (decodeData T F C fuel pc.data mem)

end Cloudini.Word
