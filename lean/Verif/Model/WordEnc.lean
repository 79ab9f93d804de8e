import Verif.Model.Word

/-!
# Encoding where `size_t` is small (WebAssembly: 32 bits)

As `Model/Word`, for the encoder: the functions that multiply and add in `size_t`, for `M` values of `size_t`.  Sums that count bytes of something that lies in memory
(serialized sizes, `compressed_size_`, section sizes, `(point_offset + i) * point_step` inside the cloud) cannot reach `M` and are those of the 64-bit model, and
`MaxSerializedPointSize` is at most 11 bytes per field that lies in memory.
-/

namespace Cloudini.Word

/-- v5_codec.cpp:326-333 `hashPaletteValue`: `static_cast<size_t>(value)` keeps the low bits. -/
def hash (M : Nat) (v : BitVec 64) : BitVec 64 := BitVec.ofNat 64 ((hashPaletteValue v).toNat % M)

/-- cloudini.cpp:265-288 (as `chunkBound`): `max_chunk_input_size` wraps. -/
def chunkBound (M : Nat) (C : Compressor) (info : EncodingInfo) (perPoint n : Nat) : Res Nat :=
  let input := (n * perPoint + (if usesV5 info then info.fields.length * 32 + 1024 else 0)) % M
  match info.compression_opt with
  | .none => .ok input
  | .lz4 => if input > intMax then .throw "Chunk size too large for LZ4" else .ok (C.bound .lz4 input)
  | .zstd => .ok (C.bound .zstd input)
  | .bad _ => .throw "Unsupported compression option in MaxCompressedSize"

/-- cloudini.cpp:255-291 (as `maxCompressedChunks`): `total_size` wraps. -/
def maxCompressedChunks (M : Nat) (C : Compressor) (info : EncodingInfo) (perPoint : Nat) (points : Nat) : Res Nat :=
  if _h : points = 0 then .ok 0
  else do
    let b ← chunkBound M C info perPoint (min points kPointsPerChunk)
    let rest ← maxCompressedChunks M C info perPoint (points - min points kPointsPerChunk)
    .ok ((4 + b + rest) % M)
termination_by points
decreasing_by
  simp only [kPointsPerChunk]
  omega

/-- cloudini.cpp:249-292 `MaxCompressedSize` (as `maxCompressedSize`). -/
def maxCompressedSize (M : Nat) (C : Compressor) (info : EncodingInfo) (points : Nat) : Res Nat :=
  if info.point_step = 0#32 then .throw "point_step cannot be 0"
  else do
    let m ← maxSerializedPointSize info.encoding_opt info.fields
    maxCompressedChunks M C info m points

/-- v5_codec.cpp:894-898 `V5StageBufferSize`. -/
def v5StageBufferSize (M : Nat) (info : EncodingInfo) (n : Nat) : Res Nat := do
  let m ← maxSerializedPointSize info.encoding_opt info.fields
  .ok ((n * (max info.point_step.toNat m + 64) + info.fields.length * 64 + 1024) % M)

/-- cloudini.cpp:590-614 (as `encodePayload`): the stage buffers have the wrapped sizes. -/
def encodePayload (M : Nat) (F : FloatOps) (C : Compressor) (enc : Encoder) (points : Nat) (cloud : List Byte) (w : W) (size : Nat) : Res (Encoder × W × Nat) :=
  if usesV5 enc.info then do
    let cap ← v5StageBufferSize M enc.info kPointsPerChunk
    let (es, as) ← buildV5Plan F enc.info
    let (w, size) ← encodeV5Loop F C (hash M) enc.info cap points es as cloud w size
    .ok (enc, w, size)
  else do
    let m ← maxSerializedPointSize enc.info.encoding_opt enc.info.fields
    let (es, w, size) ← encodeV4Loop F C enc.info (kPointsPerChunk * max enc.info.point_step.toNat m % M) points enc.encs cloud w size
    .ok ({ enc with encs := es }, w, size)

/-- cloudini.cpp:522-623 `encode` into a view (as `encodeView`): `required_capacity` wraps. -/
def encodeView (M : Nat) (F : FloatOps) (C : Compressor) (enc : Encoder) (cloud : List Byte) (room : Nat) (writeHeader : Bool) : Res (Encoder × List Byte × Nat) :=
  if enc.info.point_step = 0#32 then .throw "point_step cannot be 0"
  else if cloud.length % enc.info.point_step.toNat ≠ 0 then .throw "Input cloud_data size is not a multiple of point_step"
  else do
    let points := cloud.length / enc.info.point_step.toNat
    let m ← maxCompressedSize M C enc.info points
    if room < (m + (if writeHeader then enc.header.length else 0)) % M then .throw "Output buffer too small for worst-case compressed size"
    else do
      let w ← (⟨[], room⟩ : W).raw (if writeHeader then enc.header else [])
      let (enc, w, size) ← encodePayload M F C enc points cloud w (if writeHeader then enc.header.length else 0)
      .ok (enc, w.out, size)

/-- cloudini.cpp:501-520 `encode` into a vector (as `encodeVector`): the vector has the wrapped size. -/
def encodeVector (M : Nat) (F : FloatOps) (C : Compressor) (enc : Encoder) (headerBound : Nat) (cloud : List Byte) : Res (Encoder × List Byte × Nat) :=
  if enc.info.point_step = 0#32 then .throw "point_step cannot be 0"
  else if cloud.length % enc.info.point_step.toNat ≠ 0 then .throw "Input cloud_data size is not a multiple of point_step"
  else do
    let m ← maxCompressedSize M C enc.info (cloud.length / enc.info.point_step.toNat)
    let w ← (⟨[], (headerBound + m) % M⟩ : W).raw enc.header
    let (enc, out, added) ← encodeView M F C enc cloud w.room false
    let size := enc.header.length + added
    .ok (enc, (w.out ++ out).take size, size)

/-- wasm_functions.cpp:56-83 (as `Wasm.computeBody`). -/
def computeBody (T : FloatText) (F : FloatOps) (C : Compressor) (msg : List Byte) (res : BitVec 32) : Res Nat := do
  let pc ← Ros.getMessage msg
  let info := Wasm.withResolution res (Ros.toEncodingInfo pc)
  let enc ← mkEncoder F info (encodeHeaderYaml T info)
  if pc.data.length ≠ Ros.cloudDataSize pc ∧ (pc.width = 0#32 ∨ pc.height = 0#32) then .ok 0
  else do
    let (_, _, n) ← encodeVector (2 ^ 32) F C enc (headerEstimate T info) pc.data
    .ok (n % 2 ^ 32)

/-- wasm_functions.cpp:55-88 `cldn_ComputeCompressedSize` in the module. -/
def computeSize (T : FloatText) (F : FloatOps) (C : Compressor) (msg : List Byte) (res : BitVec 32) : Res Nat := Wasm.guardedNat (computeBody T F C msg res)

/-- wasm_functions.cpp:170-218 `cldn_EncodePointcloudMessage` in the module (as `Wasm.encodeMessage`). -/
def encodeMessage (T : FloatText) (F : FloatOps) (C : Compressor) (msg : List Byte) (res : BitVec 32) : Res Wasm.Out := Wasm.guarded do
  let pc ← Ros.getMessage msg
  let info := Wasm.withResolution res (Ros.toEncodingInfo pc)
  if pc.data.length ≠ Ros.cloudDataSize pc then .ok ⟨0, some []⟩
  else do
    let enc ← mkEncoder F info (encodeHeaderYaml T info)
    if info.point_step = 0#32 then .ub .div
    else do
      let m ← maxCompressedSize (2 ^ 32) C info (pc.data.length / info.point_step.toNat)
      if (headerEstimate T info + m) % 2 ^ 32 ≤ msg.length then do
        let (_, out, n) ← encodeView (2 ^ 32) F C enc pc.data msg.length true
        .ok ⟨n % 2 ^ 32, some out⟩
      else do
        let (_, out, n) ← encodeVector (2 ^ 32) F C enc (headerEstimate T info) pc.data
        if n > msg.length then .ok ⟨0, some []⟩
        else .ok ⟨n % 2 ^ 32, some (out.take n)⟩

/-- wasm_functions.cpp:220-248 `cldn_EncodePointcloudData` in the module (as `Wasm.encodeData`). -/
def encodeData (T : FloatText) (F : FloatOps) (C : Compressor) (yaml data : List Byte) : Res Wasm.Out := Wasm.guarded do
  let info ← infoFromYaml T yaml
  if data.length ≠ (info.width * info.height * info.point_step).toNat then .ok ⟨0, some []⟩
  else do
    let enc ← mkEncoder F info (encodeHeaderYaml T info)
    let (_, out, n) ← encodeVector (2 ^ 32) F C enc (headerEstimate T info) data
    if n > data.length then .ok ⟨0, some []⟩
    else .ok ⟨n % 2 ^ 32, some (out.take n)⟩

end Cloudini.Word
