import Verif.Model.Ros

/-!
# The C interface for WebAssembly (`wasm_functions.cpp`)

Pointers into the linear memory are represented by the bytes they point to.  An input is the bytes of the given size.  An output address has no
size in this interface; what a call does to the memory there is described by `Out`.  Input and output are assumed not to overlap.  `size_t` has
32 bits in this target; this model keeps the 64 bits of the library, which differs for products of 4 GiB and more only (`Model/Word`, C84).  `EM_ASM` (a message on the
console) is left out.  The `catch` clauses are modelled as written (the CMake file offers builds in which an exception ends the program instead).
-/

namespace Cloudini.Wasm

open Cloudini.Ros (getMessage toEncodingInfo cloudDataSize fromCompressed)

/-- What a call returned, and what it wrote at the output address: exactly these bytes, or (`none`) an unknown part of the room it was given,
because an exception ended the work. -/
structure Out where
  ret : Nat
  bytes : Option (List Byte)
  deriving DecidableEq, Repr

/-- `try { … } catch (const std::exception&) { return 0; }` around code that writes. -/
def guarded : Res Out → Res Out
  | .throw _ => .ok ⟨0, none⟩
  | r => r

/-- The same around code that only computes a number. -/
def guardedNat : Res Nat → Res Nat
  | .throw _ => .ok 0
  | r => r

/-- wasm_functions.cpp:25-42 `cldn_GetHeaderAsYAML`.  The number of bytes written depends on the data alone: the function is not told how large the
output is. -/
def headerYaml (T : FloatText) (data : List Byte) : Res Out := guarded do
  let (info, _) ← decodeHeader T data
  .ok ⟨(infoToYaml T info).length % 2 ^ 32, some (infoToYaml T info)⟩

/-- wasm_functions.cpp:44-53 `cldn_GetHeaderAsYAMLFromDDS`. -/
def headerYamlMsg (T : FloatText) (msg : List Byte) : Res Out := guarded do
  let pc ← getMessage msg
  headerYaml T pc.data

/-- wasm_functions.cpp:64-68, 177-181: the resolution is set on every FLOAT32 field. -/
def withResolution (res : BitVec 32) (info : EncodingInfo) : EncodingInfo :=
  { info with fields := info.fields.map fun f => if f.type = .float32 then { f with resolution := some res } else f }

/-- wasm_functions.cpp:56-83: the body of the `try` of `cldn_ComputeCompressedSize`. -/
def computeBody (T : FloatText) (F : FloatOps) (C : Compressor) (msg : List Byte) (res : BitVec 32) : Res Nat := do
  let pc ← getMessage msg
  let info := withResolution res (toEncodingInfo pc)
  let enc ← mkEncoder F info (encodeHeaderYaml T info)
  if pc.data.length ≠ cloudDataSize pc ∧ (pc.width = 0#32 ∨ pc.height = 0#32) then .ok 0
  else do
    let (_, _, n) ← encodeVector F C enc (headerEstimate T info) pc.data
    .ok (n % 2 ^ 32)

/-- wasm_functions.cpp:55-88 `cldn_ComputeCompressedSize`. -/
def computeSize (T : FloatText) (F : FloatOps) (C : Compressor) (msg : List Byte) (res : BitVec 32) : Res Nat := guardedNat (computeBody T F C msg res)

/-- wasm_functions.cpp:90-101 `cldn_GetDecompressedSize`: the product of the message's own members, in 32 bits. -/
def decompressedSize (msg : List Byte) : Res Nat := guardedNat do
  let pc ← getMessage msg
  .ok (pc.height * pc.width * pc.point_step).toNat

/-- wasm_functions.cpp:103-120 `cldn_ConvertCompressedMsgToPointCloud2Msg`. -/
def convertMsg (T : FloatText) (F : FloatOps) (C : Compressor) (fuel : Nat) (msg : List Byte) : Res Out := guarded do
  let pc ← getMessage msg
  let out ← fromCompressed T F C fuel pc
  .ok ⟨out.length % 2 ^ 32, some out⟩

/-- wasm_functions.cpp:143-168 `cldn_DecodeCompressedData`.  `mem` is the memory from the output address to the end of the linear memory, whoever
owns it.  A view that would leave the linear memory is counted as an access outside it, even if the decoder should stop before. -/
def decodeData (T : FloatText) (F : FloatOps) (C : Compressor) (fuel : Nat) (data mem : List Byte) : Res Out :=
  match decodeHeader T data with
  | .throw _ => .ok ⟨0, some []⟩
  | .ub k => .ub k
  | .ok (info, payload) =>
    if mem.length < (info.width * info.height * info.point_step).toNat then .ub .mem
    else guarded do
      let buf ← decodeCloud F C fuel info payload (mem.take (info.width * info.height * info.point_step).toNat)
      .ok ⟨(info.width * info.height * info.point_step).toNat, some buf⟩

/-- wasm_functions.cpp:122-141 `cldn_DecodeCompressedMessage`: the message is read outside the `try`. -/
def decodeMessage (T : FloatText) (F : FloatOps) (C : Compressor) (fuel : Nat) (msg mem : List Byte) : Res Out := do
  let pc ← getMessage msg
  guarded (decodeData T F C fuel pc.data mem)

/-- wasm_functions.cpp:170-218 `cldn_EncodePointcloudMessage`. -/
def encodeMessage (T : FloatText) (F : FloatOps) (C : Compressor) (msg : List Byte) (res : BitVec 32) : Res Out := guarded do
  let pc ← getMessage msg
  let info := withResolution res (toEncodingInfo pc)
  if pc.data.length ≠ cloudDataSize pc then .ok ⟨0, some []⟩
  else do
    let enc ← mkEncoder F info (encodeHeaderYaml T info)
    if info.point_step = 0#32 then .ub .div
    else do
      let m ← maxCompressedSize C info (pc.data.length / info.point_step.toNat)
      if headerEstimate T info + m ≤ msg.length then do
        let (_, out, n) ← encodeView F C enc pc.data msg.length true
        .ok ⟨n % 2 ^ 32, some out⟩
      else do
        let (_, out, n) ← encodeVector F C enc (headerEstimate T info) pc.data
        if n > msg.length then .ok ⟨0, some []⟩
        else .ok ⟨n % 2 ^ 32, some (out.take n)⟩

/-- wasm_functions.cpp:220-248 `cldn_EncodePointcloudData`.  `yaml` is the text in front of the NUL. -/
def encodeData (T : FloatText) (F : FloatOps) (C : Compressor) (yaml data : List Byte) : Res Out := guarded do
  let info ← infoFromYaml T yaml
  if data.length ≠ (info.width * info.height * info.point_step).toNat then .ok ⟨0, some []⟩
  else do
    let enc ← mkEncoder F info (encodeHeaderYaml T info)
    let (_, out, n) ← encodeVector F C enc (headerEstimate T info) data
    if n > data.length then .ok ⟨0, some []⟩
    else .ok ⟨n % 2 ^ 32, some (out.take n)⟩

end Cloudini.Wasm
