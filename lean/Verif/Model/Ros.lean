import Verif.Model.Cdr
import Verif.Model.Cloud
import Verif.Model.Header

/-!
# ROS messages (`ros_msg_utils.cpp`, `ros_msg_utils.hpp`)

The sequential encoder stands for the threaded one, whose result is the same (C32).  `std::bad_alloc` is not modelled.  `data` is the
contents of the view; who owns them is in `Verif.Model.RosOwn`.
-/

namespace Cloudini.Ros

open Cloudini.Cdr (encPrim encString encInit decPrim decString decBuf decInit)

/-- ros_msg_utils.hpp:50-161 `RosHeader` and `RosPointCloud2`.  A `bool` is its byte. `is_bigendian` is a member that nothing reads or
writes except the copy operations. -/
structure Pc2 where
  cdr : Cdr.Header := {}
  sec : BitVec 32 := 0
  nsec : BitVec 32 := 0
  frame : List Byte := []
  height : BitVec 32 := 1
  width : BitVec 32 := 0
  fields : List PointField := []
  point_step : BitVec 32 := 0
  row_step : BitVec 32 := 0
  data : List Byte := []
  dense : Byte := 1
  deriving DecidableEq, Repr

/-- ros_msg_utils.cpp:70-81: the loop over the fields; the count is read and dropped. -/
def readFields (h : Cdr.Header) : Nat → Cdr.Dec → Res (List PointField × Cdr.Dec)
  | 0, d => .ok ([], d)
  | n + 1, d => do
    let (name, d) ← decString h d
    let (offset, d) ← decPrim h 4 d
    let (type, d) ← decPrim h 1 d
    let (_count, d) ← decPrim h 4 d
    let (fs, d) ← readFields h n d
    .ok ({ name := name, offset := BitVec.ofNat 32 offset, type := FieldType.ofCode (BitVec.ofNat 8 type) } :: fs, d)

/-- ros_msg_utils.cpp:54-90 `readPointCloud2MessageCommon` into a fresh `RosPointCloud2`. -/
def readCommon (h : Cdr.Header) (d : Cdr.Dec) : Res (Pc2 × Cdr.Dec) := do
  let (sec, d) ← decPrim h 4 d
  let (nsec, d) ← decPrim h 4 d
  let (frame, d) ← decString h d
  let (height, d) ← decPrim h 4 d
  let (width, d) ← decPrim h 4 d
  let (num, d) ← decPrim h 4 d
  let (fields, d) ← readFields h num d
  let (_big, d) ← decPrim h 1 d
  let (step, d) ← decPrim h 4 d
  let (row, d) ← decPrim h 4 d
  let (data, d) ← decBuf h d
  let (dense, d) ← decPrim h 1 d
  .ok ({ cdr := h, sec := BitVec.ofNat 32 sec, nsec := BitVec.ofNat 32 nsec, frame := frame, height := BitVec.ofNat 32 height,
         width := BitVec.ofNat 32 width, fields := fields, point_step := BitVec.ofNat 32 step, row_step := BitVec.ofNat 32 row,
         data := data, dense := BitVec.ofNat 8 dense }, d)

/-- ros_msg_utils.cpp:92-97 `getDeserializedPointCloudMessage`: the decoder expects DDS CDR (nanocdr.hpp:143). -/
def getMessage (raw : List Byte) : Res Pc2 := do
  let (h, d) ← decInit .dds raw
  let (pc, _) ← readCommon h d
  .ok pc

/-- ros_msg_utils.cpp:111-116. -/
def writeFields (h : Cdr.Header) : List PointField → List Byte → Res (List Byte)
  | [], st => .ok st
  | f :: fs, st => do
    let st ← encString h f.name st
    let st := encPrim h 4 f.offset.toNat st
    let st := encPrim h 1 f.type.code.toNat st
    let st := encPrim h 4 1 st
    writeFields h fs st

/-- ros_msg_utils.cpp:99-121 `writePointCloudHeader`. -/
def writeHeader (h : Cdr.Header) (pc : Pc2) (st : List Byte) : Res (List Byte) := do
  let st := encPrim h 4 pc.sec.toNat st
  let st := encPrim h 4 pc.nsec.toNat st
  let st ← encString h pc.frame st
  let st := encPrim h 4 pc.height.toNat st
  let st := encPrim h 4 pc.width.toNat st
  let st := encPrim h 4 (pc.fields.length % 2 ^ 32) st
  let st ← writeFields h pc.fields st
  let st := encPrim h 1 0 st
  let st := encPrim h 4 pc.point_step.toNat st
  .ok (encPrim h 4 (pc.point_step * pc.width).toNat st)

/-- ros_msg_utils.cpp:123-132 `toEncodingInfo`. -/
def toEncodingInfo (pc : Pc2) : EncodingInfo :=
  { fields := pc.fields, width := pc.width, height := pc.height, point_step := pc.point_step, encoding_opt := .lossy, compression_opt := .zstd }

/-- ros_msg_utils.cpp:190: the text behind the data. -/
def formatText : List Byte := ascii "cloudini"

/-- ros_msg_utils.cpp:167-213 `convertPointCloud2ToCompressedCloud`: the contents of `compressed_dds_msg`.  The vector is resized for the
worst case, the encoder writes into that room and the vector is cut to the size it returned; what the model keeps of it is what was written. -/
def toCompressed (T : FloatText) (F : FloatOps) (C : Compressor) (pc : Pc2) (info : EncodingInfo) : Res (List Byte) := do
  let st ← writeHeader pc.cdr pc (encInit pc.cdr)
  let msg := encPrim pc.cdr 4 0 st
  if pc.data.length = 0 then encString pc.cdr formatText (encPrim pc.cdr 1 pc.dense.toNat msg)
  else if info.point_step = 0#32 then .throw "convertPointCloud2ToCompressedCloud: point_step cannot be 0"
  else do
    let m ← maxCompressedSize C info (pc.data.length / info.point_step.toNat)
    let room := headerEstimate T info + m
    let enc ← mkEncoder F info (encodeHeaderYaml T info)
    let (_, out, size) ← encodeView F C enc pc.data room true
    let all ← writeAt (msg ++ out ++ List.replicate (room - out.length) 0#8) st.length (toLE 4 size)
    encString pc.cdr formatText (encPrim pc.cdr 1 pc.dense.toNat (all.take (msg.length + size)))

/-- ros_msg_utils.cpp:137: `pc_info.width * pc_info.height * pc_info.point_step`, in 32 bits. -/
def cloudDataSize (pc : Pc2) : Nat := (pc.width * pc.height * pc.point_step).toNat

/-- ros_msg_utils.cpp:135-165 `convertCompressedCloudToPointCloud2`: the contents of `pc2_dds_msg`.  The decoder writes into the
zero bytes `resize` added. -/
def fromCompressed (T : FloatText) (F : FloatOps) (C : Compressor) (fuel : Nat) (pc : Pc2) : Res (List Byte) := do
  let st ← writeHeader pc.cdr pc (encInit pc.cdr)
  let st := encPrim pc.cdr 4 (cloudDataSize pc) st
  if cloudDataSize pc = 0 then .ok (encPrim pc.cdr 1 pc.dense.toNat st)
  else do
    let (info, payload) ← decodeHeader T pc.data
    let buf ← decodeCloud F C fuel info payload (List.replicate (cloudDataSize pc) 0#8)
    .ok (encPrim pc.cdr 1 pc.dense.toNat (st ++ buf))

/-! ### resolution profiles -/

/-- `x == 0` for a `float`. -/
def isZero32 (x : BitVec 32) : Bool := x.toNat % 2 ^ 31 = 0

/-- ros_msg_utils.cpp:217-238 `applyResolutionProfile`.  `profile` is the `std::map<std::string, float>`. -/
def applyProfile (profile : List Byte → Option (BitVec 32)) (fields : List PointField) (default : Option (BitVec 32)) : List PointField :=
  let fields := fields.filter fun f => !(match profile f.name with | some r => isZero32 r | none => false)
  fields.map fun f =>
    match profile f.name with
    | some r => { f with resolution := some r }
    | none =>
      match default with
      | some r => if f.type = .float32 then { f with resolution := some r } else f
      | none => f

/-! ### visualisation preprocessing -/

/-- `std::isfinite(float)`. -/
def isFinite32 (x : BitVec 32) : Bool := x.toNat % 2 ^ 31 < 0x7F800000

/-- `a == b` for `float`s. -/
def feq32 (a b : BitVec 32) : Bool := !isNaN32 a && !isNaN32 b && (a == b || (isZero32 a && isZero32 b))

/-- ros_msg_utils.cpp:42-49 `packVoxelKey21`. -/
def packVoxelKey (qx qy qz : BitVec 32) : BitVec 64 :=
  let bias : BitVec 64 := 1#64 <<< 20
  let mask : BitVec 64 := (1#64 <<< 21) - 1#64
  let ux := (qx.signExtend 64 + bias) &&& mask
  let uy := (qy.signExtend 64 + bias) &&& mask
  let uz := (qz.signExtend 64 + bias) &&& mask
  ux ||| (uy <<< 21) ||| (uz <<< 42)

/-- ros_msg_utils.cpp:254-272: the geometry triple, if any: the first three fields and their resolution. -/
def geometry (fields : List PointField) : Option (BitVec 32 × BitVec 32) :=
  match fields with
  | f0 :: f1 :: f2 :: _ =>
    match f0.resolution, f1.resolution, f2.resolution with
    | some r0, some r1, some r2 =>
      if f0.type = .float32 ∧ f1.type = .float32 ∧ f2.type = .float32 ∧ feq32 r0 r1 ∧ feq32 r0 r2 ∧ f1.offset = f0.offset + 4#32 ∧
          f2.offset = f0.offset + 8#32 ∧ resPositive r0 ∧ isFinite32 r0 then some (f0.offset, r0)
      else none
    | _, _, _ => none
  | _ => none

/-- ros_msg_utils.cpp:301-327: the loop over the points.  `voxel r x` is `static_cast<int32_t>(std::lround(x * (1.0f / r)))`, `o k` the
offset of coordinate `k`, `i` the index of the next of the `n` points, `seen` the keys so far, `out` the bytes so far. -/
def vizLoop (voxel : BitVec 32 → BitVec 32 → BitVec 32) (r : BitVec 32) (step ox oy oz : Nat) (data : List Byte) :
    (n i : Nat) → (seen : List (BitVec 64)) → (out : List Byte) → (kept : Nat) → Res (List Byte × Nat)
  | 0, _, _, out, kept => .ok (out, kept)
  | n + 1, i, seen, out, kept => do
    let bx ← readAt data (i * step + ox) 4
    let by' ← readAt data (i * step + oy) 4
    let bz ← readAt data (i * step + oz) 4
    let fx := BitVec.ofNat 32 (fromLE bx)
    let fy := BitVec.ofNat 32 (fromLE by')
    let fz := BitVec.ofNat 32 (fromLE bz)
    if !isFinite32 fx || !isFinite32 fy || !isFinite32 fz then vizLoop voxel r step ox oy oz data n (i + 1) seen out kept
    else
      let key := packVoxelKey (voxel r fx) (voxel r fy) (voxel r fz)
      if key ∈ seen then vizLoop voxel r step ox oy oz data n (i + 1) seen out kept
      else do
        let p ← readAt data (i * step) step
        vizLoop voxel r step ox oy oz data n (i + 1) (key :: seen) (out ++ p) (kept + 1)

/-- ros_msg_utils.cpp:336-340: `1e-6f` for the FLOAT64 fields without resolution. -/
def quantise64 (fields : List PointField) : List PointField :=
  fields.map fun f => if f.type = .float64 ∧ f.resolution = none then { f with resolution := some 0x358637BD#32 } else f

/-- ros_msg_utils.cpp:249-341 `applyVizLossyPreprocessing`. -/
def applyViz (voxel : BitVec 32 → BitVec 32 → BitVec 32) (pc : Pc2) : Res Pc2 :=
  if pc.fields.length < 3 ∨ pc.point_step = 0#32 then .ok pc
  else
    match geometry pc.fields with
    | none => .ok pc
    | some (o, r) =>
      if pc.data.length / pc.point_step.toNat = 0 then .ok pc
      else do
        let (out, kept) ← vizLoop voxel r pc.point_step.toNat o.toNat (o + 4#32).toNat (o + 8#32).toNat pc.data
          (pc.data.length / pc.point_step.toNat) 0 [] [] 0
        .ok { pc with data := out, width := BitVec.ofNat 32 kept, height := 1#32, row_step := pc.point_step * BitVec.ofNat 32 kept,
                      fields := quantise64 pc.fields }

end Cloudini.Ros
