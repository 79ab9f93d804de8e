import Verif.Model.Ros
import Verif.Model.IEEE
import Verif.Model.PclCloud

/-!
# The ROS 2 package: transport plugins, conversion helpers, topic converter (`cloudini_ros/src`)

ROS itself (parameters, topics, allocation) is outside the model: a callback or plugin function is a function of the message it is given.  The sequential
encoder stands for the threaded one (C32).
-/

namespace Cloudini.Plugin

/-- `sensor_msgs/msg/PointField`. -/
structure Field where
  name : List Byte
  offset : BitVec 32
  datatype : Byte
  count : BitVec 32
  deriving DecidableEq, Repr

/-- `std_msgs/msg/Header`. -/
structure Header where
  sec : BitVec 32
  nanosec : BitVec 32
  frame : List Byte
  deriving DecidableEq, Repr

/-- `sensor_msgs/msg/PointCloud2`. -/
structure Msg where
  header : Header
  height : BitVec 32
  width : BitVec 32
  fields : List Field
  bigendian : Bool
  point_step : BitVec 32
  row_step : BitVec 32
  data : List Byte
  dense : Bool
  deriving DecidableEq, Repr

/-- `point_cloud_interfaces/msg/CompressedPointCloud2`. -/
structure Compressed where
  header : Header
  height : BitVec 32
  width : BitVec 32
  fields : List Field
  bigendian : Bool
  point_step : BitVec 32
  row_step : BitVec 32
  data : List Byte
  dense : Bool
  format : List Byte
  deriving DecidableEq, Repr

/-- conversion_utils.cpp:26-43 `ConvertToEncodingInfo`. -/
def toInfo (m : Msg) (res : BitVec 32) : EncodingInfo :=
  { width := m.width, height := m.height, point_step := m.point_step, encoding_opt := .lossy, compression_opt := .zstd,
    fields := m.fields.map fun f => { name := f.name, offset := f.offset, type := FieldType.ofCode f.datatype,
                                      resolution := if FieldType.ofCode f.datatype = .float32 then some res else none } }

/-- conversion_utils.cpp:45-52 `ReadEncodingInfo`. -/
def readInfo (T : FloatText) (m : Compressed) : Res EncodingInfo :=
  if m.format ≠ ascii "cloudini" then .throw "Invalid format. Expected 'cloudini'"
  else do
    let (info, _) ← decodeHeader T m.data
    .ok info

/-- conversion_utils.cpp:54-75 `ConvertToRosPointCloud2`.  (`is_bigendian` is copied too; nothing reads it.) -/
def toPc2 (m : Msg) : Ros.Pc2 :=
  { sec := m.header.sec, nsec := m.header.nanosec, frame := m.header.frame, height := m.height, width := m.width, point_step := m.point_step,
    row_step := m.row_step, data := m.data, dense := if m.dense then 1#8 else 0#8,
    fields := m.fields.map fun f => { name := f.name, offset := f.offset, type := FieldType.ofCode f.datatype } }

/-- topic_converter.cpp:170-173 and conversion_utils.cpp:80-82: an empty profile, the resolution for the FLOAT32 fields, and the conversion. -/
def compress (T : FloatText) (F : FloatOps) (C : Compressor) (pc : Ros.Pc2) (res : BitVec 32) : Res (List Byte) :=
  let pc := { pc with fields := Ros.applyProfile (fun _ => none) pc.fields (some res) }
  Ros.toCompressed T F C pc (Ros.toEncodingInfo pc)

/-- conversion_utils.cpp:77-83 `SerializeCompressedPointCloud2`. -/
def serialize (T : FloatText) (F : FloatOps) (C : Compressor) (m : Msg) (res : BitVec 32) : Res (List Byte) := compress T F C (toPc2 m) res

/-- `double` to `float`. -/
def narrow (r : BitVec 64) : BitVec 32 := BitVec.ofNat 32 (IEEE.narrow r.toNat)

/-- cloudini_publisher_plugin.cpp:52-79 `CloudiniPublisher::encodeTyped` with the parameter `cloudini_resolution`.  `result.format` keeps its default, the
empty string. -/
def encodeTyped (T : FloatText) (F : FloatOps) (C : Compressor) (res : BitVec 64) (m : Msg) : Res Compressed := do
  let info := toInfo m (narrow res)
  let enc ← mkEncoder F info (encodeHeaderYaml T info)
  let (_, out, n) ← encodeVector F C enc (headerEstimate T info) m.data
  .ok { header := m.header, width := m.width, height := m.height, fields := m.fields, bigendian := false, point_step := m.point_step,
        row_step := m.row_step, dense := m.dense, data := out.take n, format := [] }

/-- cloudini_subscriber_plugin.cpp:46-58: the loop over the fields (of the same number). -/
def checkFields : List Field → List PointField → Res Unit
  | a :: as, b :: bs =>
    if a.name ≠ b.name then .throw "CloudiniSubscriber: wrong field name"
    else if a.offset ≠ b.offset then .throw "CloudiniSubscriber: wrong field offset"
    else if a.datatype ≠ b.type.code then .throw "CloudiniSubscriber: wrong field type"
    else checkFields as bs
  | _, _ => .ok ()

/-- cloudini_subscriber_plugin.cpp:29-81 `CloudiniSubscriber::decodeTyped`.  The size of the data is a product in 32 bits.  The decoder is a member that
is used for one message after another; what it decodes does not depend on that (C20). -/
def decodeTyped (T : FloatText) (F : FloatOps) (C : Compressor) (fuel : Nat) (m : Compressed) : Res Msg := do
  let (info, payload) ← decodeHeader T m.data
  if m.width ≠ info.width ∨ m.height ≠ info.height then .throw "CloudiniSubscriber: wrong point cloud dimensions"
  else if m.point_step ≠ info.point_step then .throw "CloudiniSubscriber: wrong point step"
  else if m.fields.length ≠ info.fields.length then .throw "CloudiniSubscriber: wrong fields count"
  else do
    let _ ← checkFields m.fields info.fields
    let buf ← decodeCloud F C fuel info payload (List.replicate (m.point_step * m.width * m.height).toNat 0#8)
    .ok { header := m.header, height := info.height, width := info.width, fields := m.fields, bigendian := false, point_step := m.point_step,
          row_step := m.row_step, dense := m.dense, data := buf }

/-- topic_converter.cpp:155-178, the part of `CloudiniPointcloudConverter::callback` that makes the output message: with `compressing` and the parameter
`resolution`. -/
def convertTopic (T : FloatText) (F : FloatOps) (C : Compressor) (fuel : Nat) (compressing : Bool) (res : BitVec 64) (raw : List Byte) : Res (List Byte) := do
  let pc ← Ros.getMessage raw
  if compressing then compress T F C pc (narrow res) else Ros.fromCompressed T F C fuel pc

/-- cloudini_subscriber_pcl.cpp:95-119 `CloudiniSubscriberPCL::messageCallback`: what the user's callback is given, `none` if it is not called (the exception is
logged).  A cloud from the pool has no data and no fields (line 85-86); its header, which nothing sets, is left out, as in `PclCloud`. -/
def pclCallback (T : FloatText) (F : FloatOps) (C : Compressor) (fuel : Nat) (raw : List Byte) : Res (Option Pcd.PclCloud) :=
  match (do
    let pc ← Ros.getMessage raw
    Pcd.pclCloudDecode T F C fuel pc.data [] : Res Pcd.PclCloud) with
  | .ok c => .ok (some c)
  | .throw _ => .ok none
  | .ub k => .ub k

end Cloudini.Plugin
