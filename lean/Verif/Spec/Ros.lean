import Verif.Model.Ros
import Verif.Spec.Cdr

/-!
# The two ROS messages

`sensor_msgs/msg/PointCloud2` and `point_cloud_interfaces/msg/CompressedPointCloud2`, in the vocabulary of CDR types.
-/

namespace Cloudini.Ros

open Cloudini.Cdr (Ty)

/-- `sensor_msgs/msg/PointField`: name, offset, datatype, count. -/
def fieldTy : Ty := .pair .str (.pair .u32 (.pair .u8 .u32))
/-- The field as this library writes it: the count is always 1. -/
def fieldVal (f : PointField) : fieldTy.Val := ((f.name : List Byte), (f.offset : BitVec 32), (f.type.code : BitVec 8), (1#32 : BitVec 32))

/-- The members both messages start with: stamp (seconds, nanoseconds), frame id, height, width, fields, is_bigendian, point_step, row_step. -/
def headTy : Ty := .pair .u32 (.pair .u32 (.pair .str (.pair .u32 (.pair .u32 (.pair (.vec fieldTy) (.pair .u8 (.pair .u32 .u32)))))))
def headVal (pc : Pc2) : headTy.Val :=
  ((pc.sec : BitVec 32), (pc.nsec : BitVec 32), (pc.frame : List Byte), (pc.height : BitVec 32), (pc.width : BitVec 32),
    (pc.fields.map fieldVal : List fieldTy.Val), (0#8 : BitVec 8), (pc.point_step : BitVec 32), (pc.point_step * pc.width : BitVec 32))

/-- `PointCloud2`: then data and is_dense. -/
def pcTy : Ty := .pair headTy (.pair .buf .u8)
def pcVal (pc : Pc2) (data : List Byte) : pcTy.Val := (headVal pc, (data : List Byte), (pc.dense : BitVec 8))

/-- `CompressedPointCloud2`: then compressed_data, is_dense and format. -/
def compressedTy : Ty := .pair headTy (.pair .buf (.pair .u8 .str))
def compressedVal (pc : Pc2) (data : List Byte) : compressedTy.Val := (headVal pc, (data : List Byte), (pc.dense : BitVec 8), (formatText : List Byte))

/-- Lengths of a message that fit its length fields. -/
structure FitsPc (pc : Pc2) : Prop where
  frame : pc.frame.length + 1 < 2 ^ 32
  fields : pc.fields.length < 2 ^ 32
  names : ∀ f ∈ pc.fields, f.name.length + 1 < 2 ^ 32

/-- The same message apart from the data (and row_step, which the library always writes as point_step times width). -/
structure SameMeta (a b : Pc2) : Prop where
  sec : a.sec = b.sec
  nsec : a.nsec = b.nsec
  frame : a.frame = b.frame
  height : a.height = b.height
  width : a.width = b.width
  fields : a.fields = b.fields
  point_step : a.point_step = b.point_step
  dense : a.dense = b.dense
  order : a.cdr.big = b.cdr.big

end Cloudini.Ros
