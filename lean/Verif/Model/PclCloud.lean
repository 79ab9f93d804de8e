import Verif.Model.Header
import Verif.Model.Pcd
import Verif.Model.Pcl
import Verif.Model.IEEE

/-!
# Encoding and decoding `pcl::PCLPointCloud2` (`pcl_conversion.cpp`)

The sequential encoder stands for the threaded one (C32).  `pcl::io::loadPCDFile` is outside the model: the file variant takes the cloud it
loaded.  The `header` member (stamp, frame id) is neither read nor written by the code and is left out.
-/

namespace Cloudini.Pcd

/-- `pcl::PCLPointCloud2`. -/
structure PclCloud where
  height : BitVec 32
  width : BitVec 32
  fields : List PclField
  bigendian : Byte
  point_step : BitVec 32
  row_step : BitVec 32
  data : List Byte
  dense : Byte

/-- pcl_conversion.cpp:170-171: `resolution_XYZ > 0.0` for a `double`, and its conversion to `float`. -/
def resolution32 (r : BitVec 64) : Option (BitVec 32) :=
  if 0 < r.toNat ∧ r.toNat ≤ 0x7FF0000000000000 then some (BitVec.ofNat 32 (IEEE.narrow r.toNat)) else none

/-- pcl_conversion.cpp:124-178 `ConvertToEncodingInfo(const pcl::PCLPointCloud2&, double)`. -/
def convert (c : PclCloud) (res : BitVec 64) : EncodingInfo := toInfo c.width c.height c.point_step c.fields (resolution32 res)

/-- pcl_conversion.cpp:211-214 and 236-238: a new encoder for `info`, `encode` into the vector. -/
def encodeData (T : FloatText) (F : FloatOps) (C : Compressor) (info : EncodingInfo) (data : List Byte) : Res (List Byte) := do
  let enc ← mkEncoder F info (encodeHeaderYaml T info)
  let (_, out, _) ← encodeVector F C enc (headerEstimate T info) data
  .ok out

/-- pcl_conversion.cpp:207-215 `PCLPointCloudEncode(cloud, serialized_cloud, resolution_XYZ)`: the vector. -/
def pclEncode (T : FloatText) (F : FloatOps) (C : Compressor) (c : PclCloud) (res : BitVec 64) : Res (List Byte) :=
  encodeData T F C (convert c res) c.data

/-- pcl_conversion.cpp:217-239 `PCLPointCloudEncode(input_pcd_file, ...)`: `c` is the cloud PCL loaded, `text` the text of the file. -/
def pclEncodeFile (T : FloatText) (F : FloatOps) (C : Compressor) (fuel : Nat) (c : PclCloud) (text : List Byte) (res : BitVec 64) : Res (List Byte) := do
  let m ← readPcd fuel text
  let fs ← fixTypes m (convert c res).fields
  encodeData T F C { convert c res with fields := fs } c.data

/-- pcl_conversion.cpp:241-272 `PCLPointCloudDecode(serialized_data, cloud)`; `cloud.data` held `old` before (`resize` keeps a prefix of it
and fills with zeros).  The product is computed in 32 bits. -/
def pclCloudDecode (T : FloatText) (F : FloatOps) (C : Compressor) (fuel : Nat) (bytes old : List Byte) : Res PclCloud := do
  let (info, payload) ← decodeHeader T bytes
  let size := (info.width * info.height * info.point_step).toNat
  let data ← decodeCloud F C fuel info payload (old.take size ++ List.replicate (size - old.length) 0#8)
  .ok { height := info.height, width := info.width, fields := fromInfo info.fields, bigendian := 0#8, point_step := info.point_step,
        row_step := info.width * info.point_step, data := data, dense := 1#8 }

/-- pcl_conversion.cpp:180-205 `ConvertToEncodingInfo<PointXYZ>` and `<PointXYZI>`: the resolution is used whatever its sign, and never for the
intensity. `step` is `sizeof(PointT)`. -/
def pointXYZ (w h step : BitVec 32) (intensity : Option (BitVec 32)) (res : BitVec 64) : EncodingInfo :=
  let r : Option (BitVec 32) := some (BitVec.ofNat 32 (IEEE.narrow res.toNat))
  { width := w, height := h, point_step := step,
    fields := [⟨ascii "x", 0#32, .float32, r⟩, ⟨ascii "y", 4#32, .float32, r⟩, ⟨ascii "z", 8#32, .float32, r⟩] ++
      (match intensity with
        | some o => [⟨ascii "intensity", o, .float32, none⟩]
        | none => []) }

/-- The point types the library converts: `pcl::PointXYZ` and `pcl::PointXYZI`. -/
inductive PointT where
  | xyz
  | xyzi

/-- `sizeof(PointT)` (PCL's `point_types.hpp`: both types are made of 16-byte unions). -/
def PointT.step : PointT → BitVec 32
  | .xyz => 16#32
  | .xyzi => 32#32

/-- pcl_conversion.cpp:200-201: where `intensity` is, if there is one. -/
def PointT.intensity : PointT → Option (BitVec 32)
  | .xyz => none
  | .xyzi => some 16#32

/-- `pcl::PointCloud<PointT>`: the members the code uses; `points` is the memory of the vector. -/
structure PointCloud where
  width : BitVec 32
  height : BitVec 32
  points : List Byte

/-- pcl_conversion.hpp:108-124 `PointcloudEncode<PointT>`: the vector.  The `resize` before `encode` has no effect on it. -/
def pointcloudEncode (T : FloatText) (F : FloatOps) (C : Compressor) (t : PointT) (c : PointCloud) (res : BitVec 64) : Res (List Byte) :=
  encodeData T F C (pointXYZ c.width c.height t.step t.intensity res) c.points

/-- `cloud.points.resize(n)`: a new point has the bytes `fresh`. -/
def resizePoints (old fresh : List Byte) (n : Nat) : List Byte :=
  old.take (n * fresh.length) ++ (List.replicate (n - old.length / fresh.length) fresh).flatten

/-- pcl_conversion.hpp:126-162 `PointcloudDecode<PointT>` into the cloud `old`; `fresh` is a default-constructed point.  The number of points is a
32-bit product.  `0x3FF0000000000000` is 1.0. -/
def pointcloudDecode (T : FloatText) (F : FloatOps) (C : Compressor) (fuel : Nat) (t : PointT) (fresh bytes : List Byte) (old : PointCloud) :
    Res PointCloud := do
  let (info, payload) ← decodeHeader T bytes
  let points := resizePoints old.points fresh (info.width * info.height).toNat
  let target := pointXYZ info.width info.height t.step t.intensity 0x3FF0000000000000#64
  let points ← pclDecode F C fuel target.fields info payload points
  .ok ⟨info.width, info.height, points⟩

end Cloudini.Pcd
