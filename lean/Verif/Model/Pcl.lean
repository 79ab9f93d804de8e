import Verif.Model.Cloud

/-!
# Decoding into a PCL point type (`pcl_conversion.hpp`)
-/

namespace Cloudini

/-- pcl_conversion.hpp:139-155: one encoded field against the fields of the target type. -/
def remapField (target : List PointField) (f : PointField) : Res PointField :=
  match target.find? (fun t => t.name = f.name) with
  | some t =>
    if f.type ≠ t.type then .throw "Field type mismatch for field"
    else .ok { f with offset := t.offset }
  | none => .ok { f with offset := BitVec.ofNat 32 kDecodeButSkipStore }

/-- pcl_conversion.hpp:137-156: the loop over the fields of the header. -/
def remapFields (target : List PointField) : List PointField → Res (List PointField)
  | [] => .ok []
  | f :: fs => do
    let g ← remapField target f
    let gs ← remapFields target fs
    .ok (g :: gs)

/-- pcl_conversion.hpp:126-162 `PointcloudDecode<PointT>` after `DecodeHeader`: `target` are the fields
`ConvertToEncodingInfo<PointT>` reports, `buf` the memory of `cloud.points` after `resize`
(`width * height * sizeof(PointT)` bytes).  Only the field offsets of the header are adapted; `point_step` stays that of
the encoded cloud. -/
def pclDecode (F : FloatOps) (C : Compressor) (fuel : Nat) (target : List PointField) (header : EncodingInfo) (payload buf : List Byte) :
    Res (List Byte) := do
  let fs ← remapFields target header.fields
  decodeCloud F C fuel { header with fields := fs } payload buf

end Cloudini
