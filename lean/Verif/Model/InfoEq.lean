import Verif.Model.Ros

/-!
# Comparison of infos
-/

namespace Cloudini

/-- `std::optional<float>::operator==`: both empty, or both present and equal as floats. -/
def eqRes : Option (BitVec 32) → Option (BitVec 32) → Bool
  | none, none => true
  | some a, some b => Ros.feq32 a b
  | _, _ => false

/-- basic_types.hpp:62-64 `PointField::operator==`. -/
def eqField (a b : PointField) : Bool := a.name == b.name && a.offset == b.offset && a.type == b.type && eqRes a.resolution b.resolution

/-- cloudini.hpp:95-99: the loop over the fields (the sizes are equal). -/
def eqFields : List PointField → List PointField → Bool
  | a :: as, b :: bs => if !eqField a b then false else eqFields as bs
  | _, _ => true

/-- cloudini.hpp:91-105 `EncodingInfo::operator==`. -/
def eqInfo (a b : EncodingInfo) : Bool :=
  if a.fields.length ≠ b.fields.length then false
  else if !eqFields a.fields b.fields then false
  else a.width == b.width && a.height == b.height && a.point_step == b.point_step && a.encoding_opt == b.encoding_opt && a.compression_opt == b.compression_opt

/-- pcl_conversion.cpp:114-119: the loop of `isSameEncodingInfo`. -/
def samePclFields : List PointField → List PointField → Bool
  | a :: as, b :: bs => if a.name != b.name || a.offset != b.offset || a.type != b.type then false else samePclFields as bs
  | _, _ => true

/-- pcl_conversion.cpp:109-125 `isSameEncodingInfo`. -/
def isSameEncodingInfo (a b : EncodingInfo) : Bool :=
  if a.fields.length ≠ b.fields.length then false
  else if !samePclFields a.fields b.fields then false
  else a.width == b.width && a.height == b.height && a.point_step == b.point_step

end Cloudini
