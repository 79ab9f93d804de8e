import Verif.Model.Ros

/-!
# What resolution profiles and the visualisation filter should do
-/

namespace Cloudini.Ros

/-- The fields a profile makes of a list of fields, one field after the other. -/
inductive Profiled (profile : List Byte → Option (BitVec 32)) (default : Option (BitVec 32)) : List PointField → List PointField → Prop
  | nil : Profiled profile default [] []
  /-- named with +0 or -0: removed -/
  | removed (f : PointField) (r : BitVec 32) (fs out : List PointField) : profile f.name = some r → r = 0#32 ∨ r = 0x80000000#32 →
      Profiled profile default fs out → Profiled profile default (f :: fs) out
  /-- named otherwise: takes the resolution -/
  | named (f : PointField) (r : BitVec 32) (fs out : List PointField) : profile f.name = some r → r ≠ 0#32 → r ≠ 0x80000000#32 →
      Profiled profile default fs out → Profiled profile default (f :: fs) (⟨f.name, f.offset, f.type, some r⟩ :: out)
  /-- a FLOAT32 field that is not named takes the default -/
  | defaulted (f : PointField) (r : BitVec 32) (fs out : List PointField) : profile f.name = none → f.type = .float32 → default = some r →
      Profiled profile default fs out → Profiled profile default (f :: fs) (⟨f.name, f.offset, f.type, some r⟩ :: out)
  /-- anything else stays -/
  | kept (f : PointField) (fs out : List PointField) : profile f.name = none → f.type ≠ .float32 ∨ default = none →
      Profiled profile default fs out → Profiled profile default (f :: fs) (f :: out)

/-- The bit pattern of coordinate `k` (0, 1, 2) of point `i`, the three coordinates being adjacent floats at offset `off`. -/
def coord (data : List Byte) (step off i k : Nat) : BitVec 32 := BitVec.ofNat 32 (fromLE ((data.drop (i * step + off + 4 * k)).take 4))

/-- Neither infinite nor NaN: the exponent is not all ones. -/
def Finite32 (x : BitVec 32) : Prop := x.toNat / 2 ^ 23 % 2 ^ 8 ≠ 255

/-- All three coordinates of point `i` are finite. -/
def FinitePoint (data : List Byte) (step off i : Nat) : Prop := ∀ k < 3, Finite32 (coord data step off i k)

/-- The voxel of a point: its quantised coordinates. -/
def voxelOf (voxel : BitVec 32 → BitVec 32) (data : List Byte) (step off i : Nat) : BitVec 32 × BitVec 32 × BitVec 32 :=
  (voxel (coord data step off i 0), voxel (coord data step off i 1), voxel (coord data step off i 2))

/-- The bytes of point `i`. -/
def pointBytes (data : List Byte) (step i : Nat) : List Byte := (data.drop (i * step)).take step

/-- The coordinate is in the range a 21-bit key field represents. -/
def KeyRange (q : BitVec 32) : Prop := -2 ^ 20 ≤ q.toInt ∧ q.toInt < 2 ^ 20

end Cloudini.Ros
