import Verif.Spec.Cloud

/-!
# Specification vocabulary for columns of a simple shape

A column is the sequence of numbers one integer field holds over the points of a cloud.
-/

namespace Cloudini.Props

/-- The number in the little-endian bytes `bs` of a `size`-byte integer, two's complement if `signed`. -/
def numberIn (signed : Bool) (size : Nat) (bs : List Byte) : Int :=
  if signed then (BitVec.ofNat (8 * size) (fromLE bs)).toInt else (fromLE bs : Int)

/-- The number a field holds in point `i`. -/
def numberAt (cloud : List Byte) (step off size : Nat) (signed : Bool) (i : Nat) : Int :=
  numberIn signed size (cell cloud 0 step i off size)

/-- All `n` points hold the same number. -/
def ConstantColumn (cloud : List Byte) (step off size : Nat) (signed : Bool) (n : Nat) : Prop :=
  ∀ i, i < n → numberAt cloud step off size signed i = numberAt cloud step off size signed 0

/-- From point to point the number changes by the same amount. -/
def EvenColumn (cloud : List Byte) (step off size : Nat) (signed : Bool) (n : Nat) : Prop :=
  ∀ i, i < n - 2 → numberAt cloud step off size signed (i + 2) - numberAt cloud step off size signed (i + 1) =
    numberAt cloud step off size signed (i + 1) - numberAt cloud step off size signed i

instance (cloud : List Byte) (step off size : Nat) (signed : Bool) (n : Nat) : Decidable (ConstantColumn cloud step off size signed n) := by
  unfold ConstantColumn; infer_instance
instance (cloud : List Byte) (step off size : Nat) (signed : Bool) (n : Nat) : Decidable (EvenColumn cloud step off size signed n) := by
  unfold EvenColumn; infer_instance

/-- The bytes a column of wide integers may take in each chunk, whatever the number of points in the chunk. -/
def fixedCost (cloud : List Byte) (step off size : Nat) (signed : Bool) (n : Nat) : Nat :=
  if ConstantColumn cloud step off size signed n then 3 + size else if EvenColumn cloud step off size signed n then 29 else 5

/-- The bytes a column of wide integers may take for each point. -/
def pointCost (cloud : List Byte) (step off size : Nat) (signed : Bool) (n : Nat) : Nat :=
  if ConstantColumn cloud step off size signed n then 0 else if EvenColumn cloud step off size signed n then 0 else 11

/-- Integers of 16 to 64 bits. -/
def wide (f : PointField) : Bool := f.type ∈ [.int16, .uint16, .int32, .uint32, .int64, .uint64]

/-- Is the integer type signed? -/
def signedInt (f : PointField) : Bool := f.type ∈ [.int16, .int32, .int64]

/-- The most bytes a field that is not a wide integer takes per point in a lossy cloud. -/
def narrowCost (f : PointField) : Nat :=
  match f.type with
  | .int8 | .uint8 => 1
  | .float32 => if f.resolution.isSome then 10 else 7
  | .float64 => if f.resolution.isSome then 10 else 11
  | _ => 0

/-- What a field may cost per chunk in a cloud of `n` points. -/
def perChunk (info : EncodingInfo) (cloud : List Byte) (n : Nat) (f : PointField) : Nat :=
  if wide f then fixedCost cloud info.point_step.toNat f.offset.toNat (sizeOf f.type) (signedInt f) n else 0

/-- What a field may cost per point in a cloud of `n` points. -/
def perPoint (info : EncodingInfo) (cloud : List Byte) (n : Nat) (f : PointField) : Nat :=
  if wide f then pointCost cloud info.point_step.toNat f.offset.toNat (sizeOf f.type) (signedInt f) n else narrowCost f

end Cloudini.Props
