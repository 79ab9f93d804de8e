import Verif.Spec.Float
import Verif.Spec.Cloud

/-!
# Clouds of numbers

What it means for a cloud to be in range, in terms of the numbers its floats denote (Verif.Spec.Float) and not of what the
codec does with them.
-/

namespace Cloudini.Props

/-- The bytes of a field as a `float` / `double`. -/
def asFloat (bs : List Byte) : BitVec 32 := BitVec.ofNat 32 (fromLE bs)
def asDouble (bs : List Byte) : BitVec 64 := BitVec.ofNat 64 (fromLE bs)

/-- A well-formed cloud description (as `ValidInfo`) with sensible resolutions. -/
structure SensibleInfo (info : EncodingInfo) : Prop where
  step : 0 < info.point_step.toNat
  version : 3 ≤ info.version.toNat
  option : info.encoding_opt = .none ∨ info.encoding_opt = .lossy ∨ info.encoding_opt = .lossless
  types : ∀ f ∈ info.fields, f.type ∈ [.int8, .uint8, .int16, .uint16, .int32, .uint32, .float32, .float64, .int64, .uint64]
  inside : ∀ f ∈ info.fields, f.offset.toNat + sizeOf f.type ≤ info.point_step.toNat
  disjoint : info.fields.Pairwise Disjoint
  resolution : ∀ f ∈ info.fields, ∀ r, f.resolution = some r → GoodRes r

/-- A float value is NaN, or finite, not within a factor 4 of the overflow threshold, and at most `steps` resolution steps. -/
def Within32 (steps : ℚ) (r x : BitVec 32) : Prop :=
  isNaN32 x = true ∨ (Finite32 x ∧ |real32 x| ≤ 2 ^ (126 : Int) ∧ |real32 x| ≤ steps * real32 r)
def Within64 (steps : ℚ) (r : BitVec 32) (x : BitVec 64) : Prop :=
  isNaN64 x = true ∨ (Finite64 x ∧ |real64 x| ≤ steps * real32 r)

/-- Field number `k` with bytes `bs` is within the limits: `vec` steps for the leading group, `one` for other lossy FLOAT32
fields, `dbl` for lossy FLOAT64 fields; 64-bit integers below 2^62 in magnitude. -/
def WithinSteps (vec one dbl : ℚ) (info : EncodingInfo) (k : Nat) (f : PointField) (bs : List Byte) : Prop :=
  (f.type = .int64 ∨ f.type = .uint64 → Fits62 (asDouble bs)) ∧
  (info.encoding_opt = .lossy → ∀ r, f.resolution = some r →
    (f.type = .float32 → Within32 (if k < groupSize info then vec else one) r (asFloat bs)) ∧
    (f.type = .float64 → Within64 dbl r (asDouble bs)))

/-- A cloud of the declared size within the limits. -/
structure CloudWithin (vec one dbl : ℚ) (info : EncodingInfo) (cloud : List Byte) : Prop where
  size : cloud.length = info.width.toNat * info.height.toNat * info.point_step.toNat
  addressable : cloud.length < 2 ^ 64
  range : ∀ i, i < info.width.toNat * info.height.toNat → ∀ k f, info.fields[k]? = some f →
    WithinSteps vec one dbl info k f (cell cloud 0 info.point_step.toNat i f.offset.toNat (sizeOf f.type))

instance (s : ℚ) (r x : BitVec 32) : Decidable (Within32 s r x) := by unfold Within32; infer_instance
instance (s : ℚ) (r : BitVec 32) (x : BitVec 64) : Decidable (Within64 s r x) := by unfold Within64; infer_instance

end Cloudini.Props
