import Verif.Spec.Cloud

/-!
# Specification vocabulary for fields that share bytes

`PointCloud2` and PCL descriptions may name the same bytes twice (`rgb` and `rgba`, a union): nothing in the code forbids it.
-/

namespace Cloudini.Props

/-- The field is coded without loss: everything but a floating point field with a resolution in a LOSSY cloud. -/
def Exact (info : EncodingInfo) (f : PointField) : Prop :=
  info.encoding_opt = .lossy → f.type = .float32 ∨ f.type = .float64 → f.resolution = none

instance (info : EncodingInfo) (f : PointField) : Decidable (Exact info f) := by unfold Exact; infer_instance

/-- Two fields share no byte, or both are coded without loss. -/
def MayShare (info : EncodingInfo) (f g : PointField) : Prop := Disjoint f g ∨ (Exact info f ∧ Exact info g)

instance (info : EncodingInfo) (f g : PointField) : Decidable (MayShare info f g) := by
  unfold MayShare Disjoint; infer_instance

/-- A well-formed description (`ValidInfo`) in which fields may share bytes as long as they are coded without loss. -/
structure SharedInfo (F : FloatOps) (info : EncodingInfo) : Prop where
  step : 0 < info.point_step.toNat
  version : 3 ≤ info.version.toNat
  option : info.encoding_opt = .none ∨ info.encoding_opt = .lossy ∨ info.encoding_opt = .lossless
  types : ∀ f ∈ info.fields, f.type ∈ [.int8, .uint8, .int16, .uint16, .int32, .uint32, .float32, .float64, .int64, .uint64]
  inside : ∀ f ∈ info.fields, f.offset.toNat + sizeOf f.type ≤ info.point_step.toNat
  sharing : info.fields.Pairwise (MayShare info)
  resolution : info.encoding_opt = .lossy → ∀ f ∈ info.fields, ∀ r, f.resolution = some r →
    F.resNonPos r = false ∧ F.invNonPos r = false

end Cloudini.Props
