import Verif.Spec.Cloud
import Verif.Spec.Header

/-!
# Specification vocabulary for whole files (header and payload)
-/

namespace Cloudini.Props

/-- The description and the cloud are ones for which a file holds everything: `ValidInfo`, `ValidCloud`, and a description the YAML header can
hold (names and configuration are plain text, the resolutions survive being printed and read). -/
structure FileOk (T : FloatText) (F : FloatOps) (info : EncodingInfo) (cloud : List Byte) : Prop where
  valid : ValidInfo F info
  data : ValidCloud F info cloud
  count : FieldLimit info
  version : info.version.toNat ≤ 5
  comp : info.compression_opt = .none ∨ info.compression_opt = .lz4 ∨ info.compression_opt = .zstd
  config : info.encoding_config = [] ∨ HeaderText info.encoding_config
  names : ∀ f ∈ info.fields, HeaderText f.name
  resolutions : ∀ f ∈ info.fields, ∀ r, f.resolution = some r → T.parse (T.print r) = .ok r
  lz4 : info.compression_opt = .lz4 → cloud.length ≤ intMax

/-- What a decoded cloud must look like: `expected` in every field of every point. -/
def Decoded (F : FloatOps) (info : EncodingInfo) (cloud buf : List Byte) : Prop :=
  ∀ i, i < info.width.toNat * info.height.toNat → ∀ k f, info.fields[k]? = some f →
    cell buf 0 info.point_step.toNat i f.offset.toNat (sizeOf f.type) =
      expected F info k f (cell cloud 0 info.point_step.toNat i f.offset.toNat (sizeOf f.type))

end Cloudini.Props
