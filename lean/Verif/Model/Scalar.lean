import Verif.Model.IEEE
import Verif.Model.Cloud
import Verif.Lemmas.FieldCodec

/-!
# The build without SSE4.1 (ARM, WebAssembly)

intrinsics.hpp:26-35 selects plain C++ loops when the compiler has no SSE.  The only operations of the encoder that then mean
something else are the two of field_encoder.cpp:50-51: the conversion to `int32_t` (intrinsics.hpp:292-297) and the subtraction
(intrinsics.hpp:231-235).  The decoder (field_decoder.cpp:56-86) uses no vector operation at all.  `-ffp-contract` has nothing to
contract: no product is added to anything.
-/

namespace Cloudini.Scalar
open IEEE

/-- intrinsics.hpp:292-297 one lane of `static_cast<int32_t>(std::round(p))`: undefined unless the rounded number is an
`int32_t`. -/
def toI32 (p : Nat) : Option (BitVec 32) :=
  if b32.isFin p ∧ -2 ^ 31 ≤ roundAway (b32.val p) ∧ roundAway (b32.val p) < 2 ^ 31
  then some (BitVec.ofInt 32 (roundAway (b32.val p))) else none

/-- field_encoder.cpp:49-50 one lane. -/
def quant (r x : BitVec 32) : Option (BitVec 32) := toI32 (b32.mul x.toNat (multV r))

/-- The float arithmetic of the library without SSE; where the conversion is undefined the value is of no consequence
(`encodeView` below then yields no result). -/
def ops : FloatOps := { IEEE.ops with quantV := fun r x => (quant r x).getD 0#32 }

/-- A `float` of the cloud: field_encoder.cpp:43-47. -/
def floatAt (cloud : List Byte) (pos : Nat) : BitVec 32 := f32At cloud pos

/-- The group quantised together: codec_common.cpp:84-98. -/
def group (info : EncodingInfo) : List PointField := info.fields.take (leadingLossyFloatCount info)

/-- field_encoder.cpp:42-52 at point `i`, one lane in use: the conversion must be defined, and so must the `int32_t` subtraction of
the previous point's number (0 after `reset()` at the beginning of a chunk: v4_codec.cpp:68-70, v5_codec.cpp:908-910). -/
def laneDefined (step : Nat) (cloud : List Byte) (i : Nat) (f : PointField) : Bool :=
  match quant (f.resolution.getD 0#32) (floatAt cloud (i * step + f.offset.toNat)) with
  | none => false
  | some q =>
    if i % kPointsPerChunk = 0 then true
    else match quant (f.resolution.getD 0#32) (floatAt cloud ((i - 1) * step + f.offset.toNat)) with
      | none => false
      | some p => !BitVec.ssubOverflow q p

/-- The lanes not in use (fewer than four): a float at offset 0 times 0 (field_encoder.hpp:334, 338), converted as well. -/
def padDefined (info : EncodingInfo) (cloud : List Byte) (i : Nat) : Bool :=
  if (group info).length < 4 then (toI32 (b32.mul (floatAt cloud (i * info.point_step.toNat)).toNat 0)).isSome else true

/-- No point of the cloud makes field_encoder.cpp:42-52 undefined. -/
def cloudDefined (info : EncodingInfo) (cloud : List Byte) : Bool :=
  (group info).isEmpty || (List.range (cloud.length / info.point_step.toNat)).all fun i =>
    padDefined info cloud i && (group info).all (laneDefined info.point_step.toNat cloud i)

/-- cloudini.cpp:522-623 in a build without SSE4.1.  Simplification: a call that throws is taken to throw even if an earlier chunk
was undefined (all tests of the arguments come before the first point, so this concerns errors of the compressor only). -/
def encodeView (C : Compressor) (enc : Encoder) (cloud : List Byte) (room : Nat) (writeHeader : Bool) :
    Res (Encoder × List Byte × Nat) :=
  match Cloudini.encodeView ops C enc cloud room writeHeader with
  | .ok r => if cloudDefined enc.info cloud then .ok r else .ub .conv
  | e => e

end Cloudini.Scalar
