import Verif.Model.Base

/-!
# Field types, options and encoding info (`basic_types.hpp`, `cloudini.hpp`)
-/

namespace Cloudini

/-- basic_types.hpp:28-45 `FieldType : uint8_t`.  Values above 10 can be created by the
`static_cast` in `DecodeHeader`; they are `bad`. -/
inductive FieldType where
  | unknown | int8 | uint8 | int16 | uint16 | int32 | uint32 | float32 | float64 | int64 | uint64
  | bad (code : Byte)
  deriving DecidableEq, Repr

/-- cloudini.hpp:33-43 `EncodingOptions : uint8_t`. -/
inductive EncOpt where
  | none | lossy | lossless
  | bad (code : Byte)
  deriving DecidableEq, Repr

/-- cloudini.hpp:46-53 `CompressionOption : uint8_t`. -/
inductive CompOpt where
  | none | lz4 | zstd
  | bad (code : Byte)
  deriving DecidableEq, Repr

/-- basic_types.hpp:73-95 `SizeOf(FieldType)`. -/
def sizeOf : FieldType → Nat
  | .int8 | .uint8 => 1
  | .int16 | .uint16 => 2
  | .int32 | .uint32 => 4
  | .float32 => 4
  | .float64 => 8
  | .int64 => 8
  | .uint64 => 8
  | _ => 0

/-- basic_types.hpp:47-67 `PointField`.  A `float` is its bit pattern, a name its bytes. -/
structure PointField where
  name : List Byte := []
  offset : BitVec 32 := 0
  type : FieldType := .unknown
  resolution : Option (BitVec 32) := Option.none
  deriving DecidableEq, Repr

/-- cloudini.hpp:64-110 `EncodingInfo` (`use_threads` is a separate argument where it matters). -/
structure EncodingInfo where
  fields : List PointField := []
  width : BitVec 32 := 0
  height : BitVec 32 := 1
  point_step : BitVec 32 := 0
  encoding_opt : EncOpt := .lossy
  encoding_config : List Byte := []
  compression_opt : CompOpt := .zstd
  version : Byte := 5
  deriving DecidableEq, Repr

/-- basic_types.hpp:71 `kDecodeButSkipStore`. -/
def kDecodeButSkipStore : Nat := 0xFFFFFFFF

/-- Bit patterns for which `std::isnan(float)` holds: exponent all ones, mantissa non-zero. -/
def isNaN32 (x : BitVec 32) : Bool := 0x7F800000 < x.toNat % 2 ^ 31

/-- Bit patterns for which `std::isnan(double)` holds. -/
def isNaN64 (x : BitVec 64) : Bool := 0x7FF0000000000000 < x.toNat % 2 ^ 63

/-- `std::numeric_limits<float>::quiet_NaN()` on x86-64. -/
def qNaN32 : BitVec 32 := 0x7FC00000#32

/-- `std::numeric_limits<double>::quiet_NaN()` on x86-64. -/
def qNaN64 : BitVec 64 := 0x7FF8000000000000#64

/-- The float arithmetic used by the lossy codecs, on bit patterns.  Stage 1 is parametric in it:
no property of these functions is assumed by the structural theorems.  `Verif.Model.IEEE` gives the
IEEE-754 instance. -/
structure FloatOps where
  /-- field_encoder.hpp:103, field_decoder.hpp:115: `resolution <= 0.0` -/
  resNonPos : BitVec 32 → Bool
  /-- field_encoder.cpp:34-35: `1.0F / resolution <= 0.0` -/
  invNonPos : BitVec 32 → Bool
  /-- field_encoder.hpp:350 for `float`: `static_cast<int64_t>(std::round(x * multiplier_))` with
  `multiplier_ = (float)(1.0 / resolution)`; `none` when the conversion is out of range (undefined) -/
  quant32 : BitVec 32 → BitVec 32 → Option (BitVec 64)
  /-- field_decoder.hpp:346 for `float`: `static_cast<float>(value) * resolution` -/
  dequant32 : BitVec 32 → BitVec 64 → BitVec 32
  /-- the same for `double` (the resolution is a `float` widened to `double`) -/
  quant64 : BitVec 32 → BitVec 64 → Option (BitVec 64)
  dequant64 : BitVec 32 → BitVec 64 → BitVec 64
  /-- field_encoder.cpp:49-50: one lane of `cvtps_epi32(round_ps(x * (1.0F/resolution)))`; total, out of
  range gives INT_MIN -/
  quantV : BitVec 32 → BitVec 32 → BitVec 32
  /-- field_decoder.cpp:66: one lane of `static_cast<float>(v) * resolution` -/
  dequantV : BitVec 32 → BitVec 32 → BitVec 32

end Cloudini
