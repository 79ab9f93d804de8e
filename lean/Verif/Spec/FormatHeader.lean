import Verif.Spec.Format
import Verif.Spec.Header

/-!
# The format of headers

Written down on its own, like `Spec/Format`: every code and every word spelled out.
-/

namespace Cloudini.Format

/-- A line of text, and its end. -/
def line (words : List (List Byte)) : List Byte := words.flatten ++ [10#8]

/-- A number in decimal digits. -/
def digits (n : Nat) : List Byte :=
  if n < 10 then [BitVec.ofNat 8 (48 + n)] else digits (n / 10) ++ [BitVec.ofNat 8 (48 + n % 10)]

/-- The words for types and options, in the order of their codes. -/
def typeWords : List String := ["UNKNOWN", "INT8", "UINT8", "INT16", "UINT16", "INT32", "UINT32", "FLOAT32", "FLOAT64", "INT64", "UINT64"]
def encodingWords : List String := ["NONE", "LOSSY", "LOSSLESS"]
def compressionWords : List String := ["NONE", "LZ4", "ZSTD"]

def typeNumber : FieldType → Nat
  | .unknown => 0 | .int8 => 1 | .uint8 => 2 | .int16 => 3 | .uint16 => 4 | .int32 => 5 | .uint32 => 6 | .float32 => 7 | .float64 => 8
  | .int64 => 9 | .uint64 => 10 | .bad c => c.toNat
def encodingNumber : EncOpt → Nat
  | .none => 0 | .lossy => 1 | .lossless => 2 | .bad c => c.toNat
def compressionNumber : CompOpt → Nat
  | .none => 0 | .lz4 => 1 | .zstd => 2 | .bad c => c.toNat

/-- The word with that number. -/
def word (words : List String) (k : Nat) : List Byte := ascii (words[k]?.getD "UNKNOWN")

/-- "CLOUDINI_V" and the version in two characters. -/
def signature (version : Byte) : List Byte :=
  [0x43#8, 0x4C#8, 0x4F#8, 0x55#8, 0x44#8, 0x49#8, 0x4E#8, 0x49#8, 0x5F#8, 0x56#8,
    BitVec.ofNat 8 (48 + version.toNat / 10), BitVec.ofNat 8 (48 + version.toNat % 10)]

/-- One field in a binary header; the bits of -1.0 stand for "no resolution". -/
def binaryField (f : PointField) : List Byte :=
  le 2 f.name.length ++ f.name ++ le 4 f.offset.toNat ++ [BitVec.ofNat 8 (typeNumber f.type)] ++ le 4 ((f.resolution.map BitVec.toNat).getD 0xBF800000)

/-- A binary header. -/
def binaryHeader (info : EncodingInfo) : List Byte :=
  signature info.version ++ le 4 info.width.toNat ++ le 4 info.height.toNat ++ le 4 info.point_step.toNat ++
    [BitVec.ofNat 8 (encodingNumber info.encoding_opt), BitVec.ofNat 8 (compressionNumber info.compression_opt)] ++
    le 2 info.fields.length ++ info.fields.flatMap binaryField

/-- One field in a text header. -/
def textField (T : FloatText) (f : PointField) : List Byte :=
  line [ascii "  - name: ", f.name] ++ line [ascii "    offset: ", digits f.offset.toNat] ++
    line [ascii "    type: ", word typeWords (typeNumber f.type)] ++
    line [ascii "    resolution: ", (f.resolution.map T.print).getD (ascii "null")]

/-- A text header. -/
def textHeader (T : FloatText) (info : EncodingInfo) : List Byte :=
  line [signature info.version] ++ line [ascii "version: ", digits info.version.toNat] ++ line [ascii "width: ", digits info.width.toNat] ++
    line [ascii "height: ", digits info.height.toNat] ++ line [ascii "point_step: ", digits info.point_step.toNat] ++
    line [ascii "encoding_opt: ", word encodingWords (encodingNumber info.encoding_opt)] ++
    line [ascii "compression_opt: ", word compressionWords (compressionNumber info.compression_opt)] ++
    (if info.encoding_config = [] then [] else line [ascii "encoding_config: ", info.encoding_config]) ++
    line [ascii "fields:"] ++ info.fields.flatMap (textField T) ++ [0#8]

end Cloudini.Format
