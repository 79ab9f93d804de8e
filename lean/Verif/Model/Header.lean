import Verif.Model.Yaml
import Verif.Model.CodecCommon
import Verif.Model.Cloud

/-!
# Headers (`cloudini.cpp`): option names, YAML and binary headers
-/

namespace Cloudini

/-- basic_types.hpp:28-45: the underlying byte. -/
def FieldType.code : FieldType → Byte
  | .unknown => 0#8 | .int8 => 1#8 | .uint8 => 2#8 | .int16 => 3#8 | .uint16 => 4#8 | .int32 => 5#8 | .uint32 => 6#8
  | .float32 => 7#8 | .float64 => 8#8 | .int64 => 9#8 | .uint64 => 10#8 | .bad c => c

/-- `static_cast<FieldType>(byte)` -/
def FieldType.ofCode (c : Byte) : FieldType :=
  match c.toNat with
  | 0 => .unknown | 1 => .int8 | 2 => .uint8 | 3 => .int16 | 4 => .uint16 | 5 => .int32 | 6 => .uint32
  | 7 => .float32 | 8 => .float64 | 9 => .int64 | 10 => .uint64 | _ => .bad c

/-- cloudini.hpp:33-43 -/
def EncOpt.code : EncOpt → Byte
  | .none => 0#8 | .lossy => 1#8 | .lossless => 2#8 | .bad c => c
def EncOpt.ofCode (c : Byte) : EncOpt :=
  match c.toNat with
  | 0 => .none | 1 => .lossy | 2 => .lossless | _ => .bad c

/-- cloudini.hpp:46-53 -/
def CompOpt.code : CompOpt → Byte
  | .none => 0#8 | .lz4 => 1#8 | .zstd => 2#8 | .bad c => c
def CompOpt.ofCode (c : Byte) : CompOpt :=
  match c.toNat with
  | 0 => .none | 1 => .lz4 | 2 => .zstd | _ => .bad c

/-- cloudini.cpp:48-75 `ToString(FieldType)`. -/
def FieldType.name : FieldType → List Byte
  | .int8 => ascii "INT8" | .uint8 => ascii "UINT8" | .int16 => ascii "INT16" | .uint16 => ascii "UINT16"
  | .int32 => ascii "INT32" | .uint32 => ascii "UINT32" | .float32 => ascii "FLOAT32" | .float64 => ascii "FLOAT64"
  | .int64 => ascii "INT64" | .uint64 => ascii "UINT64" | _ => ascii "UNKNOWN"

/-- cloudini.cpp:77-88 `ToString(EncodingOptions)`. -/
def EncOpt.name : EncOpt → List Byte
  | .none => ascii "NONE" | .lossy => ascii "LOSSY" | .lossless => ascii "LOSSLESS" | _ => ascii "UNKNOWN"

/-- cloudini.cpp:90-101 `ToString(CompressionOption)`. -/
def CompOpt.name : CompOpt → List Byte
  | .none => ascii "NONE" | .lz4 => ascii "LZ4" | .zstd => ascii "ZSTD" | _ => ascii "UNKNOWN"

/-- cloudini.cpp:103-117 `EncodingOptionsFromString`. -/
def encOptFromString (s : List Byte) : Res EncOpt :=
  if s = ascii "NONE" then .ok .none
  else if s = ascii "LOSSY" then .ok .lossy
  else if s = ascii "LOSSLESS" then .ok .lossless
  else stoi s >>= fun v =>
    if 0 ≤ v ∧ v ≤ 2 then .ok (EncOpt.ofCode (BitVec.ofNat 8 v.toNat)) else .throw "Invalid EncodingOptions string"

/-- cloudini.cpp:119-147 `FieldTypeFromString`. -/
def fieldTypeFromString (s : List Byte) : Res FieldType :=
  if s = ascii "INT8" then .ok .int8
  else if s = ascii "UINT8" then .ok .uint8
  else if s = ascii "INT16" then .ok .int16
  else if s = ascii "UINT16" then .ok .uint16
  else if s = ascii "INT32" then .ok .int32
  else if s = ascii "UINT32" then .ok .uint32
  else if s = ascii "FLOAT32" then .ok .float32
  else if s = ascii "FLOAT64" then .ok .float64
  else if s = ascii "INT64" then .ok .int64
  else if s = ascii "UINT64" then .ok .uint64
  else stoi s >>= fun v =>
    if 0 ≤ v ∧ v ≤ 10 then .ok (FieldType.ofCode (BitVec.ofNat 8 v.toNat)) else .throw "Invalid FieldType string"

/-- cloudini.cpp:149-163 `CompressionOptionFromString`. -/
def compOptFromString (s : List Byte) : Res CompOpt :=
  if s = ascii "NONE" then .ok .none
  else if s = ascii "LZ4" then .ok .lz4
  else if s = ascii "ZSTD" then .ok .zstd
  else stoi s >>= fun v =>
    if 0 ≤ v ∧ v ≤ 2 then .ok (CompOpt.ofCode (BitVec.ofNat 8 v.toNat)) else .throw "Invalid CompressionOption string"

/-- How the library's float text conversions behave: `std::ostream << float` with the default format and `std::stof`. -/
structure FloatText where
  print : BitVec 32 → List Byte
  parse : List Byte → Res (BitVec 32)

/-- cloudini.cpp:178-188: the four lines of one field. -/
def fieldYaml (T : FloatText) (f : PointField) : List Byte :=
  ascii "  - name: " ++ f.name ++ ascii "\n" ++
  ascii "    offset: " ++ decimal f.offset.toNat ++ ascii "\n" ++
  ascii "    type: " ++ f.type.name ++ ascii "\n" ++
  (match f.resolution with
    | some r => ascii "    resolution: " ++ T.print r ++ ascii "\n"
    | none => ascii "    resolution: null\n")

/-- cloudini.cpp:165-190 `EncodingInfoToYAML`. -/
def infoToYaml (T : FloatText) (info : EncodingInfo) : List Byte :=
  ascii "version: " ++ decimal info.version.toNat ++ ascii "\n" ++
  ascii "width: " ++ decimal info.width.toNat ++ ascii "\n" ++
  ascii "height: " ++ decimal info.height.toNat ++ ascii "\n" ++
  ascii "point_step: " ++ decimal info.point_step.toNat ++ ascii "\n" ++
  ascii "encoding_opt: " ++ info.encoding_opt.name ++ ascii "\n" ++
  ascii "compression_opt: " ++ info.compression_opt.name ++ ascii "\n" ++
  (if info.encoding_config ≠ [] then ascii "encoding_config: " ++ info.encoding_config ++ ascii "\n" else []) ++
  ascii "fields:\n" ++ (info.fields.map (fieldYaml T)).flatten

/-- cloudini.cpp:214-226: one element of the "fields" sequence. -/
def fieldFromYaml (T : FloatText) (n : YNode) : Res PointField := do
  let name ← n.get (ascii "name")
  let name ← name.asStr
  let offset ← n.get (ascii "offset")
  let offset ← offset.asStr
  let offset ← extractU32 offset
  let type ← n.get (ascii "type")
  let type ← type.asStr
  let type ← fieldTypeFromString type
  let res ← n.get (ascii "resolution")
  let res ← res.asStr
  if res = ascii "null" then .ok { name := name, offset := offset, type := type, resolution := none }
  else
    let r ← T.parse res
    .ok { name := name, offset := offset, type := type, resolution := some r }

/-- cloudini.cpp:213-227: the loop over the sequence. -/
def fieldsFromYaml (T : FloatText) : List YNode → Res (List PointField)
  | [] => .ok []
  | n :: ns => do
    let f ← fieldFromYaml T n
    let fs ← fieldsFromYaml T ns
    .ok (f :: fs)

/-- cloudini.cpp:206-209: `encoding_config` is optional. -/
def configFromYaml : YNode → List Byte
  | .str s => s
  | _ => []

/-- cloudini.cpp:211-228: anything but a sequence gives no fields. -/
def fieldsOfNode (T : FloatText) : YNode → Res (List PointField)
  | .seq items => fieldsFromYaml T items
  | _ => .ok []

/-- cloudini.cpp:192-230 `EncodingInfoFromYAML`. -/
def infoFromYaml (T : FloatText) (yaml : List Byte) : Res EncodingInfo := do
  let root ← yamlParse yaml
  let version ← root.get (ascii "version")
  let version ← version.asStr
  let version ← extractU8 version
  let width ← root.get (ascii "width")
  let width ← width.asStr
  let width ← extractU32 width
  let height ← root.get (ascii "height")
  let height ← height.asStr
  let height ← extractU32 height
  let step ← root.get (ascii "point_step")
  let step ← step.asStr
  let step ← extractU32 step
  let eopt ← root.get (ascii "encoding_opt")
  let eopt ← eopt.asStr
  let eopt ← encOptFromString eopt
  let copt ← root.get (ascii "compression_opt")
  let copt ← copt.asStr
  let copt ← compOptFromString copt
  let cfg ← root.get (ascii "encoding_config")
  let fnode ← root.get (ascii "fields")
  let fields ← fieldsOfNode T fnode
  .ok { fields := fields, width := width, height := height, point_step := step, encoding_opt := eopt,
        encoding_config := configFromYaml cfg, compression_opt := copt, version := version }

/-- cloudini.cpp:232-247 `ComputeHeaderSize`. -/
def computeHeaderSize (fields : List PointField) : Nat :=
  28 + (fields.map fun f => f.name.length + 2 + 4 + 1 + 4).sum

/-- cloudini.cpp:297-305 the lambda `write_magic`: the two version characters are `'0' + v / 10` and `'0' + v % 10`. -/
def magicBytes (version : Byte) : List Byte :=
  magic ++ [BitVec.ofNat 8 (48 + version.toNat / 10), BitVec.ofNat 8 (48 + version.toNat % 10)]

/-- cloudini.cpp:336-341: the resolution written, -1.0f when there is none. -/
def resWire : Option (BitVec 32) → Nat
  | some r => r.toNat
  | none => 0xBF800000

/-- cloudini.cpp:332-342: the fields of a binary header, written into the view. -/
def encodeFieldsBinary : List PointField → W → Res W
  | [], w => .ok w
  | f :: fs, w => do
    let w ← w.encodeString f.name
    let w ← w.encodeInt 4 f.offset.toNat
    let w ← w.encodeInt 1 f.type.code.toNat
    let w ← w.encodeInt 4 (resWire f.resolution)
    encodeFieldsBinary fs w

/-- cloudini.cpp:294-344 `EncodeHeader` with `HeaderEncoding::YAML`. The buffer has exactly the size written. -/
def encodeHeaderYaml (T : FloatText) (info : EncodingInfo) : List Byte :=
  magicBytes info.version ++ [0x0A#8] ++ infoToYaml T info ++ [0#8]

/-- cloudini.cpp:294-344 `EncodeHeader` with `HeaderEncoding::BINARY`: the vector is resized (zero-filled) to
`ComputeHeaderSize` and then filled from the front. -/
def encodeHeaderBinary (info : EncodingInfo) : Res (List Byte) := do
  let w ← (⟨[], computeHeaderSize info.fields⟩ : W).raw (magicBytes info.version)
  let w ← w.encodeInt 4 info.width.toNat
  let w ← w.encodeInt 4 info.height.toNat
  let w ← w.encodeInt 4 info.point_step.toNat
  let w ← w.encodeInt 1 info.encoding_opt.code.toNat
  let w ← w.encodeInt 1 info.compression_opt.code.toNat
  let w ← w.encodeInt 2 (info.fields.length % 65536)
  let w ← encodeFieldsBinary info.fields w
  .ok (w.out ++ List.replicate w.room 0#8)

/-- cloudini.cpp:346-351 `char_to_num`. -/
def charToNum (c : Byte) : Nat := if isDigit c then c.toNat - 48 else 0

/-- `res > 0` for a `float`: neither zero, negative nor NaN. -/
def resPositive (r : BitVec 32) : Bool := 0 < r.toNat && r.toNat ≤ 0x7F800000

/-- cloudini.cpp:411-425: the fields of a binary header. -/
def decodeFieldsBinary : Nat → List Byte → Res (List PointField × List Byte)
  | 0, input => .ok ([], input)
  | n + 1, input => do
    let (name, input) ← decodeString input
    let (offset, input) ← decodeInt 4 input
    let (type, input) ← decodeInt 1 input
    let (res, input) ← decodeInt 4 input
    let (fs, input) ← decodeFieldsBinary n input
    .ok ({ name := name, offset := BitVec.ofNat 32 offset, type := FieldType.ofCode (BitVec.ofNat 8 type),
           resolution := if resPositive (BitVec.ofNat 32 res) then some (BitVec.ofNat 32 res) else none } :: fs, input)

/-- cloudini.cpp:392-427: the binary part of `DecodeHeader`. -/
def decodeHeaderBinary (version : Byte) (input : List Byte) : Res (EncodingInfo × List Byte) := do
  let (width, input) ← decodeInt 4 input
  let (height, input) ← decodeInt 4 input
  let (step, input) ← decodeInt 4 input
  let (eopt, input) ← decodeInt 1 input
  let (copt, input) ← decodeInt 1 input
  let (count, input) ← decodeInt 2 input
  let (fields, input) ← decodeFieldsBinary count input
  .ok ({ fields := fields, width := BitVec.ofNat 32 width, height := BitVec.ofNat 32 height, point_step := BitVec.ofNat 32 step,
         encoding_opt := EncOpt.ofCode (BitVec.ofNat 8 eopt), compression_opt := CompOpt.ofCode (BitVec.ofNat 8 copt),
         version := version }, input)

/-- cloudini.cpp:375-389: the YAML part of `DecodeHeader`, after the newline. -/
def decodeHeaderYaml (T : FloatText) (version : Byte) (input : List Byte) : Res (EncodingInfo × List Byte) :=
  if 0#8 ∉ input then .throw "Malformed YAML header: missing null terminator"
  else do
    let info ← infoFromYaml T (input.takeWhile (· ≠ 0#8))
    .ok ({ info with version := version }, input.drop ((input.takeWhile (· ≠ 0#8)).length + 1))

/-- cloudini.cpp:372-427: after the version was read and checked. -/
def decodeHeaderBody (T : FloatText) (version : Byte) (input : List Byte) : Res (EncodingInfo × List Byte) :=
  match input with
  | a :: b :: rest =>
    if a = 0x0A#8 ∧ b ≠ 0x7B#8 then decodeHeaderYaml T version (b :: rest)
    else decodeHeaderBinary version (a :: b :: rest)
  | _ => decodeHeaderBinary version input

/-- cloudini.cpp:353-428 `DecodeHeader`: the info and what is left of the input. -/
def decodeHeader (T : FloatText) (input : List Byte) : Res (EncodingInfo × List Byte) :=
  if input.length < 12 then .throw "Input too small to contain Cloudini header"
  else if input.take 10 ≠ magic then .throw "Invalid magic header. Expected 'CLOUDINI_V'"
  else
    match input.drop 10 with
    | a :: b :: rest =>
      let version := charToNum a * 10 + charToNum b
      if version < 2 ∨ 5 < version then .throw "Unsupported encoding version"
      else decodeHeaderBody T (BitVec.ofNat 8 version) rest
    | _ => .ub .mem

/-- cloudini.cpp:258 `MaxCompressedSize(info, points_count, include_header = true)`: its estimate of the header. -/
def headerEstimate (T : FloatText) (info : EncodingInfo) : Nat := 10 + 2 + 1 + (infoToYaml T info).length + 1

end Cloudini
