import Verif.Model.Split
import Verif.Model.Header

/-!
# Reading the header of a PCD file (`pcl_conversion.cpp:39-107`) and PCL clouds (`pcl_conversion.cpp:127-180, 242-275`)
-/

namespace Cloudini.Pcd

/-- A stream: what is left and whether `eofbit` is set. -/
structure Stream where
  rest : List Byte
  eof : Bool := false

/-- `std::getline(stream, line)`: with `eofbit` set the sentry fails and `line` keeps its value; otherwise the characters up to a newline, which
is consumed, or up to the end, which sets `eofbit`. -/
def getline (st : Stream) (line : List Byte) : Stream × List Byte :=
  if st.eof then (st, line)
  else
    match st.rest.dropWhile (· != 10#8) with
    | [] => (⟨[], true⟩, st.rest)
    | _ :: r => (⟨r, false⟩, st.rest.takeWhile (· != 10#8))

/-- pcl_conversion.cpp:47-49: `line.substr(0, line.find(c))` for '#', '\r' and '\n'. -/
def truncate (line : List Byte) : List Byte :=
  ((line.takeWhile (· != 35#8)).takeWhile (· != 13#8)).takeWhile (· != 10#8)

/-- `fields_name`, `fields_size`, `fields_type`. -/
structure Columns where
  names : List (List Byte) := []
  sizes : List (List Byte) := []
  types : List (List Byte) := []

/-- pcl_conversion.cpp:51-65: one line; `none` at DATA.  `splitString` never returns an empty vector. -/
def useLine (line : List Byte) (c : Columns) : Option Columns :=
  match split 32#8 line with
  | [] => some c
  | key :: toks =>
    if key = ascii "FIELDS" then some { c with names := toks }
    else if key = ascii "SIZE" then some { c with sizes := toks }
    else if key = ascii "TYPE" then some { c with types := toks }
    else if key = ascii "DATA" then none
    else some c

/-- pcl_conversion.cpp:45-66: the loop over the lines.  `fuel` bounds the iterations; `.ub .loop` when they are not enough. -/
def readLines : (fuel : Nat) → Stream → (line : List Byte) → Columns → Res Columns
  | 0, _, _, _ => .ub .loop
  | fuel + 1, st, line, c =>
    let g := getline st line
    let line := truncate g.2
    match useLine line c with
    | none => .ok c
    | some c => if line ≠ [] then readLines fuel g.1 line c else .ok c

/-- pcl_conversion.cpp:78-103: the type of a letter and a size. -/
def typeOf (letter : List Byte) (bytes : Int) : FieldType :=
  if letter = ascii "F" ∧ bytes = 4 then (if bytes = 4 then .float32 else if bytes = 8 then .float64 else .unknown)
  else if letter = ascii "I" then (if bytes = 1 then .int8 else if bytes = 2 then .int16 else if bytes = 4 then .int32 else .unknown)
  else if letter = ascii "U" then
    (if bytes = 1 then .uint8 else if bytes = 2 then .uint16 else if bytes = 4 then .uint32 else if bytes = 8 then .uint64 else .unknown)
  else .unknown

/-- `std::map<std::string, FieldType>`. -/
abbrev Types := List Byte → Option FieldType

/-- pcl_conversion.cpp:75-104: the loop over the fields (the lists have equal length). -/
def collect : List (List Byte) → List (List Byte) → List (List Byte) → Types → Res Types
  | n :: ns, s :: ss, t :: ts, m => do
    let bytes ← stoi s
    collect ns ss ts (fun k => if k = n then some (typeOf t bytes) else m k)
  | _, _, _, m => .ok m

/-- pcl_conversion.cpp:39-106 `ReadEncodingInfoFromPCD`. -/
def readPcd (fuel : Nat) (text : List Byte) : Res Types := do
  let c ← readLines fuel ⟨text, false⟩ [] {}
  if c.names.length ≠ c.sizes.length ∨ c.names.length ≠ c.types.length then .throw "PCD header parsing error"
  else collect c.names c.sizes c.types (fun _ => none)

/-! ### `pcl::PCLPointCloud2` -/

/-- `pcl::PCLPointField`. -/
structure PclField where
  name : List Byte
  offset : BitVec 32
  datatype : Byte
  count : BitVec 32

/-- pcl_conversion.cpp:140-168: the `switch`.  INT8 to FLOAT64 are 1 to 8 in PCL. -/
def pclType (d : Byte) : FieldType :=
  if d = 7#8 then .float32 else if d = 8#8 then .float64 else if d = 1#8 then .int8 else if d = 3#8 then .int16 else if d = 5#8 then .int32
  else if d = 2#8 then .uint8 else if d = 4#8 then .uint16 else if d = 6#8 then .uint32 else .unknown

/-- pcl_conversion.cpp:127-179 `ConvertToEncodingInfo(PCLPointCloud2)`; `res` is the resolution converted to `float` if it is positive. -/
def toInfo (width height step : BitVec 32) (fields : List PclField) (res : Option (BitVec 32)) : EncodingInfo :=
  { width := width, height := height, point_step := step,
    fields := fields.map fun f => ⟨f.name, f.offset, pclType f.datatype, if pclType f.datatype = .float32 then res else none⟩ }

/-- pcl_conversion.cpp:257-265: the fields `PCLPointCloudDecode` reports. -/
def fromInfo (fields : List PointField) : List PclField := fields.map fun f => ⟨f.name, f.offset, f.type.code, 1#32⟩

/-- pcl_conversion.cpp:230-235: fixing the fields PCL does not know; `at` throws `std::out_of_range`. -/
def fixTypes (m : Types) : List PointField → Res (List PointField)
  | [] => .ok []
  | f :: fs =>
    if f.type = .unknown then
      match m f.name with
      | none => .throw "map::at"
      | some t => do
        let gs ← fixTypes m fs
        .ok ({ f with type := t } :: gs)
    else do
      let gs ← fixTypes m fs
      .ok (f :: gs)

end Cloudini.Pcd
