import Verif.Model.Wasm

/-!
# The Python decoder (`cloudini_py/cloudini_decoder.py`)

`CloudiniDecoder` calls two functions of the WebAssembly interface and turns what they wrote into a NumPy array.  Text is a list of bytes; `decode('utf-8')`
is the identity, which is right for ASCII text only.  Blocks obtained from `allocate` are taken to be disjoint and of the requested size; writing past
the end of one is `ub .mem`.  An exception that leaves the WebAssembly function, and every Python exception, is `throw`.  The messages printed are
left out.  NumPy itself is outside the model: what `np.dtype`, `np.frombuffer` and `reshape` accept is stated in `dtypeOk` and `toNumpy`.
-/

namespace Cloudini.Python

/-- `str.isspace` on ASCII characters (what `str.strip()` removes): \t \n \v \f \r, the four separators 0x1C..0x1F, the space. -/
def blank (c : Byte) : Bool := (9 ≤ c.toNat && c.toNat ≤ 13) || (28 ≤ c.toNat && c.toNat ≤ 32)

/-- `str.strip()`. -/
def strip (s : List Byte) : List Byte := ((s.dropWhile blank).reverse.dropWhile blank).reverse

/-- `str.split('\n')`: one line more than there are newlines. -/
def lines : List Byte → List (List Byte)
  | [] => [[]]
  | c :: cs =>
    if c = 0x0A#8 then [] :: lines cs
    else match lines cs with
      | [] => [[c]]
      | l :: ls => (c :: l) :: ls

/-- A Python value of a header dictionary. -/
inductive Val
  | int (n : Nat)
  | null
  | str (s : List Byte)
  deriving DecidableEq, Repr

/-- cloudini_decoder.py:199-212 `_parse_yaml_value`.  Simplified: `int()` also accepts a sign, underscores and non-ASCII digits, and `float()` turns other
texts into numbers; the model keeps those as text.  The header text never has the former, and the latter only in `resolution`, which nobody reads. -/
def parseValue (s : List Byte) : Val :=
  if s = ascii "null" ∨ s = ascii "None" then .null
  else if s ≠ [] ∧ s.all isDigit then .int (number s)
  else .str s

/-- A dictionary; the entry assigned last comes first. -/
abbrev Dict := List (List Byte × Val)

/-- `d.get(key)`. -/
def get (d : Dict) (key : List Byte) : Option Val := (d.find? fun e => e.1 = key).map (·.2)

/-- cloudini_decoder.py:242-245: the variables of the loop. -/
structure Scan where
  header : Dict := []
  fields : List Dict := []
  current : Option Dict := none
  inside : Bool := false
  deriving DecidableEq

/-- `key, value = stripped.split(':', 1)`, both stripped, the value converted (lines 263-268 and 271-276). -/
def entry (s : List Byte) : Option (List Byte × Val) :=
  match splitColon s with
  | none => none
  | some (k, v) => some (strip k, parseValue (strip v))

/-- cloudini_decoder.py:247-276: the body of the loop over the lines. -/
def scanLine (st : Scan) (line : List Byte) : Scan :=
  let s := strip line
  if (ascii "fields:").isPrefixOf s then { st with inside := true }
  else if st.inside then
    if (ascii "- name:").isPrefixOf s then
      { st with fields := (match st.current with | some f => st.fields ++ [f] | none => st.fields)
                current := some [(ascii "name", .str (strip (s.drop 7)))] }
    else if s ≠ [] ∧ ¬ (ascii "-").isPrefixOf s then
      match entry s, st.current with
      | some e, some f => { st with current := some (e :: f) }
      | _, _ => st
    else st
  else match entry s with
    | some e => { st with header := e :: st.header }
    | none => st

/-- What `get_header_info` returns: the top-level entries and the list under 'fields'. -/
structure Info where
  top : Dict
  fields : List Dict
  deriving DecidableEq

/-- cloudini_decoder.py:241-283: the dictionary made of the text. -/
def scan (text : List Byte) : Info :=
  let st := (lines text).foldl scanLine {}
  ⟨st.header, match st.current with | some f => st.fields ++ [f] | none => st.fields⟩

/-- cloudini_decoder.py:226 `yaml_buffer_size`. -/
def yamlRoom : Nat := 4096

/-- cloudini_decoder.py:123: the block for the decoded points, allocated once. -/
def blockSize : Nat := 32 * 1024 * 1024

/-- cloudini_decoder.py:214-287 `get_header_info`: `none` is the empty dictionary. -/
def headerInfo (T : FloatText) (msg : List Byte) : Res (Option Info) := do
  let o ← Wasm.headerYamlMsg T msg
  match o.bytes with
  | none => .ok none
  | some text =>
    if yamlRoom < text.length then .ub .mem
    else if o.ret = 0 then .ok none
    else .ok (some (scan text))

/-- `header_info.get(key, 0)` used as a number.  Simplified: anything but a number raises. -/
def num (d : Dict) (key : List Byte) : Res Nat :=
  match get d key with
  | none => .ok 0
  | some (.int n) => .ok n
  | some _ => .throw "TypeError"

/-- cloudini_decoder.py:339-349, 360 `type_map.get(f.get('type', 'UINT8'), np.uint8)`: the NumPy type, named by the field type of the same layout. -/
def typeOf (d : Dict) : FieldType :=
  match get d (ascii "type") with
  | some (.str s) =>
    if s = ascii "FLOAT32" then .float32
    else if s = ascii "FLOAT64" then .float64
    else if s = ascii "UINT8" then .uint8
    else if s = ascii "UINT16" then .uint16
    else if s = ascii "UINT32" then .uint32
    else if s = ascii "INT8" then .int8
    else if s = ascii "INT16" then .int16
    else if s = ascii "INT32" then .int32
    else .uint8
  | _ => .uint8

/-- One member of a structured type. -/
structure Column where
  name : List Byte
  type : FieldType
  offset : Nat
  deriving DecidableEq

/-- The entries of `dtype_spec` for one field (cloudini_decoder.py:358-363). -/
def column (d : Dict) : Res Column := do
  let off ← num d (ascii "offset")
  match get d (ascii "name") with
  | some (.str s) => .ok ⟨s, typeOf d, off⟩
  | _ => .throw "TypeError"

/-- The columns of all fields. -/
def columns : List Dict → Res (List Column)
  | [] => .ok []
  | d :: ds => do
    let c ← column d
    let cs ← columns ds
    .ok (c :: cs)

/-- Insertion behind smaller offsets. -/
def place (c : Column) : List Column → List Column
  | [] => [c]
  | d :: ds => if c.offset ≤ d.offset then c :: d :: ds else d :: place c ds

/-- cloudini_decoder.py:355 `sorted(fields, key=offset)`, which is stable. -/
def sorted (cs : List Column) : List Column := cs.foldr place []

/-- What `np.dtype` requires of the specification: different names, members inside the item, an item size that fits an `int`. -/
def dtypeOk (cs : List Column) (itemsize : Nat) : Prop :=
  (cs.map (·.name)).Nodup ∧ (∀ c ∈ cs, c.offset + sizeOf c.type ≤ itemsize) ∧ itemsize < 2 ^ 31

instance (cs : List Column) (n : Nat) : Decidable (dtypeOk cs n) := by unfold dtypeOk; infer_instance

/-- The array returned: structured; rows of bytes; or bytes. -/
inductive NpArray
  | structured (cols : List Column) (itemsize count : Nat) (data : List Byte)
  | rows (count step : Nat) (data : List Byte)
  | flat (data : List Byte)
  deriving DecidableEq

/-- `points[i][name]`: the type of the member and its bytes. -/
def NpArray.item : NpArray → Nat → List Byte → Option (FieldType × List Byte)
  | .structured cols itemsize count data, i, name =>
    if i < count then (cols.find? fun c => c.name = name).map fun c => (c.type, (data.drop (i * itemsize + c.offset)).take (sizeOf c.type))
    else none
  | _, _, _ => none

/-- `len(points)`. -/
def NpArray.len : NpArray → Nat
  | .structured _ _ count _ => count
  | .rows count _ _ => count
  | .flat data => data.length

/-- `points.tobytes()`. -/
def NpArray.bytes : NpArray → List Byte
  | .structured _ _ _ data => data
  | .rows _ _ data => data
  | .flat data => data

/-- `points.dtype.names` (`none` for plain bytes). -/
def NpArray.names : NpArray → Option (List (List Byte))
  | .structured cols _ _ _ => some (cols.map (·.name))
  | _ => none

/-- cloudini_decoder.py:377-382: the fallback. -/
def fallback (n step : Nat) (data : List Byte) : Res NpArray :=
  if 0 < n ∧ 0 < step then
    if data.length = n * step then .ok (.rows n step data) else .throw "cannot reshape array"
  else .ok (.flat data)

/-- cloudini_decoder.py:318-382 `bytes_to_numpy`. -/
def toNumpy (data : List Byte) (h : Info) : Res NpArray := do
  let w ← num h.top (ascii "width")
  let ht ← num h.top (ascii "height")
  let step ← num h.top (ascii "point_step")
  if h.fields ≠ [] then
    match columns h.fields with
    | .ok cs => if dtypeOk (sorted cs) step ∧ w * ht * step ≤ data.length then .ok (.structured (sorted cs) step (w * ht) (data.take (w * ht * step)))
                else fallback (w * ht) step data
    | .throw _ => fallback (w * ht) step data
    | .ub k => .ub k
  else fallback (w * ht) step data

/-- cloudini_decoder.py:289-316 `extract_data_from_pc2_msg`: `pc2_msg[-n:]`, which is everything for `n = 0`. -/
def extract (bytes : List Byte) (h : Info) : Res NpArray := do
  let w ← num h.top (ascii "width")
  let ht ← num h.top (ascii "height")
  let step ← num h.top (ascii "point_step")
  if w * ht * step ≤ bytes.length then
    toNumpy (if w * ht * step = 0 then bytes else bytes.drop (bytes.length - w * ht * step)) h
  else toNumpy bytes h

/-- cloudini_decoder.py:150-197 `decode_message`.  `block` is the content of the block for the points; its new content is returned with the array. -/
def decode (T : FloatText) (F : FloatOps) (C : Compressor) (fuel : Nat) (block msg : List Byte) : Res (NpArray × Info × List Byte) := do
  let o ← Wasm.decodeMessage T F C fuel msg block
  match o.bytes with
  | none => .throw "Failed to convert compressed message to PointCloud2"
  | some b =>
    if o.ret = 0 then .throw "Failed to convert compressed message to PointCloud2"
    else do
      let h ← headerInfo T msg
      match h with
      | none => .throw "Header info extraction returned incomplete data (missing 'width')"
      | some h =>
        if get h.top (ascii "width") = none then .throw "Header info extraction returned incomplete data (missing 'width')"
        else do
          let a ← extract ((b ++ block.drop b.length).take o.ret) h
          .ok (a, h, b ++ block.drop b.length)

end Cloudini.Python
