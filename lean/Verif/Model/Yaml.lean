import Verif.Model.Text

/-!
# The YAML reader (`yaml_parser.hpp`)

The parser's position `current_line_` is represented by the list of lines not consumed yet.  Indentation is an `int` in
the code and a natural number here (lines of 2^29 tabs or 2^31 blanks are not modelled).  Recursion is driven by a fuel
argument and `.ub .loop` is returned when it runs out; `yamlParse` supplies a fuel that always suffices (property C43).
-/

namespace Cloudini

/-- yaml_parser.hpp:28-44 `Node` with its `NodeValue` variant. -/
inductive YNode where
  | null
  | str (s : List Byte)
  | seq (items : List YNode)
  | map (entries : List (List Byte × YNode))

/-- yaml_parser.hpp:178-189 `splitLines`: the text between newlines; a final newline does not start another line. -/
def splitLines : List Byte → List (List Byte)
  | [] => []
  | c :: cs =>
    if c = 0x0A#8 then [] :: splitLines cs
    else match splitLines cs with
      | [] => [[c]]
      | l :: ls => (c :: l) :: ls

/-- yaml_parser.hpp:407-411, 418-420: remove white space at the end. -/
def rtrim (s : List Byte) : List Byte := (s.reverse.dropWhile isSpace).reverse

/-- yaml_parser.hpp:396-428 `trim`: remove white space on both sides, then everything from the first '#', then white space at
the end again. -/
def trim (s : List Byte) : List Byte :=
  let s := s.dropWhile isSpace
  if s = [] then []
  else
    let s := rtrim s
    if 0x23#8 ∈ s then rtrim (s.takeWhile (· ≠ 0x23#8)) else s

/-- yaml_parser.hpp:382-394 `getIndentation`: blanks count 1, tabs 4. -/
def indentation : List Byte → Nat
  | [] => 0
  | c :: cs => if c = 0x20#8 then 1 + indentation cs else if c = 0x09#8 then 4 + indentation cs else 0

/-- yaml_parser.hpp:371-380 `skipEmptyLines`. -/
def skipEmpty : List (List Byte) → List (List Byte)
  | [] => []
  | l :: ls => if trim l = [] ∨ (trim l).head? = some 0x23#8 then skipEmpty ls else l :: ls

/-- `find(':')` and the two `substr` calls around it. -/
def splitColon : List Byte → Option (List Byte × List Byte)
  | [] => none
  | c :: cs =>
    if c = 0x3A#8 then some ([], cs)
    else match splitColon cs with
      | none => none
      | some (a, b) => some (c :: a, b)

/-- `trimmed.starts_with("- ")` -/
def startsDash (s : List Byte) : Bool := s.take 2 = [0x2D#8, 0x20#8]

mutual

/-- yaml_parser.hpp:200-228 `parseNode`. -/
def parseNode : Nat → List (List Byte) → Nat → Res (YNode × List (List Byte))
  | 0, _, _ => .ub .loop
  | fuel + 1, lines, base =>
    match skipEmpty lines with
    | [] => .ok (.null, [])
    | line :: rest =>
      if indentation line < base then .ok (.null, line :: rest)
      else if startsDash (trim line) then
        parseSequence fuel (line :: rest) base >>= fun r => .ok (.seq r.1, r.2)
      else
        match splitColon (trim line) with
        | some _ => parseMapping fuel (line :: rest) base >>= fun r => .ok (.map r.1, r.2)
        | none => .ok (.str (trim line), line :: rest)

/-- yaml_parser.hpp:230-323 `parseSequence`: the outer loop. -/
def parseSequence : Nat → List (List Byte) → Nat → Res (List YNode × List (List Byte))
  | 0, _, _ => .ub .loop
  | fuel + 1, lines, base =>
    match skipEmpty lines with
    | [] => .ok ([], [])
    | line :: rest =>
      if indentation line < base then .ok ([], line :: rest)
      else if startsDash (trim line) = false then .ok ([], line :: rest)
      else
        let item := (trim line).drop 2
        if item = [] then
          parseNode fuel rest (indentation line + 2) >>= fun n =>
          parseSequence fuel n.2 base >>= fun s => .ok (n.1 :: s.1, s.2)
        else
          match splitColon item with
          | some (k, v) =>
            parseItem fuel rest (indentation line) >>= fun m =>
            parseSequence fuel m.2 base >>= fun s =>
            .ok (.map ((if trim v = [] then [] else [(trim k, .str (trim v))]) ++ m.1) :: s.1, s.2)
          | none => parseSequence fuel rest base >>= fun s => .ok (.str item :: s.1, s.2)

/-- yaml_parser.hpp:278-309: the inner loop of `parseSequence`, the further keys of a mapping that started on a "- " line. -/
def parseItem : Nat → List (List Byte) → Nat → Res (List (List Byte × YNode) × List (List Byte))
  | 0, _, _ => .ub .loop
  | fuel + 1, lines, indent =>
    match skipEmpty lines with
    | [] => .ok ([], [])
    | line :: rest =>
      if indentation line ≤ indent then .ok ([], line :: rest)
      else
        match splitColon (trim line) with
        | none => .ok ([], line :: rest)
        | some (k, v) =>
          if trim v ≠ [] then
            parseItem fuel rest indent >>= fun m => .ok ((trim k, .str (trim v)) :: m.1, m.2)
          else
            parseNode fuel rest (indentation line + 2) >>= fun n =>
            parseItem fuel n.2 indent >>= fun m => .ok ((trim k, n.1) :: m.1, m.2)

/-- yaml_parser.hpp:325-369 `parseMapping`. -/
def parseMapping : Nat → List (List Byte) → Nat → Res (List (List Byte × YNode) × List (List Byte))
  | 0, _, _ => .ub .loop
  | fuel + 1, lines, base =>
    match skipEmpty lines with
    | [] => .ok ([], [])
    | line :: rest =>
      if indentation line < base then .ok ([], line :: rest)
      else if base < indentation line then .ok ([], line :: rest)
      else
        match splitColon (trim line) with
        | none => .ok ([], line :: rest)
        | some (k, v) =>
          if trim v = [] then
            parseNode fuel rest (indentation line + 2) >>= fun n =>
            parseMapping fuel n.2 base >>= fun m => .ok ((trim k, n.1) :: m.1, m.2)
          else
            parseMapping fuel rest base >>= fun m => .ok ((trim k, .str (trim v)) :: m.1, m.2)

end

/-- yaml_parser.hpp:191-198 `parseDocument` with an explicit bound on the number of steps. -/
def yamlParseFuel (fuel : Nat) (text : List Byte) : Res YNode :=
  match splitLines text with
  | [] => .ok .null
  | ls => parseNode fuel ls 0 >>= fun r => .ok r.1

/-- yaml_parser.hpp:436-438 `YAML::parse`. -/
def yamlParse (text : List Byte) : Res YNode := yamlParseFuel (2 * (splitLines text).length + 2) text

/-- yaml_parser.hpp:62-74 `operator[](std::string_view key)`. -/
def YNode.get (n : YNode) (key : List Byte) : Res YNode :=
  match n with
  | .map es => .ok (match es.find? (fun e => e.1 = key) with | some e => e.2 | none => .null)
  | _ => .throw "Node is not a mapping"

/-- yaml_parser.hpp:104-119 `as<std::string>`, `as<std::string_view>`. -/
def YNode.asStr : YNode → Res (List Byte)
  | .str s => .ok s
  | _ => .throw "Node is not a string"

end Cloudini
