import Verif.Spec.Text
import Verif.Model.Yaml
import Verif.Spec.Header

/-!
# What a YAML text says

The lines that say something, each with its indentation (a tab is four columns) and its text without white space at both ends and without comment.
-/

namespace Cloudini

/-- The columns before the first character that is neither blank nor tab. -/
def columns (line : List Byte) : Nat :=
  let lead := line.takeWhile fun c => c = 0x20#8 ∨ c = 0x09#8
  lead.count 0x20#8 + 4 * lead.count 0x09#8

/-- Without white space at both ends. -/
def strip (s : List Byte) : List Byte := ((s.dropWhile fun c => decide (Blank c)).reverse.dropWhile fun c => decide (Blank c)).reverse

/-- The text of a line before '#', without white space at both ends. -/
def saying (line : List Byte) : List Byte := strip (line.takeWhile (· ≠ 0x23#8))

/-- The lines that say something. -/
def outline (lines : List (List Byte)) : List (Nat × List Byte) := (lines.filter fun l => saying l ≠ []).map fun l => (columns l, saying l)

/-! ## Documents -/

mutual
/-- A mapping or a sequence. -/
inductive YDoc where
  | map (es : YEntries)
  | seq (is : YItems)
/-- The entries of a mapping: a key with a scalar, or a key with a mapping or sequence. -/
inductive YEntries where
  | nil
  | scalar (k v : List Byte) (rest : YEntries)
  | child (k : List Byte) (d : YDoc) (rest : YEntries)
/-- The items of a sequence: a scalar, or a mapping whose first entry has a scalar. -/
inductive YItems where
  | nil
  | scalar (v : List Byte) (rest : YItems)
  | map (k v : List Byte) (more : YEntries) (rest : YItems)
end

mutual
/-- The tree the reader builds. -/
def YDoc.node : YDoc → YNode
  | .map es => .map es.node
  | .seq is => .seq is.node
def YEntries.node : YEntries → List (List Byte × YNode)
  | .nil => []
  | .scalar k v rest => (k, .str v) :: rest.node
  | .child k d rest => (k, d.node) :: rest.node
def YItems.node : YItems → List YNode
  | .nil => []
  | .scalar v rest => .str v :: rest.node
  | .map k v more rest => .map ((k, .str v) :: more.node) :: rest.node
end

mutual
/-- The lines, with `n` blanks in front of the outermost ones and two more for each level. -/
def YDoc.lines (n : Nat) : YDoc → List (List Byte)
  | .map es => es.lines n
  | .seq is => is.lines n
def YEntries.lines (n : Nat) : YEntries → List (List Byte)
  | .nil => []
  | .scalar k v rest => (List.replicate n 0x20#8 ++ (k ++ 0x3A#8 :: 0x20#8 :: v)) :: rest.lines n
  | .child k d rest => (List.replicate n 0x20#8 ++ (k ++ [0x3A#8])) :: (d.lines (n + 2) ++ rest.lines n)
def YItems.lines (n : Nat) : YItems → List (List Byte)
  | .nil => []
  | .scalar v rest => (List.replicate n 0x20#8 ++ (0x2D#8 :: 0x20#8 :: v)) :: rest.lines n
  | .map k v more rest => (List.replicate n 0x20#8 ++ (0x2D#8 :: 0x20#8 :: (k ++ 0x3A#8 :: 0x20#8 :: v))) :: (more.lines (n + 2) ++ rest.lines n)
end

/-- The text of a document. -/
def YDoc.text (d : YDoc) : List Byte := ((d.lines 0).map (· ++ [0x0A#8])).flatten

/-- A key: plain text without colon that does not look like an item. -/
def GoodKey (k : List Byte) : Prop := PlainText k ∧ 0x3A#8 ∉ k ∧ k.take 2 ≠ ascii "- "

mutual
/-- Keys and scalars are plain text; no mapping or sequence is empty. -/
def YDoc.Good : YDoc → Prop
  | .map es => es ≠ .nil ∧ es.Good
  | .seq is => is ≠ .nil ∧ is.Good
def YEntries.Good : YEntries → Prop
  | .nil => True
  | .scalar k v rest => GoodKey k ∧ PlainText v ∧ rest.Good
  | .child k d rest => GoodKey k ∧ d.Good ∧ rest.Good
def YItems.Good : YItems → Prop
  | .nil => True
  | .scalar v rest => PlainText v ∧ 0x3A#8 ∉ v ∧ rest.Good
  | .map k v more rest => GoodKey k ∧ PlainText v ∧ more.Good ∧ rest.Good
end

end Cloudini
