import Verif.Model.Pcd

/-!
# What a PCD header says
-/

namespace Cloudini

/-- `toks` are the pieces of `s` between delimiters: without delimiter inside, and joined with delimiters they give `s`. -/
def Pieces (d : Byte) (s : List Byte) (toks : List (List Byte)) : Prop :=
  toks ≠ [] ∧ (∀ t ∈ toks, d ∉ t) ∧ s = List.intercalate [d] toks

namespace Pcd

/-- The entries of the last line with the given key, none if there is no such line.  `lines` are without comments and line ends. -/
def lastOf (key : List Byte) (lines : List (List Byte)) : List (List Byte) :=
  match (lines.filter fun l => (split 32#8 l).head? = some key).getLast? with
  | none => []
  | some l => (split 32#8 l).tail

/-- The type of the last entry with name `k`. -/
def lastType (entries : List (List Byte × Int × List Byte)) (k : List Byte) : Option FieldType :=
  (entries.reverse.find? fun e => e.1 = k).map fun e => typeOf e.2.2 e.2.1

end Pcd

end Cloudini
