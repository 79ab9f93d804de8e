import Verif.Model.Profile
import Verif.Spec.Pcd
import Verif.Spec.Text

/-!
# What a profile string means
-/

namespace Cloudini.Profile

/-- `t` is `s` without the white space at both ends. -/
def Trimmed (s t : List Byte) : Prop :=
  ∃ a b, s = a ++ t ++ b ∧ (∀ c ∈ a, Blank c) ∧ (∀ c ∈ b, Blank c) ∧ (∀ c, t.head? = some c → ¬ Blank c) ∧
    (∀ c, t.getLast? = some c → ¬ Blank c)

/-- `text` is an entry `field : value`; the value is a number or the word remove, which stands for 0. -/
def IsEntry (stof : List Byte → Res (BitVec 32)) (text : List Byte) (e : List Byte × BitVec 32) : Prop :=
  ∃ a b v, text = a ++ 58#8 :: b ∧ 58#8 ∉ a ∧ 58#8 ∉ b ∧ Trimmed a e.1 ∧ Trimmed b v ∧
    ((v = ascii "remove" ∧ e.2 = 0#32) ∨ (v ≠ ascii "remove" ∧ stof v = .ok e.2))

/-- The entries of a string, one by one. -/
def AreEntries (stof : List Byte → Res (BitVec 32)) : List (List Byte) → List (List Byte × BitVec 32) → Prop
  | [], [] => True
  | t :: ts, e :: es => IsEntry stof t e ∧ AreEntries stof ts es
  | _, _ => False

/-- Entry `e` speaks of field `k`: by its name, or as xyz of x, y and z. -/
def speaksOf (k : List Byte) (e : List Byte × BitVec 32) : Bool :=
  if e.1 = ascii "xyz" then k = ascii "x" ∨ k = ascii "y" ∨ k = ascii "z" else k = e.1

/-- The resolution of `k` after the entries: that of the last one that speaks of it, or what it was. -/
def resolved (es : List (List Byte × BitVec 32)) (before : List Byte → Option (BitVec 32)) (k : List Byte) : Option (BitVec 32) :=
  match es.reverse.find? (speaksOf k) with
  | some e => some e.2
  | none => before k

end Cloudini.Profile
