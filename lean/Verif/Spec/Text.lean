import Verif.Model.Text

/-!
# Characters
-/

namespace Cloudini

/-- The white characters of the "C" locale: blank, tab, newline, vertical tab, form feed, carriage return. -/
def Blank (c : Byte) : Prop := c ∈ [0x20#8, 0x09#8, 0x0A#8, 0x0B#8, 0x0C#8, 0x0D#8]

instance : DecidablePred Blank := fun c => inferInstanceAs (Decidable (c ∈ _))

/-- The decimal digits. -/
def Digit (c : Byte) : Prop := c ∈ ascii "0123456789"

instance : DecidablePred Digit := fun c => inferInstanceAs (Decidable (c ∈ _))

/-- The value of a digit. -/
def digitValue (c : Byte) : Nat := (ascii "0123456789").idxOf c

/-- The number written by digits. -/
def decimalValue : List Byte → Nat
  | [] => 0
  | d :: ds => digitValue d * 10 ^ ds.length + decimalValue ds

/-- `s` starts with an optional sign and the decimal digits of `v`, after white space, and whatever follows does not start with
a digit. -/
def StartsWithInt (s : List Byte) (v : Int) : Prop :=
  ∃ ws sign ds tail, s = ws ++ sign ++ ds ++ tail ∧ (∀ c ∈ ws, Blank c) ∧ (sign = [] ∨ sign = ascii "-" ∨ sign = ascii "+") ∧
    ds ≠ [] ∧ (∀ c ∈ ds, Digit c) ∧ (∀ c, tail.head? = some c → ¬ Digit c) ∧
    v = if sign = ascii "-" then -(decimalValue ds : Int) else decimalValue ds

end Cloudini
