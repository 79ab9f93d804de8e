import Verif.Model.Cdr

/-!
# The CDR wire format
-/

namespace Cloudini.Cdr

/-- What a message consists of: numbers (their size in bytes and bit pattern) and bytes that are not aligned. -/
inductive Atom where
  | num (n v : Nat)
  | raw (x : List Byte)
  deriving DecidableEq, Repr

/-- A string is its length including the terminating NUL, its bytes and the NUL; a byte vector its length and its bytes; a vector its
length and its items; an array or a structure its items. -/
def atoms : (t : Ty) → t.Val → List Atom
  | .u8, v => [.num 1 (BitVec.toNat v)]
  | .u16, v => [.num 2 (BitVec.toNat v)]
  | .u32, v => [.num 4 (BitVec.toNat v)]
  | .u64, v => [.num 8 (BitVec.toNat v)]
  | .str, v => [.num 4 (List.length (α := Byte) v + 1), .raw (List.append (α := Byte) v [0#8])]
  | .buf, v => [.num 4 (List.length (α := Byte) v), .raw v]
  | .vec t, v => .num 4 (List.length (α := t.Val) v) :: List.flatMap (α := t.Val) (atoms t) v
  | .arr _ t, v => v.1.flatMap (atoms t)
  | .unit, _ => []
  | .pair a b, v => atoms a v.1 ++ atoms b v.2

/-- The alignment of a number of `n` bytes: its size, except that XCDR2 aligns 8-byte numbers to 4. -/
def alignOf (h : Header) (n : Nat) : Nat := if n = 8 then (if h.version = .xcdr2 then 4 else 8) else n

/-- The `n` bytes of a number, least significant first, or most significant first in a big-endian message. -/
def numBytes (h : Header) (n v : Nat) : List Byte := if h.big then (toLE n v).reverse else toLE n v

/-- The atoms one after the other from offset `pos` on (counted behind the 4-byte header): in front of each number the least number of
zero bytes that aligns it. -/
inductive Laid (h : Header) : Nat → List Atom → List Byte → Prop
  | nil (pos : Nat) : Laid h pos [] []
  | num (pos n v pad : Nat) (as : List Atom) (rest : List Byte) : pad < alignOf h n → (pos + pad) % alignOf h n = 0 →
      Laid h (pos + pad + n) as rest → Laid h pos (.num n v :: as) (List.replicate pad 0#8 ++ numBytes h n v ++ rest)
  | raw (pos : Nat) (x : List Byte) (as : List Atom) (rest : List Byte) : Laid h (pos + x.length) as rest → Laid h pos (.raw x :: as) (x ++ rest)

/-- All items satisfy `p`. -/
def allOf {α : Type} (p : α → Prop) (l : List α) : Prop := ∀ x ∈ l, p x

/-- Every length fits its 32-bit length field. -/
def Fits : (t : Ty) → t.Val → Prop
  | .str, v => List.length (α := Byte) v + 1 < 2 ^ 32
  | .buf, v => List.length (α := Byte) v < 2 ^ 32
  | .vec t, v => List.length (α := t.Val) v < 2 ^ 32 ∧ allOf (α := t.Val) (Fits t) v
  | .arr _ t, v => allOf (Fits t) v.1
  | .pair a b, v => Fits a v.1 ∧ Fits b v.2
  | _, _ => True

/-- The decoder, told to expect `default`, takes a message with this header for what the encoder made of it: the encapsulation flag says
XCDR2 iff the encoder used the XCDR2 alignment, and any flag other than PLAIN_CDR needs a decoder told to expect more than DDS CDR. -/
def Compatible (h : Header) (default : Version) : Prop :=
  (h.flag = .plain2 ↔ h.version = .xcdr2) ∧ (h.flag ≠ .plain → default ≠ .dds)

end Cloudini.Cdr
