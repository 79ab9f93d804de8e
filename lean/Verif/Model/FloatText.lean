import Verif.Model.IEEE
import Verif.Model.Header

/-!
# Floats as text

`std::ostream << float` in the default format (cloudini.cpp:184: precision 6, no flags: the conversion `%g` of C) and
`std::stof` (cloudini.cpp:223: `strtof`, exceptions from `errno`), with exact decimal conversions and correct rounding as glibc does them.
The locale is "C" (the tools never call `setlocale`).
-/

namespace Cloudini.FloatTxt
open IEEE

/-- The decimal exponent of a positive rational: `10^k ≤ q < 10^(k+1)`. -/
def ilog10 (q : ℚ) : Int :=
  let k : Int := ((decimal q.num.toNat).length : Int) - ((decimal q.den).length : Int)
  if (10 : ℚ) ^ k ≤ q then k else k - 1

/-- C11 7.21.6.1 `%e` with precision 5: six digits `n` and the exponent `X`, the value being `n * 10^(X-5)`; the exact value is rounded to nearest,
ties to even, with a carry into the exponent. -/
def six (q : ℚ) : Nat × Int :=
  let k := ilog10 q
  let n := (roundEven (q / 10 ^ (k - 5))).toNat
  if n = 1000000 then (100000, k + 1) else (n, k)

/-- `%g` drops trailing zeros of the fraction. -/
def strip (ds : List Byte) : List Byte := (ds.reverse.dropWhile (· = 0x30#8)).reverse

/-- The fraction, with its point if anything is left of it. -/
def fraction (ds : List Byte) : List Byte := if strip ds = [] then [] else 0x2E#8 :: strip ds

/-- C11 7.21.6.1 `%g` with precision 6: style `f` if `-4 ≤ X < 6`, otherwise style `e` (at least two exponent digits). -/
def formatG (n : Nat) (X : Int) : List Byte :=
  let ds := decimal n
  if X < -4 ∨ 6 ≤ X then
    ds.take 1 ++ fraction (ds.drop 1) ++ [0x65#8, if X < 0 then 0x2D#8 else 0x2B#8] ++ (if X.natAbs < 10 then [0x30#8] else []) ++ decimal X.natAbs
  else if X < 0 then ascii "0" ++ fraction (List.replicate (X.natAbs - 1) 0x30#8 ++ ds)
  else ds.take (X.toNat + 1) ++ fraction (ds.drop (X.toNat + 1))

/-- cloudini.cpp:184 `yaml << field.resolution.value()`. -/
def print (r : BitVec 32) : List Byte :=
  (if b32.neg r.toNat then [0x2D#8] else []) ++
  (if b32.isNaN r.toNat then ascii "nan"
   else if b32.isInf r.toNat then ascii "inf"
   else if b32.mag r.toNat = 0 then ascii "0"
   else formatG (six (b32.magVal (b32.mag r.toNat))).1 (six (b32.magVal (b32.mag r.toNat))).2)

/-- An exponent part after the digits: `e` or `E` (`p` or `P` after hexadecimal digits), optional sign, digits; 0 if there is none. -/
def exponent (l u : Byte) : List Byte → Int
  | [] => 0
  | c :: t =>
    if c = l ∨ c = u then
      let p := takeSign t
      let n := number (p.2.takeWhile isDigit)
      if p.1 then -(n : Int) else n
    else 0

/-- The digits after a point, and what follows them. -/
def afterPoint (dig : Byte → Bool) : List Byte → List Byte × List Byte
  | [] => ([], [])
  | c :: t => if c = 0x2E#8 then (t.takeWhile dig, t.dropWhile dig) else ([], c :: t)

/-- `strtof`, a decimal number without sign: `none` if there is no digit. -/
def scanDec (t : List Byte) : Option ℚ :=
  let ip := t.takeWhile isDigit
  let p := afterPoint isDigit (t.dropWhile isDigit)
  if ip = [] ∧ p.1 = [] then none
  else some ((number (ip ++ p.1) : ℚ) * 10 ^ (exponent 0x65#8 0x45#8 p.2 - p.1.length))

/-- A hexadecimal digit and its value. -/
def isHex (c : Byte) : Bool := isDigit c || (65 ≤ c.toNat && c.toNat ≤ 70) || (97 ≤ c.toNat && c.toNat ≤ 102)
def hexNumber (ds : List Byte) : Nat :=
  ds.foldl (fun acc c => 16 * acc + (if isDigit c then c.toNat - 48 else if c.toNat ≤ 70 then c.toNat - 55 else c.toNat - 87)) 0

/-- `strtof`, what follows `0x`. -/
def scanHex (t : List Byte) : Option ℚ :=
  let ip := t.takeWhile isHex
  let p := afterPoint isHex (t.dropWhile isHex)
  if ip = [] ∧ p.1 = [] then none
  else some ((hexNumber (ip ++ p.1) : ℚ) * 2 ^ (exponent 0x70#8 0x50#8 p.2 - 4 * p.1.length))

/-- `strtof` rounds correctly; `std::stof` throws `std::out_of_range` if it set `errno` to ERANGE: the result overflows, or is subnormal and inexact.
Simplification: a number that rounds up to the smallest normal number does not count as underflow here (glibc decides that by the result rounded
with unbounded exponent). -/
def toFloat (neg : Bool) (q : ℚ) : Res (BitVec 32) :=
  let m := b32.round q
  if m = b32.inf then .throw "stof"
  else if m < 2 ^ 23 ∧ b32.magVal m ≠ q then .throw "stof"
  else .ok (BitVec.ofNat 32 ((if neg then b32.sgn else 0) + m))

/-- ASCII lower case. -/
def lower (c : Byte) : Byte := if 65 ≤ c.toNat ∧ c.toNat ≤ 90 then BitVec.ofNat 8 (c.toNat + 32) else c

/-- `strtof` after the sign. -/
def scan (t : List Byte) : Option ℚ :=
  if (t.take 2).map lower = ascii "0x" ∧ (scanHex (t.drop 2)).isSome then scanHex (t.drop 2) else scanDec t

/-- cloudini.cpp:223 `std::stof(res_str)`: white space, sign, `inf`, `nan` (any payload in parentheses is ignored) or a number; what follows is
ignored. -/
def parse (s : List Byte) : Res (BitVec 32) :=
  let p := takeSign (s.dropWhile isSpace)
  if (p.2.take 3).map lower = ascii "inf" then .ok (BitVec.ofNat 32 ((if p.1 then b32.sgn else 0) + b32.inf))
  else if (p.2.take 3).map lower = ascii "nan" then .ok (BitVec.ofNat 32 ((if p.1 then b32.sgn else 0) + b32.inf + 2 ^ 22))
  else match scan p.2 with
    | none => .throw "stof"
    | some q => toFloat p.1 q

/-- The conversions of the library. -/
def text : FloatText := ⟨print, parse⟩

end Cloudini.FloatTxt
