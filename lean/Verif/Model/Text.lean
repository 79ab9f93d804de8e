import Verif.Model.Base

/-!
# Text primitives

Characters are bytes.  The C and C++ library functions used by the header code: `std::isspace` in the "C" locale,
`std::stoi`, extraction of integers from an `std::istringstream`, printing integers.
-/

namespace Cloudini

/-- The bytes of a string literal. -/
def ascii (s : String) : List Byte := s.toList.map fun c => BitVec.ofNat 8 c.toNat

/-- `std::isspace` in the "C" locale: space, \t, \n, \v, \f, \r. -/
def isSpace (b : Byte) : Bool := b.toNat = 32 || (9 ≤ b.toNat && b.toNat ≤ 13)

/-- `'0' <= c && c <= '9'` -/
def isDigit (b : Byte) : Bool := 48 ≤ b.toNat && b.toNat ≤ 57

/-- `std::ostream << n` for an unsigned integer or a non-negative `int`: decimal digits without leading zeros. -/
def decimal (n : Nat) : List Byte :=
  if n < 10 then [BitVec.ofNat 8 (48 + n)] else decimal (n / 10) ++ [BitVec.ofNat 8 (48 + n % 10)]

/-- The number written by decimal digits. -/
def number (ds : List Byte) : Nat := ds.foldl (fun acc d => 10 * acc + (d.toNat - 48)) 0

/-- An optional sign: whether it is '-' and the rest. -/
def takeSign : List Byte → Bool × List Byte
  | [] => (false, [])
  | c :: cs => if c.toNat = 45 then (true, cs) else if c.toNat = 43 then (false, cs) else (false, c :: cs)

/-- `std::stoi(s)` (base 10): leading white space, optional sign, at least one digit; what follows is ignored.  Throws
`std::invalid_argument` without digits and `std::out_of_range` when the value is not an `int`. -/
def stoi (s : List Byte) : Res Int :=
  let p := takeSign (s.dropWhile isSpace)
  let ds := p.2.takeWhile isDigit
  let v : Int := if p.1 then -(number ds : Int) else number ds
  if ds = [] then .throw "stoi: invalid_argument"
  else if v < -2 ^ 31 ∨ 2 ^ 31 ≤ v then .throw "stoi: out_of_range"
  else .ok v

/-- `std::istringstream(s) >> uint32_t` followed by the `fail()` check (yaml_parser.hpp:92-101): like `stoi` but unsigned; a
negative number wraps around (as `strtoul` does, libstdc++'s `_M_extract_int`). -/
def extractU32 (s : List Byte) : Res (BitVec 32) :=
  let p := takeSign (s.dropWhile isSpace)
  let ds := p.2.takeWhile isDigit
  if ds = [] then .throw "Failed to convert scalar"
  else if 2 ^ 32 ≤ number ds then .throw "Failed to convert scalar"
  else .ok (if p.1 then -BitVec.ofNat 32 (number ds) else BitVec.ofNat 32 (number ds))

/-- `std::istringstream(s) >> uint8_t`: one character after white space (yaml_parser.hpp:92-101 with `T = uint8_t`). -/
def extractU8 (s : List Byte) : Res Byte :=
  match s.dropWhile isSpace with
  | [] => .throw "Failed to convert scalar"
  | c :: _ => .ok c

end Cloudini
