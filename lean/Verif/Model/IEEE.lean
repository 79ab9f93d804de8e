import Mathlib.Algebra.Order.Field.Power
import Mathlib.Data.Rat.Floor
import Verif.Model.Types

/-!
# IEEE-754 arithmetic behind the lossy float codecs

The operations of `float` and `double` that field_encoder.hpp:103, 350, field_encoder.cpp:34, 49-50, field_decoder.hpp:346
and field_decoder.cpp:66 perform, on bit patterns, as x86-64 SSE executes them in the default rounding mode (round to
nearest, ties to even; no flush-to-zero; `FLT_EVAL_METHOD = 0`, no `-ffast-math`: CMakeLists.txt:1-60).  A finite bit
pattern denotes a rational number (`Fmt.val`); a result is the exact rational result rounded once (`Fmt.round`).
`Verif.Props.C11_C12` proves that `round` is the nearest representable number with ties to even, so nothing here needs to be
taken on trust beyond "the hardware follows IEEE-754".
-/

namespace Cloudini.IEEE

/-- A binary interchange format: `mb` stored mantissa bits, `eb` exponent bits, smallest positive number `2^lo`. -/
structure Fmt where
  mb : Nat
  eb : Nat
  lo : Int

/-- `float` -/
def b32 : Fmt := ⟨23, 8, -149⟩
/-- `double` -/
def b64 : Fmt := ⟨52, 11, -1074⟩

namespace Fmt
variable (F : Fmt)

/-- Bit pattern of +infinity. -/
def inf : Nat := (2 ^ F.eb - 1) * 2 ^ F.mb
/-- Weight of the sign bit. -/
def sgn : Nat := 2 ^ (F.mb + F.eb)
/-- The pattern without its sign. -/
def mag (x : Nat) : Nat := x % F.sgn
/-- The sign bit. -/
def neg (x : Nat) : Bool := decide (F.sgn ≤ x)
def isNaN (x : Nat) : Bool := decide (F.inf < F.mag x)
def isInf (x : Nat) : Bool := decide (F.mag x = F.inf)
def isFin (x : Nat) : Bool := decide (F.mag x < F.inf)

/-- The number denoted by a finite pattern without sign: subnormal `m * 2^lo`, normal `1.m * 2^e`. -/
def magVal (m : Nat) : ℚ :=
  if m / 2 ^ F.mb = 0 then (m : ℚ) * 2 ^ F.lo
  else ((m % 2 ^ F.mb + 2 ^ F.mb : Nat) : ℚ) * 2 ^ ((m / 2 ^ F.mb : Nat) - 1 + F.lo : Int)

/-- The number denoted by a finite pattern. -/
def val (x : Nat) : ℚ := if F.neg x then -F.magVal (F.mag x) else F.magVal (F.mag x)

end Fmt

/-- The exponent of a positive rational: `2^k ≤ q < 2^(k+1)`. -/
def ilog2 (q : ℚ) : Int :=
  let k : Int := (Nat.log2 q.num.toNat : Int) - (Nat.log2 q.den : Int)
  if (2 : ℚ) ^ k ≤ q then k else k - 1

/-- Nearest integer, ties to even: the rounding of `_mm_round_ps(_MM_FROUND_TO_NEAREST_INT)`. -/
def roundEven (q : ℚ) : Int :=
  if q - ⌊q⌋ < 1 / 2 then ⌊q⌋
  else if 1 / 2 < q - ⌊q⌋ then ⌊q⌋ + 1
  else if ⌊q⌋ % 2 = 0 then ⌊q⌋ else ⌊q⌋ + 1

/-- Nearest integer, ties away from zero: `std::round`. -/
def roundAway (q : ℚ) : Int := if 0 ≤ q then ⌊q + 1 / 2⌋ else -⌊-q + 1 / 2⌋

namespace Fmt
variable (F : Fmt)

/-- Round a non-negative rational to the format (ties to even, overflow to infinity, gradual underflow): the pattern without
sign. -/
def round (q : ℚ) : Nat :=
  if q = 0 then 0
  else
    let e := max (ilog2 q - F.mb) F.lo
    min ((e - F.lo).toNat * 2 ^ F.mb + (roundEven (q / 2 ^ e)).toNat) F.inf

/-- The pattern of a rounded result with the given sign. -/
def ofRat (s : Bool) (q : ℚ) : Nat := (if s then F.sgn else 0) + F.round |q|
/-- Signed zero and infinity. -/
def zero (s : Bool) : Nat := if s then F.sgn else 0
def infinity (s : Bool) : Nat := (if s then F.sgn else 0) + F.inf
/-- A NaN operand is returned with its quiet bit set. -/
def quiet (x : Nat) : Nat := x ||| 2 ^ (F.mb - 1)
/-- The NaN an invalid operation produces on x86 ("real indefinite"). -/
def indefinite : Nat := F.sgn + F.inf + 2 ^ (F.mb - 1)

/-- `a * b` (`mulss`/`mulsd`/one lane of `mulps`). -/
def mul (a b : Nat) : Nat :=
  if F.isNaN a then F.quiet a
  else if F.isNaN b then F.quiet b
  else
    let s := F.neg a != F.neg b
    if F.isInf a then (if F.mag b = 0 then F.indefinite else F.infinity s)
    else if F.isInf b then (if F.mag a = 0 then F.indefinite else F.infinity s)
    else F.ofRat s (F.val a * F.val b)

/-- `1.0 / a` -/
def recip (a : Nat) : Nat :=
  if F.isNaN a then F.quiet a
  else if F.isInf a then F.zero (F.neg a)
  else if F.mag a = 0 then F.infinity (F.neg a)
  else F.ofRat (F.neg a) (1 / F.val a)

/-- Conversion of an integer (`cvtsi2ss`, `cvtsi2sd`, `cvtdq2ps`). -/
def ofInt (z : Int) : Nat := F.ofRat (decide (z < 0)) z

/-- `a <= 0.0`: false for NaN. -/
def le0 (a : Nat) : Bool := !F.isNaN a && (F.neg a || decide (F.mag a = 0))

end Fmt

/-- `cvtss2sd`: a `float` as a `double` (a NaN keeps its payload, quieted). -/
def widen (x : Nat) : Nat :=
  if b32.isNaN x then b64.quiet (b64.infinity (b32.neg x) + (b32.mag x - b32.inf) * 2 ^ 29)
  else if b32.isInf x then b64.infinity (b32.neg x)
  else b64.ofRat (b32.neg x) (b32.val x)

/-- `cvtsd2ss`: a `double` rounded to `float`. -/
def narrow (x : Nat) : Nat :=
  if b64.isNaN x then b32.quiet (b32.infinity (b64.neg x) + (b64.mag x - b64.inf) / 2 ^ 29)
  else if b64.isInf x then b32.infinity (b64.neg x)
  else b32.ofRat (b64.neg x) (b64.val x)

/-- field_encoder.hpp:350 `static_cast<int64_t>(std::round(p))`: undefined unless the rounded number is an `int64_t`. -/
def toI64 (F : Fmt) (p : Nat) : Option (BitVec 64) :=
  if F.isFin p ∧ -2 ^ 63 ≤ roundAway (F.val p) ∧ roundAway (F.val p) < 2 ^ 63
  then some (BitVec.ofInt 64 (roundAway (F.val p))) else none

/-- intrinsics.hpp:291-297 one lane of `_mm_cvtps_epi32(_mm_round_ps(p))`: out of range (or NaN) gives INT_MIN. -/
def toI32 (p : Nat) : BitVec 32 :=
  if b32.isFin p ∧ -2 ^ 31 ≤ roundEven (b32.val p) ∧ roundEven (b32.val p) < 2 ^ 31
  then BitVec.ofInt 32 (roundEven (b32.val p)) else BitVec.intMin 32

/-- field_encoder.hpp:102: `multiplier_(1.0 / resolution)` for `float`: a `double` division, rounded to `float`. -/
def mult32 (r : BitVec 32) : Nat := narrow (b64.recip (widen r.toNat))
/-- field_encoder.hpp:102 for `double`. -/
def mult64 (r : BitVec 32) : Nat := b64.recip (widen r.toNat)
/-- field_encoder.cpp:34: `1.0F / resolution`. -/
def multV (r : BitVec 32) : Nat := b32.recip r.toNat

/-- The float arithmetic of the library on x86-64. -/
def ops : FloatOps where
  -- field_encoder.hpp:103, field_decoder.hpp:115
  resNonPos r := b32.le0 r.toNat
  -- field_encoder.cpp:34-35
  invNonPos r := b32.le0 (multV r)
  -- field_encoder.hpp:350
  quant32 r x := toI64 b32 (b32.mul x.toNat (mult32 r))
  -- field_decoder.hpp:346
  dequant32 r n := BitVec.ofNat 32 (b32.mul (b32.ofInt n.toInt) r.toNat)
  quant64 r x := toI64 b64 (b64.mul x.toNat (mult64 r))
  dequant64 r n := BitVec.ofNat 64 (b64.mul (b64.ofInt n.toInt) (widen r.toNat))
  -- field_encoder.cpp:49-50
  quantV r x := toI32 (b32.mul x.toNat (multV r))
  -- field_decoder.cpp:66
  dequantV r n := BitVec.ofNat 32 (b32.mul (b32.ofInt n.toInt) r.toNat)

end Cloudini.IEEE
