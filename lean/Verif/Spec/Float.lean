import Mathlib.Data.Rat.Defs
import Mathlib.Algebra.Order.Field.Power
import Mathlib.Algebra.Order.Field.Rat
import Verif.Model.Types

/-!
# What the bits of a float mean (IEEE-754 binary32 and binary64)

The textbook definition, independent of `Verif.Model.IEEE`.
-/

namespace Cloudini.Props

/-- The number denoted by a finite `float`. -/
def real32 (x : BitVec 32) : ℚ :=
  let s : Nat := x.toNat / 2 ^ 31
  let e : Nat := x.toNat / 2 ^ 23 % 2 ^ 8
  let m : Nat := x.toNat % 2 ^ 23
  (-1) ^ s * (if e = 0 then (m : ℚ) * 2 ^ (-149 : Int) else (2 ^ 23 + m : ℚ) * 2 ^ ((e : Int) - 150))

/-- Neither infinite nor NaN: the exponent bits are not all ones. -/
def Finite32 (x : BitVec 32) : Prop := x.toNat / 2 ^ 23 % 2 ^ 8 ≠ 255

/-- The number denoted by a finite `double`. -/
def real64 (x : BitVec 64) : ℚ :=
  let s : Nat := x.toNat / 2 ^ 63
  let e : Nat := x.toNat / 2 ^ 52 % 2 ^ 11
  let m : Nat := x.toNat % 2 ^ 52
  (-1) ^ s * (if e = 0 then (m : ℚ) * 2 ^ (-1074 : Int) else (2 ^ 52 + m : ℚ) * 2 ^ ((e : Int) - 1075))

def Finite64 (x : BitVec 64) : Prop := x.toNat / 2 ^ 52 % 2 ^ 11 ≠ 2047

instance (x : BitVec 32) : Decidable (Finite32 x) := by unfold Finite32; infer_instance
instance (x : BitVec 64) : Decidable (Finite64 x) := by unfold Finite64; infer_instance

/-- A sensible resolution: a finite float between 2^-125 (about 2e-38) and 2^125. -/
def GoodRes (r : BitVec 32) : Prop := Finite32 r ∧ 2 ^ (-125 : Int) ≤ real32 r ∧ real32 r ≤ 2 ^ (125 : Int)

instance (r : BitVec 32) : Decidable (GoodRes r) := by unfold GoodRes; infer_instance

/-- `c` is the IEEE result for the exact number `q`: no finite float is closer, and of two equally close ones the one with
the even mantissa is taken. -/
def Nearest32 (c : BitVec 32) (q : ℚ) : Prop :=
  Finite32 c ∧ ∀ d, Finite32 d → |real32 c - q| ≤ |real32 d - q| ∧
    (real32 d ≠ real32 c → |real32 c - q| = |real32 d - q| → c.toNat % 2 = 0)
def Nearest64 (c : BitVec 64) (q : ℚ) : Prop :=
  Finite64 c ∧ ∀ d, Finite64 d → |real64 c - q| ≤ |real64 d - q| ∧
    (real64 d ≠ real64 c → |real64 c - q| = |real64 d - q| → c.toNat % 2 = 0)

/-- `n` is `std::round(q)`: a nearest integer, ties away from zero. -/
def RoundsAway (n : Int) (q : ℚ) : Prop := |(n : ℚ) - q| ≤ 1 / 2 ∧ (|(n : ℚ) - q| = 1 / 2 → |q| < |(n : ℚ)|)
/-- `n` is `q` rounded to nearest, ties to even. -/
def RoundsEven (n : Int) (q : ℚ) : Prop := |(n : ℚ) - q| ≤ 1 / 2 ∧ (|(n : ℚ) - q| = 1 / 2 → n % 2 = 0)

end Cloudini.Props
