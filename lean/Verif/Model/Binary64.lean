import Mathlib.Data.Int.Log
import Mathlib.Data.Rat.Floor
import Mathlib.Algebra.Order.Field.Power

/-!
# `double`

The type `double` of the C++ code, as IEEE 754 binary64 with rounding to nearest, ties to even, which is what the supported
compilers use (no `-ffast-math`, no extended precision of intermediate results). Values are rational numbers; infinities and NaN are not
values: an operation that would give one has no result here. `-0` and `0` are not distinguished.
-/

namespace Schnek.Binary64

/-- the nearest integer, the even one if there are two -/
def roundInt (x : ℚ) : ℤ :=
  if x - ⌊x⌋ < 1 / 2 then ⌊x⌋
  else if 1 / 2 < x - ⌊x⌋ then ⌊x⌋ + 1
  else if ⌊x⌋ % 2 = 0 then ⌊x⌋ else ⌊x⌋ + 1

/-- The spacing of the values of type `double` around `x` is `2 ^ spacing x`. -/
def spacing (x : ℚ) : ℤ := max (Int.log 2 |x| - 52) (-1074)

/-- `x` rounded, if there were no largest value -/
def rnd (x : ℚ) : ℚ := roundInt (x / 2 ^ spacing x) * 2 ^ spacing x

/-- the result of an operation whose exact result is `x` -/
def fl (x : ℚ) : Option ℚ := if |rnd x| < 2 ^ 1024 then some (rnd x) else none

/-- the values of a type like `double` that has no largest value -/
def IsFormat (x : ℚ) : Prop := ∃ m e : ℤ, |m| < 2 ^ 53 ∧ -1074 ≤ e ∧ x = m * 2 ^ e

/-- the values of type `double` -/
def IsDouble (x : ℚ) : Prop := IsFormat x ∧ |x| < 2 ^ 1024

/-- `a + b` -/
def add (a b : ℚ) : Option ℚ := fl (a + b)

/-- `a - b` -/
def sub (a b : ℚ) : Option ℚ := fl (a - b)

/-- `a * b` -/
def mul (a b : ℚ) : Option ℚ := fl (a * b)

/-- `a / b` -/
def div (a b : ℚ) : Option ℚ := if b = 0 then none else fl (a / b)

/-- `int(x)`: truncation; undefined if the result is not an `int` -/
def toInt (x : ℚ) : Option ℤ :=
  let k : ℤ := if 0 ≤ x then ⌊x⌋ else ⌈x⌉
  if -2 ^ 31 ≤ k ∧ k < 2 ^ 31 then some k else none

end Schnek.Binary64
