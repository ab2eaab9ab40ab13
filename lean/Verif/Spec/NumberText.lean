import Mathlib.Data.Nat.Notation
import Mathlib.Data.Int.Notation
import Mathlib.Data.Rat.Defs
import Mathlib.Algebra.Order.Field.Rat

/-!
# Which texts are numbers
-/

namespace Schnek.Spec.NumberText

/-- a digit -/
def IsDigitOf (c : Char) (d : ℕ) : Prop := d < 10 ∧ c.toNat = '0'.toNat + d

/-- a sequence of decimal digits and the number it stands for -/
inductive Digits : List Char → ℕ → Prop
  | nil : Digits [] 0
  | snoc {l n c d} : Digits l n → IsDigitOf c d → Digits (l ++ [c]) (10 * n + d)

/-- a sign, or none -/
inductive Sign : List Char → ℤ → Prop
  | none : Sign [] 1
  | plus : Sign ['+'] 1
  | minus : Sign ['-'] (-1)

/-- an integer: digits, with or without a sign before -/
def IntText (s : List Char) (i : ℤ) : Prop := ∃ t k l n, s = t ++ l ∧ Sign t k ∧ l ≠ [] ∧ Digits l n ∧ i = k * n

/-- an exponent, or none -/
inductive Exponent : List Char → ℤ → Prop
  | none : Exponent [] 0
  | exp {c l e} : c = 'e' ∨ c = 'E' → IntText l e → Exponent (c :: l) e

/-- the fractional part of a number, with the point, or nothing; the digits -/
inductive Fraction : List Char → List Char → Prop
  | none : Fraction [] []
  | point (f : List Char) : Fraction ('.' :: f) f

/-- A number: digits with a point somewhere between them, before or after them, or without a point; a sign may come before, an exponent after. -/
def FloatText (s : List Char) (v : ℚ) : Prop := ∃ t k i p f n x e, s = t ++ i ++ p ++ x ∧ Sign t k ∧ Fraction p f ∧ i ++ f ≠ [] ∧
  Digits (i ++ f) n ∧ Exponent x e ∧ v = k * (n / 10 ^ f.length) * 10 ^ e

end Schnek.Spec.NumberText
