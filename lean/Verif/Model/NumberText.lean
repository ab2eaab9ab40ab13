import Verif.Model.Binary64
import Verif.Model.Diagnostic
import Verif.Model.Expression

/-!
# Numbers and text

`boost::lexical_cast` between numbers and `std::string`, as it is called for the literals of a setup file (parsertoken.cpp 99, 113) and for
conversions (expression.hpp 354-381, 399-404). The library is not part of the repository: what is modelled is its documented behaviour, with the
classic locale and a C library that converts with correct rounding. An exception `bad_lexical_cast` is `none`. Infinities
and NaN are not values (Model/Binary64.lean), thus the texts `inf` and `nan`, which the library understands, are rejected here.
-/

namespace Schnek.NumberText

open Schnek.Binary64 Schnek.Diagnostic Schnek.Deck

/-- a sign, if there is one, and what follows; `true` for a minus -/
def sign : List Char → Bool × List Char
  | '-' :: r => (true, r)
  | '+' :: r => (false, r)
  | r => (false, r)

/-- the number with these decimal digits -/
def value (l : List Char) : ℕ := l.foldl (fun n c => 10 * n + (c.toNat - 48)) 0

/-- an optional sign and digits, up to the end -/
def signed (l : List Char) : Option ℤ :=
  let (neg, r) := sign l
  if r = [] ∨ r.any (fun c => !c.isDigit) then none else some (if neg then -(value r : ℤ) else value r)

/-- `boost::lexical_cast<int>(std::string)`: parsertoken.cpp 99, expression.hpp 366 -/
def readInt (s : String) : Option ℤ := (signed s.toList).bind checkInt

/-- the exponent of a number, if there is one -/
def exponent : List Char → Option ℤ
  | [] => some 0
  | c :: r => if c = 'e' ∨ c = 'E' then signed r else none

/-- the digits after a point, if there is one, and what follows -/
def afterPoint : List Char → List Char × List Char
  | [] => ([], [])
  | c :: r => if c = '.' then (r.takeWhile Char.isDigit, r.dropWhile Char.isDigit) else ([], c :: r)

/-- the exact value of a text, in units that are a power of ten: the number and the exponent -/
def parseFloat (l : List Char) : Option (ℤ × ℤ) :=
  let (neg, r) := sign l
  let i := r.takeWhile Char.isDigit
  let (f, r) := afterPoint (r.dropWhile Char.isDigit)
  if i = [] ∧ f = [] then none
  else (exponent r).map fun e => (if neg then -(value (i ++ f) : ℤ) else value (i ++ f), e - f.length)

/-- `boost::lexical_cast<double>(std::string)`: parsertoken.cpp 113, expression.hpp 374 -/
def readFloat (s : String) : Option ℚ := (parseFloat s.toList).bind fun (m, e) => fl (m * 10 ^ e)

/-- `boost::lexical_cast<std::string>(int)`: expression.hpp 380 -/
def showInt (i : ℤ) : String := String.ofList (decimal i)

/-- the first 17 significant digits of a positive number, as an integer, and the exponent of the first of them -/
def significant (a : ℚ) : ℕ × ℤ :=
  let e := Int.log 10 a
  let m := (roundInt (a / 10 ^ (e - 16))).toNat
  if m = 10 ^ 17 then (10 ^ 16, e + 1) else (m, e)

/-- without zeros at the end -/
def stripZeros (l : List Char) : List Char := (l.reverse.dropWhile (· == '0')).reverse

/-- the fractional part of a number -/
def fraction (f : List Char) : List Char := if stripZeros f = [] then [] else '.' :: stripZeros f

/-- the exponent, with at least two digits -/
def exponentText (e : ℤ) : List Char :=
  'e' :: (if e < 0 then '-' else '+') :: (if e.natAbs < 10 then '0' :: decimalNat e.natAbs else decimalNat e.natAbs)

/-- a positive number -/
def showPos (a : ℚ) : List Char :=
  let (m, e) := significant a
  let ds := decimalNat m
  if e < -4 ∨ 17 ≤ e then ds.take 1 ++ fraction (ds.drop 1) ++ exponentText e
  else if e < 0 then '0' :: fraction (List.replicate (-e - 1).toNat '0' ++ ds)
  else ds.take (e.toNat + 1) ++ fraction (ds.drop (e.toNat + 1))

/-- `boost::lexical_cast<std::string>(double)`: expression.hpp 381. The library calls `snprintf` with the format `%.17g`. -/
def showFloat (x : ℚ) : String :=
  String.ofList (if x = 0 then ['0'] else if x < 0 then '-' :: showPos (-x) else showPos x)

/-- these conversions, with any arithmetic -/
def withText (O : FloatOps ℚ) : FloatOps ℚ :=
  { O with showInt := showInt, showFloat := showFloat, readInt := readInt, readFloat := readFloat }

end Schnek.NumberText
