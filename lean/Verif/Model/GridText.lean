import Verif.Model.Array
import Verif.Model.NumberText

/-!
# The text that is written for grids and arrays

`Model/Array.lean` has the sequence of elements and separators that is written. Here is the text.
-/

namespace Schnek.GridText

open Schnek.Arrays Schnek.NumberText Schnek.Diagnostic Schnek.Binary64

/-- One item of the output: datastream.t 36 (`" "`), 81 (`std::endl`). `t` is `operator<<` of the type of the elements. -/
def pieceText {T : Type} (t : T → List Char) : Piece T → List Char
  | .val x => t x
  | .space => [' ']
  | .newline => ['\n']

/-- `out << grid`: datastream.t 40-184 -/
def gridText {T : Type} {n : ℕ} (t : T → List Char) (r : Range (n + 1)) (g : Idx (n + 1) → T) : List Char :=
  (streamGrid r g).flatMap (pieceText t)

/-- `out << array`: datastream.t 27-38 -/
def arrayText {T : Type} {n : ℕ} (t : T → List Char) (a : Fin n → T) : List Char := (streamArray a).flatMap (pieceText t)

/-- the first 6 significant digits of a positive number, as an integer, and the exponent of the first of them (for `double6`, datastream.t 56) -/
def significant6 (a : ℚ) : ℕ × ℤ :=
  let e := Int.log 10 a
  let m := (roundInt (a / 10 ^ (e - 5))).toNat
  if m = 10 ^ 6 then (10 ^ 5, e + 1) else (m, e)

/-- a positive number (for `double6`, datastream.t 56) -/
def showPos6 (a : ℚ) : List Char :=
  let (m, e) := significant6 a
  let ds := decimalNat m
  if e < -4 ∨ 6 ≤ e then ds.take 1 ++ fraction (ds.drop 1) ++ exponentText e
  else if e < 0 then '0' :: fraction (List.replicate (-e - 1).toNat '0' ++ ds)
  else ds.take (e.toNat + 1) ++ fraction (ds.drop (e.toNat + 1))

/-- `out << x` for `double`: the format `%.6g`, because nothing in the library sets the precision of a stream (diagnostic.t 57-61, where the
line that did is a comment). The sign of zero is ignored. -/
def double6 (x : ℚ) : List Char := if x = 0 then ['0'] else if x < 0 then '-' :: showPos6 (-x) else showPos6 x

end Schnek.GridText
