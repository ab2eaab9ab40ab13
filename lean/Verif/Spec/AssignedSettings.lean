import Verif.Spec.TypedSettings

/-!
# A setup file made by a program: assignments of integers, floating point numbers and strings to the
parameters of another program
-/

namespace Schnek.Spec.SettingsText

open Schnek.Scanner Schnek.Spec.Lexer Schnek.Diagnostic Schnek.Deck Schnek.NumberText

/-- `name = value;`, or `name = "value";` for a string, and a line break -/
def assignedText (s : String × Val ℚ) : List Byte :=
  match s.2 with
  | .int v => bytes s.1 ++ bytes " = " ++ bytes (String.ofList (decimal v)) ++ bytes ";\n"
  | .float x => bytes s.1 ++ bytes " = " ++ bytes (showFloat x) ++ bytes ";\n"
  | .str t => bytes s.1 ++ bytes " = \"" ++ bytes t ++ bytes "\";\n"

/-- one line for each setting -/
def assignedSettingsText (l : List (String × Val ℚ)) : List Byte := l.flatMap assignedText

/-- What a parameter of a given type gets from a value in the file: `ofInt` makes a floating point number from an integer. A number for a string
is its text, and a text for an integer is read as a number. -/
inductive Gives (ofInt : ℤ → ℚ) : Ty → Val ℚ → Val ℚ → Prop
  | same (v : Val ℚ) : Gives ofInt v.ty v v
  | ofInt (v : ℤ) : Gives ofInt .float (.int v) (.float (ofInt v))
  | number (v : ℤ) : Gives ofInt .str (.int v) (.str (String.ofList (decimal v)))
  | real (x : ℚ) : Gives ofInt .str (.float x) (.str (showFloat x))
  | digits {v : ℤ} (h1 : -2 ^ 31 ≤ v) (h2 : v < 2 ^ 31) : Gives ofInt .int (.str (String.ofList (decimal v))) (.int v)

example : assignedSettingsText [("nx", .int 100), ("dx", .float (1 / 4)), ("output", .str "out #p.h5")] = bytes "nx = 100;\ndx = 0.25;\noutput = \"out #p.h5\";\n" := by
  decide +kernel

end Schnek.Spec.SettingsText
