import Verif.Spec.Lexer
import Verif.Model.Scanner
import Verif.Model.Diagnostic

/-!
# A setup file made by a program: one declaration of an integer for each setting
-/

namespace Schnek.Spec.SettingsText

open Schnek.Scanner Schnek.Spec.Lexer Schnek.Diagnostic

/-- A name: letters, digits and underscores, beginning with a letter or an underscore, not a data type, and short enough for the buffer of
the scanner. -/
def IsName (name : String) : Prop :=
  (∃ a w, bytes name = a :: w ∧ letter a = true ∧ ∀ b ∈ w, letterOrDigit b = true) ∧ (∀ c ∈ name.toList, c.toNat < 256) ∧ name ∉ keywords ∧
    name.length < 127

/-- `int name = value;`, and a line break -/
def settingText (s : String × ℤ) : List Byte :=
  bytes "int " ++ bytes s.1 ++ bytes " = " ++ bytes (String.ofList (decimal s.2)) ++ bytes ";\n"

/-- one line for each setting -/
def settingsText (l : List (String × ℤ)) : List Byte := l.flatMap settingText

/-- `name = value;`, and a line break -/
def parameterText (s : String × ℤ) : List Byte :=
  bytes s.1 ++ bytes " = " ++ bytes (String.ofList (decimal s.2)) ++ bytes ";\n"

/-- one line for each parameter -/
def parametersText (l : List (String × ℤ)) : List Byte := l.flatMap parameterText

example : settingsText [("nx", 100), ("offset", -3)] = bytes "int nx = 100;\nint offset = -3;\n" := by decide +kernel

example : parametersText [("nx", 100), ("offset", -3)] = bytes "nx = 100;\noffset = -3;\n" := by decide +kernel

end Schnek.Spec.SettingsText
