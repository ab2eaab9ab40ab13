import Verif.Spec.MixedSettings
import Verif.Model.NumberText

/-!
# A setup file made by a program: declarations of integers, floating point numbers and strings
-/

namespace Schnek.Spec.SettingsText

open Schnek.Scanner Schnek.Spec.Lexer Schnek.Diagnostic Schnek.Deck Schnek.NumberText

/-- `int name = value;`, `double name = value;` or `string name = "value";`, and a line break -/
def typedText (s : String × Val ℚ) : List Byte :=
  match s.2 with
  | .int v => bytes "int " ++ bytes s.1 ++ bytes " = " ++ bytes (String.ofList (decimal v)) ++ bytes ";\n"
  | .float x => bytes "double " ++ bytes s.1 ++ bytes " = " ++ bytes (showFloat x) ++ bytes ";\n"
  | .str t => bytes "string " ++ bytes s.1 ++ bytes " = \"" ++ bytes t ++ bytes "\";\n"

/-- one line for each setting -/
def typedSettingsText (l : List (String × Val ℚ)) : List Byte := l.flatMap typedText

/-- The value can be written in a setup file. A floating point number is one whose text has a point or an exponent. -/
def CanBeStored : Val ℚ → Prop
  | .int v => -2 ^ 31 < v ∧ v < 2 ^ 31
  | .float x => Binary64.IsDouble x ∧ ∃ c ∈ (showFloat x).toList, c = '.' ∨ c = 'e'
  | .str t => IsText t

example : typedSettingsText [("nx", .int 100), ("dx", .float (-1 / 1024)), ("output", .str "out #p.h5")] =
    bytes "int nx = 100;\ndouble dx = -0.0009765625;\nstring output = \"out #p.h5\";\n" := by
  decide +kernel

end Schnek.Spec.SettingsText
