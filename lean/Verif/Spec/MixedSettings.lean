import Verif.Spec.SettingsText
import Verif.Model.Deck

/-!
# A setup file made by a program: declarations of integers and strings
-/

namespace Schnek.Spec.SettingsText

open Schnek.Scanner Schnek.Spec.Lexer Schnek.Diagnostic

/-- A text that can stand between double quotes: every double quote in it, and every backslash, is part of an escape; it is short enough for the
buffer of the scanner. -/
def IsText (text : String) : Prop := StringBody 34 (bytes text) ∧ (∀ c ∈ text.toList, c.toNat < 256) ∧ text.length ≤ 126

/-- the value of a setting -/
def settingValue : ℤ ⊕ String → Deck.Val ℚ
  | .inl v => .int v
  | .inr t => .str t

/-- `int name = value;` or `string name = "value";`, and a line break -/
def mixedText (s : String × (ℤ ⊕ String)) : List Byte :=
  match s.2 with
  | .inl v => bytes "int " ++ bytes s.1 ++ bytes " = " ++ bytes (String.ofList (decimal v)) ++ bytes ";\n"
  | .inr t => bytes "string " ++ bytes s.1 ++ bytes " = \"" ++ bytes t ++ bytes "\";\n"

/-- one line for each setting -/
def mixedSettingsText (l : List (String × (ℤ ⊕ String))) : List Byte := l.flatMap mixedText

/-- The value can be written in a setup file. -/
def CanBeWritten : ℤ ⊕ String → Prop
  | .inl v => -2 ^ 31 < v ∧ v < 2 ^ 31
  | .inr t => IsText t

example : mixedSettingsText [("nx", .inl 100), ("output", .inr "out #p.h5")] = bytes "int nx = 100;\nstring output = \"out #p.h5\";\n" := by
  decide +kernel

end Schnek.Spec.SettingsText
