import Verif.Spec.DeckGrammar
import Mathlib.Data.Fin.VecNotation

/-!
# Statements of any length
-/

namespace Schnek.Spec

open Scanner (Kind)

/-- The operands that are a single token: the name of a variable, with a path or without, a number, or a string. -/
def operand : Fin 5 → Kind := ![.pathIdentifier, .identifier, .integer, .float, .string]

/-- `x = a ± a ± … ± a;` with these operands; `true` is plus. -/
def sumStatement (a : Fin 5) (l : List (Bool × Fin 5)) : List Kind :=
  [.identifier, .equal, operand a] ++ l.flatMap (fun x => [if x.1 then .plus else .minus, operand x.2]) ++ [.semicolon]

/-- `x = a * a / … * a;` with these operands; `true` is `*`. -/
def productStatement (a : Fin 5) (l : List (Bool × Fin 5)) : List Kind :=
  [.identifier, .equal, operand a] ++ l.flatMap (fun x => [if x.1 then .times else .divide, operand x.2]) ++ [.semicolon]

/-- `x = ((…(a)…));` with this many parentheses -/
def bracketStatement (a : Fin 5) (d : ℕ) : List Kind :=
  [.identifier, .equal] ++ List.replicate d .lbracket ++ [operand a] ++ List.replicate d .rbracket ++ [.semicolon]

/-- `x = f(a, a, …, a);` with these arguments -/
def callStatement (a : Fin 5) (l : List (Fin 5)) : List Kind :=
  [.identifier, .equal, .identifier, .lbracket, operand a] ++ l.flatMap (fun x => [.comma, operand x]) ++ [.rbracket, .semicolon]

/-- `x`, or `x = a` -/
def declared : Option (Fin 5) → List Kind
  | none => [.identifier]
  | some a => [.identifier, .equal, operand a]

/-- `int x, x = a, …, x;`, with one of the three types -/
def declStatement (t : Fin 3) (d : Option (Fin 5)) (l : List (Option (Fin 5))) : List Kind :=
  [(![.intDecl, .floatDecl, .stringDecl] : Fin 3 → Kind) t] ++ declared d ++ l.flatMap (fun x => .comma :: declared x) ++ [.semicolon]

end Schnek.Spec
