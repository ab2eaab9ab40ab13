import Verif.Model.Deck
import Verif.Spec.Variables
import Verif.Spec.Dependencies

/-!
# Reading a setup file
-/

namespace Schnek.Spec

open Schnek.Deck Relation

variable {F W : Type}

/-- A program that reads a file: its functions, the classes of blocks it knows, the name and class of the root block, and its state. -/
structure Program (F W : Type) where
  host : Host F W
  name : String
  className : String
  classes : List (String × ClassDesc F)
  restr : Bool
  ext : ℕ → Val F
  world : W
  nextId : ℤ
  nextId_nonneg : 0 ≤ nextId

/-- The state before the first statement. -/
def Program.begin (P : Program F W) : DeckState F W :=
  DeckState.start P.host P.name P.className P.classes P.restr P.ext P.world P.nextId

/-- The state after some statements, or at the first error in them. -/
def Program.after (P : Program F W) (deck : List (Stmt F)) : DeckState F W := (P.begin.run P.host deck).2

/-- The statements are accepted. -/
def Program.Accepts (P : Program F W) (deck : List (Stmt F)) : Prop := (P.begin.run P.host deck).1 = true

/-- A block was made by a factory for the block `b` of the file. -/
def MadeFor (D : DeckState F W) (b k : ℕ) : Prop := ∃ B, D.tree.blocks[k]? = some B ∧ B.context = b

/-- `k` was made for the innermost of the blocks `b` and around `b` for which one was made. -/
def NearestMade (D : DeckState F W) (b k : ℕ) : Prop :=
  ∃ e, Encloses D.store e b ∧ MadeFor D e k ∧ ∀ e' k', Encloses D.store e' b → MadeFor D e' k' → Encloses D.store e' e

/-- The program knows how to make blocks of that class. -/
def HasFactory (classes : List (String × ClassDesc F)) (className : String) : Prop :=
  ∃ c specs, classes.lookup className = some c ∧ c.factory = some specs

/-- number of opening braces -/
def opened (deck : List (Stmt F)) : ℕ := deck.countP fun s => match s with
  | .start _ _ => true
  | _ => false

/-- number of closing braces -/
def closed (deck : List (Stmt F)) : ℕ := deck.countP fun s => match s with
  | .stop => true
  | _ => false

/-- `b` lies in exactly `n` blocks. -/
inductive Level (S : Storage) : ℕ → ℕ → Prop
  | root : Level S 0 0
  | inside {p b n} : DirectlyIn S p b → Level S p n → Level S b (n + 1)

/-- The variable belongs to a block of the file. -/
def Declared (D : DeckState F W) (v : ℕ) : Prop := ∃ b n, Declares D.store b n v

/-- The variable belongs to a block of the file, is not constant, and is defined by `e`. -/
def DefinedBy (D : DeckState F W) (v : ℕ) (e : Expr F W) : Prop :=
  Declared D v ∧ ∃ x, D.heap[v]? = some x ∧ x.fixed = false ∧ x.expression = some e

mutual

/-- The variables an expression mentions. -/
def mentioned : Expr F W → List ℕ
  | .value _ => []
  | .ref _ v => [v]
  | .ext _ _ => []
  | .unary _ e => mentioned e
  | .binary _ es => mentionedTerms es
  | .cast _ e => mentioned e
  | .call _ args => mentionedArgs args

/-- those of a list of operands -/
def mentionedTerms : Terms F W → List ℕ
  | .nil => []
  | .cons _ e es => mentioned e ++ mentionedTerms es

/-- those of a list of arguments -/
def mentionedArgs : Args F W → List ℕ
  | .nil => []
  | .cons e es => mentioned e ++ mentionedArgs es

end

/-- The definition of the non-constant variable `v` mentions the non-constant variable `u`. -/
def DependsOn (D : DeckState F W) (u v : ℕ) : Prop :=
  (∃ e, DefinedBy D u e) ∧ ∃ e, DefinedBy D v e ∧ u ∈ mentioned e

/-- The statement assigns something to the variable `v`. -/
def Assigns (D : DeckState F W) (s : Stmt F) (v : ℕ) : Prop :=
  ∃ n e path, s = .assign n e ∧ Written ':' path n ∧ Resolves D.store D.store.cursor path v

end Schnek.Spec
