import Verif.Model.DiagnosticDeck
import Verif.Spec.Blocks
import Verif.Spec.Deck
import Verif.Spec.DeckText
import Verif.Spec.Lexer

/-!
# What a setup file says about a parameter
-/

namespace Schnek.Spec

open Schnek.Deck Schnek.Spec.Lexer
open Schnek.Scanner (Byte Tok bufSize)

variable {F W : Type}

/-- A program has read a setup file with these statements and has evaluated the parameters of the block `b` and the
blocks below it. `D` is the state after reading, `D'` the state in the end. -/
structure Configured (P : Program F W) (text : List Byte) (deck : List (Stmt F)) (b : ℕ) (D D' : DeckState F W) : Prop where
  statements : ∃ toks ending, Lex text 1 toks ending ∧ IsDeck P.host.ops toks deck
  read : Parses P.host P.begin text (.ok D)
  block : b < D.tree.blocks.length
  evaluated : D.evaluateParameters P.host b = some D'

/-- The block `k` is of a class that has these parameters, and perhaps others. -/
def HasParameters (classes : List (String × ClassDesc F)) (D : DeckState F W) (k : ℕ) (params : List (ParamSpec F)) : Prop :=
  ∃ (B : Block) (Bv : BlockVars) (d : ClassDesc F) (specs : List (ParamSpec F)), D.tree.blocks[k]? = some B ∧
    D.store.blocks[B.context]? = some Bv ∧ classes.lookup Bv.className = some d ∧ d.factory = some specs ∧ params ⊆ specs

/-- The last assignment to the variable `v` in the file is `n = g;`, and at that point of the file `g` is constant and has the value `val`, converted to the type `t`. -/
def LastGives (P : Program F W) (deck : List (Stmt F)) (v : ℕ) (t : Ty) (val : Val F) : Prop :=
  ∃ before n g rest path e x, deck = before ++ .assign n g :: rest ∧ Written ':' path n ∧
    Resolves (P.after before).store (P.after before).store.cursor path v ∧
    (∀ pre s post, rest = pre ++ s :: post → ¬ Assigns (P.after (before ++ .assign n g :: pre)) s v) ∧
    g.build ((P.after before).env P.host) = some e ∧ e.isConstant (P.after before).state = true ∧
    e.eval P.host.ops (P.after before).state = some x ∧ convert P.host.ops t x = some val

/-- The file gives the value `val` to the parameter `name` of the block `k`, which has the type `t`: by an assignment, or because there is none and
`val` is the default. -/
def Gives (P : Program F W) (deck : List (Stmt F)) (D : DeckState F W) (k : ℕ) (name : String) (t : Ty) (default : Option (Val F)) (val : Val F) :
    Prop :=
  ∃ v, FileVariable D k name v ∧
    (LastGives P deck v t val ∨ (∀ pre s post, deck = pre ++ s :: post → ¬ Assigns (P.after pre) s v) ∧ default = some val)

end Schnek.Spec
