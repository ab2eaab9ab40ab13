import Verif.Model.VarLifetime
import Verif.Spec.Deck

/-!
# Which objects of a setup file lead to which
-/

namespace Schnek.Spec.VarLifetime

open Schnek.Deck Relation
open Schnek.Deck.VarLifetime (Mem)

variable {F W : Type}

/-- From a block one gets to the block around it, to the blocks in it and to its variables, from a variable to the variables its formula
mentions. -/
inductive Leads (D : DeckState F W) : Deck.VarLifetime.Node → Deck.VarLifetime.Node → Prop
  | up {p b : ℕ} : DirectlyIn D.store p b → Leads D (.block b) (.block p)
  | down {p b : ℕ} : DirectlyIn D.store p b → Leads D (.block p) (.block b)
  | var {b v : ℕ} {n : String} : Declares D.store b n v → Leads D (.block b) (.var v)
  | formula {v u : ℕ} {x : Variable F W} {e : Expr F W} : D.heap[v]? = some x → x.expression = some e → u ∈ mentioned e →
      Leads D (.var v) (.var u)

/-- The object is one from which one can come back to it. -/
def OnCycle (D : DeckState F W) (x : Deck.VarLifetime.Node) : Prop := TransGen (Leads D) x x

/-- The object was made while the file was read. -/
def Made (D : DeckState F W) : Deck.VarLifetime.Node → Prop
  | .block b => b < D.store.blocks.length
  | .var v => v < D.heap.length

/-- The run of a program after reading a file: it has the pointers `handles` to objects of the file, and does `ops` with pointers. -/
def Uses (P : Program F W) (deck : List (Stmt F)) (handles : List Deck.VarLifetime.Node) (ops : List Deck.VarLifetime.Op) (m : Mem F W) : Prop :=
  (∀ x ∈ handles, Made (P.after deck) x) ∧ (Mem.start (P.after deck) handles).run ops = some m

end Schnek.Spec.VarLifetime
