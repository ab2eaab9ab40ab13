import Verif.Spec.Blocks
import Verif.Spec.Dependencies
import Verif.Spec.Deck

/-!
# A program that works with the formulas of a setup file
-/

namespace Schnek.Spec

open Schnek.Deck

variable {F W : Type}

/-- What the program gets for a parameter it has registered: the variable of the file that belongs to it, and the program's own
variable. Constants have none. -/
def Handle (D : DeckState F W) (p : Param) : Prop :=
  ∃ (k : ℕ) (B : Block) (n : String) (q : BlockParam) (x : Variable F W), D.tree.blocks[k]? = some B ∧ (n, q) ∈ B.params ∧
    D.heap[q.var]? = some x ∧ q.target = some p.target ∧ p.var = q.var ∧ p.readOnly = x.readOnly

/-- The file `D` is read and a dependency map of all its variables has been made. -/
def MapOf (D : DeckState F W) (M : DepMap) : Prop :=
  DepMap.create D.withDummy.state D.withDummy.expr D.heap.length
    (DeckState.blockTree D.withDummy.store D.withDummy.store.blocks.length 0) = some M

/-- What the program can do afterwards with an updater for the map `M`. In the beginning, its variables hold anything, except that those
of read-only parameters have not changed since the file was read. After that, it adds parameters and removes them, changes its own
variables, those of read-only parameters only if they are independent, and calls `update`, which may throw. `D.nextExt` is the variable
of the map itself, which the program does not know. -/
inductive Session (O : FloatOps F) (D : DeckState F W) (M : DepMap) : Updater → State F W → Prop
  | start (f : ℕ → Val F) : (∀ p, Handle D p → p.readOnly = true → f p.target = D.ext p.target) →
      Session O D M (Updater.create D.heap.length) { D.withDummy.state with ext := Function.update f D.nextExt (.int 0) }
  | independent {U U' σ} (p : Param) : Session O D M U σ → Handle D p → U.addIndependent p = some U' → Session O D M U' σ
  | dependent {U σ} (p : Param) : Session O D M U σ → Handle D p → p.readOnly = false →
      Session O D M (U.addDependent σ p).1 (U.addDependent σ p).2
  | clear {U σ} : Session O D M U σ → Session O D M U.clearDependent σ
  | change {U σ} (f : ℕ → Val F) (w : W) : Session O D M U σ →
      (∀ p, Handle D p → p.readOnly = true → p.var ∉ U.independent → f p.target = σ.ext p.target) →
      Session O D M U { σ with ext := Function.update f D.nextExt (.int 0), world := w }
  | update {U U' σ σ'} (n : ℕ) : Session O D M U σ → U.update O D.withDummy.expr M n σ = some (U', σ') → Session O D M U' σ'
  | failed {U U' σ σ'} (n : ℕ) : Session O D M U σ → U.updateThrow O D.withDummy.expr M n σ = some (U', σ') → Session O D M U' σ'

/-- The value that the file gives to the variable `v` when the program is in the state `σ`: that of a constant, or the result of the
formula, applied to the values that the file gives to the variables in it. The formula of a read-only parameter is the program's
variable. -/
inductive ValueOf (O : FloatOps F) (D : DeckState F W) (σ : State F W) : ℕ → Val F → Prop
  | constant {v : ℕ} {x : Variable F W} : D.heap[v]? = some x → x.fixed = true → ValueOf O D σ v x.value
  | formula {v : ℕ} {e : Expr F W} {a : Val F} (f : ℕ → Val F) : DefinedBy D v e → (∀ u ∈ mentioned e, ValueOf O D σ u (f u)) →
      e.eval O { σ with value := f } = some a → ValueOf O D σ v a

end Schnek.Spec
