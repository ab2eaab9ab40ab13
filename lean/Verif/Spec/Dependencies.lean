import Verif.Model.Dependencies
import Verif.Spec.Expression
import Mathlib.Logic.Relation

/-!
# Dependencies between variables
-/

namespace Schnek.Spec

open Schnek.Deck Schnek.Deck.DepMap Relation

variable {F W : Type}

mutual

/-- All variables of a block and the blocks in it. -/
def allVars : Tree → List Var
  | .node vars children => vars ++ allVarsList children

/-- all variables of some blocks -/
def allVarsList : List Tree → List Var
  | [] => []
  | t :: ts => allVars t ++ allVarsList ts

end

/-- A variable of the tree that is not constant. -/
def NonConstant (σ : State F W) (t : Tree) (v : Var) : Prop := v ∈ allVars t ∧ σ.fixed v = false

/-- What takes part in updates: the non-constant variables, and the dummy that stands for "always". -/
def Node (σ : State F W) (dummy : Var) (t : Tree) (v : Var) : Prop := v = dummy ∨ NonConstant σ t v

/-- The definition of `v` mentions `u`; everything that calls a function to be updated always uses the dummy. -/
def Uses (σ : State F W) (expr : Var → Expr F W) (dummy u v : Var) : Prop :=
  σ.id u ∈ (expr v).deps σ ∨ (u = dummy ∧ -1 ∈ (expr v).deps σ)

/-- `v` depends directly on `u`. -/
def Edge (σ : State F W) (expr : Var → Expr F W) (dummy : Var) (t : Tree) (u v : Var) : Prop :=
  Node σ dummy t u ∧ NonConstant σ t v ∧ Uses σ expr dummy u v

/-- What an update has to evaluate: what depends on an independent variable and is needed for a dependent one. -/
def Relevant (σ : State F W) (expr : Var → Expr F W) (dummy : Var) (t : Tree) (indep dep : Finset Var) (v : Var) : Prop :=
  (∃ i ∈ indep, ReflTransGen (Edge σ expr dummy t) i v) ∧ (∃ d ∈ dep, ReflTransGen (Edge σ expr dummy t) v d)

/-- Ids are unique and not negative. -/
structure GoodIds (σ : State F W) : Prop where
  inj : Function.Injective σ.id
  nonneg : ∀ v, 0 ≤ σ.id v

/-- A variable holds the value of its definition. -/
def Current (O : FloatOps F) (expr : Var → Expr F W) (σ : State F W) (v : Var) : Prop :=
  (expr v).eval O σ = some (σ.value v)

/-- `u` is `d` or goes into the value of `d`, directly or not. -/
def Upstream (σ : State F W) (expr : Var → Expr F W) (dummy : Var) (t : Tree) (u d : Var) : Prop :=
  ReflTransGen (Edge σ expr dummy t) u d

/-- Between two calls the program may change everything behind the external values and whatever functions to be updated always
look at; an external value that is not that of an independent variable is not changed. -/
structure Change (σ σ' : State F W) (expr : Var → Expr F W) (dummy : Var) (t : Tree) (indep : Finset Var) : Prop where
  value : σ'.value = σ.value
  fixed : σ'.fixed = σ.fixed
  id : σ'.id = σ.id
  ext : ∀ v, Node σ dummy t v → v ∉ indep → ∀ x ∈ externals (expr v), σ'.ext x = σ.ext x

/-- A parameter that no definition reads back. -/
def Separate (σ : State F W) (expr : Var → Expr F W) (dummy : Var) (t : Tree) (p : Param) : Prop :=
  ∀ v, Node σ dummy t v → p.target ∉ externals (expr v)

/-- What can happen to an updater: it is created when all variables are current; parameters are added and removed, external values
change and `update` is called, which may fail. -/
inductive History (O : FloatOps F) (expr : Var → Expr F W) (D : DepMap) (dummy : Var) (t : Tree) :
    Updater → State F W → Prop
  | create (σ : State F W) : DepMap.create σ expr dummy t = some D → (∀ v, Node σ dummy t v → Current O expr σ v) →
      GoodIds σ → (∃ x, expr dummy = .ext .int x) → History O expr D dummy t (Updater.create dummy) σ
  | independent {U U' σ} (p : Param) : History O expr D dummy t U σ → Node σ dummy t p.var → U.addIndependent p = some U' →
      History O expr D dummy t U' σ
  | dependent {U σ} (p : Param) : History O expr D dummy t U σ → p.var ∈ allVars t → Separate σ expr dummy t p →
      (p.readOnly = false → ∀ q ∈ U.params, q ≠ p → q.target ≠ p.target) →
      History O expr D dummy t (U.addDependent σ p).1 (U.addDependent σ p).2
  | clear {U σ} : History O expr D dummy t U σ → History O expr D dummy t U.clearDependent σ
  | change {U σ σ'} : History O expr D dummy t U σ → Change σ σ' expr dummy t U.independent →
      History O expr D dummy t U σ'
  | update {U U' σ σ'} (n : ℕ) : History O expr D dummy t U σ → U.update O expr D n σ = some (U', σ') →
      History O expr D dummy t U' σ'
  | failed {U U' σ σ'} (n : ℕ) : History O expr D dummy t U σ → U.updateThrow O expr D n σ = some (U', σ') →
      History O expr D dummy t U' σ'

end Schnek.Spec
