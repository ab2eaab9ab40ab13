import Verif.Model.Calls
import Verif.Model.Grammar
import Verif.Spec.Dependencies

/-!
# Which functions an expression calls
-/

namespace Schnek.Spec

open Schnek.Deck Schnek.Deck.DepMap Relation

variable {F W : Type}

mutual

/-- The functions in an expression, in the order of evaluation: from the left to the right, the arguments before the function. -/
def functionsIn : Expr F W → List (Func F W)
  | .value _ => []
  | .ref _ _ => []
  | .ext _ _ => []
  | .unary _ e => functionsIn e
  | .binary _ es => functionsInTerms es
  | .cast _ e => functionsIn e
  | .call f args => functionsInArgs args ++ [f]

/-- in the operands -/
def functionsInTerms : Terms F W → List (Func F W)
  | .nil => []
  | .cons _ e es => functionsIn e ++ functionsInTerms es

/-- in the arguments -/
def functionsInArgs : Args F W → List (Func F W)
  | .nil => []
  | .cons e es => functionsIn e ++ functionsInArgs es

end

/-- The names of the functions called in a text: identifiers with a bracket behind them. -/
def calledNames : List (Token F) → List String
  | .ident n :: .lbracket :: l => n :: calledNames l
  | _ :: l => calledNames l
  | [] => []

/-- Calls one after the other: the first finds the outside world in the state `w`, each other one in the state the one before it has left
behind, and the last leaves `w'`. -/
def InSequence (eff : Func F W → W → List (Val F) → W) : W → List (Call F W) → W → Prop
  | w, [], w' => w' = w
  | w, c :: cs, w' => c.world = w ∧ InSequence eff (eff c.f w c.args) cs w'

/-- What can happen to an updater when functions change the outside world. As `History`, without any claim on the values. -/
inductive HistoryE (O : FloatOps F) (eff : Func F W → W → List (Val F) → W) (expr : Var → Expr F W) (D : DepMap) (dummy : Var) (t : Tree) :
    Updater → State F W → Prop
  | create (σ : State F W) : DepMap.create σ expr dummy t = some D → GoodIds σ → (∃ x, expr dummy = .ext .int x) →
      HistoryE O eff expr D dummy t (Updater.create dummy) σ
  | independent {U U' σ} (p : Param) : HistoryE O eff expr D dummy t U σ → Node σ dummy t p.var → U.addIndependent p = some U' →
      HistoryE O eff expr D dummy t U' σ
  | dependent {U σ} (p : Param) : HistoryE O eff expr D dummy t U σ → p.var ∈ allVars t → Separate σ expr dummy t p →
      HistoryE O eff expr D dummy t (U.addDependent σ p).1 (U.addDependent σ p).2
  | clear {U σ} : HistoryE O eff expr D dummy t U σ → HistoryE O eff expr D dummy t U.clearDependent σ
  | change {U σ σ'} : HistoryE O eff expr D dummy t U σ → σ'.id = σ.id → σ'.fixed = σ.fixed → HistoryE O eff expr D dummy t U σ'
  | update {U U' σ σ'} (n : ℕ) (ok : Bool) : HistoryE O eff expr D dummy t U σ →
      (U.updateE O eff expr D n σ).result = some (U', σ', ok) → HistoryE O eff expr D dummy t U' σ'

end Schnek.Spec
