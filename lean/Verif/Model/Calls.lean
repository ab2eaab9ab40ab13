import Verif.Model.Dependencies

/-!
# Model of evaluation with functions that change the outside world

The evaluation of expressions and `DependencyUpdater::update` once more, with what the calls of registered functions do: `Expr.eval` and
`Updater.update` take the state of the outside world as fixed during an update. Here every call may change it, as a generator of random
numbers or a counter does, and the calls are recorded.

`src/variables/expression.hpp`, `src/variables/function_expression.hpp`, `src/variables/dependencies.hpp`
-/

namespace Schnek.Deck

/-- A call of a registered function: in which state of the outside world, and with which arguments. -/
structure Call (F W : Type) where
  f : Func F W
  world : W
  args : List (Val F)

/-- What a piece of the program comes to: its result (`none` for an exception or undefined behaviour), the state of the outside world it
leaves behind, and the calls it has made, the first one first. -/
structure Outcome (F W α : Type) where
  result : Option α
  world : W
  calls : List (Call F W)

/-- A piece of the program, started in a state of the outside world. -/
abbrev Run (F W α : Type) := W → Outcome F W α

namespace Run

variable {F W α β : Type}

/-- no calls -/
def lift (x : Option α) : Run F W α := fun w => ⟨x, w, []⟩

/-- one after the other; an exception ends it -/
def bind (m : Run F W α) (k : α → Run F W β) : Run F W β := fun w =>
  match (m w).result with
  | none => ⟨none, (m w).world, (m w).calls⟩
  | some a => ⟨(k a (m w).world).result, (k a (m w).world).world, (m w).calls ++ (k a (m w).world).calls⟩

end Run

section

variable {F W : Type}

/-- `fusion::invoke(f, sArgs)`: function_expression.hpp 117. `eff f w args` is the state of the outside world after a call of `f` in the
state `w`; it is arbitrary. -/
def invoke (eff : Func F W → W → List (Val F) → W) (f : Func F W) (args : List (Val F)) : Run F W (Val F) :=
  fun w => ⟨f.call w args, eff f w args, [⟨f, w, args⟩]⟩

variable (O : FloatOps F) (eff : Func F W → W → List (Val F) → W) (σ : State F W)

mutual

/-- `eval()`: expression.hpp 137, 162-174, 199-203, 225, 314-328, 416-424; function_expression.hpp 159-162. `σ.world` is not used. -/
def Expr.evalE : Expr F W → Run F W (Val F)
  | .value v => Run.lift (some v)
  | .ref t v => Run.lift (if (σ.value v).ty = t then some (σ.value v) else none)
  | .ext t x => Run.lift (if (σ.ext x).ty = t then some (σ.ext x) else none)
  | .unary op e => (Expr.evalE e).bind fun v => Run.lift (op.eval O v)
  | .binary op es => Terms.evalFirstE op es
  | .cast t e => (Expr.evalE e).bind fun v => Run.lift (convert O t v)
  | .call f args => (Args.evalE args).bind (invoke eff f)

/-- `BinaryOp::eval()`: expression.hpp 314-328 -/
def Terms.evalFirstE (op : BinOp) : Terms F W → Run F W (Val F)
  | .nil => Run.lift none
  | .cons _ e es => (Expr.evalE e).bind fun v => Terms.evalRestE op es v

/-- the loop of `BinaryOp::eval()`: expression.hpp 321-326 -/
def Terms.evalRestE (op : BinOp) : Terms F W → Val F → Run F W (Val F)
  | .nil, val => Run.lift (some val)
  | .cons pos e es, val => (Expr.evalE e).bind fun w =>
      (Run.lift ((if pos then op.positive else op.negative).eval O val w)).bind fun val' => Terms.evalRestE op es val'

/-- the arguments of a function, from the left to the right: function_expression.hpp 140-147 -/
def Args.evalE : Args F W → Run F W (List (Val F))
  | .nil => Run.lift (some [])
  | .cons e es => (Expr.evalE e).bind fun v => (Args.evalE es).bind fun vs => Run.lift (some (v :: vs))

end

end

section

variable {F W : Type} (O : FloatOps F) (eff : Func F W → W → List (Val F) → W) (expr : Var → Expr F W) (D : DepMap)

/-- first loop of `DependencyUpdater::update`: dependencies.hpp 144, with `Variable::evaluateExpression`, variables.cpp 119-124. The result
tells whether the loop came to its end (otherwise there was an exception; the variables before it have got their new values). `none`: a null
pointer. -/
def evaluateAllE : List ℤ → State F W → Run F W (State F W × Bool)
  | [], σ => Run.lift (some (σ, true))
  | id :: list, σ => fun w =>
      if id ∈ D.keys then
        match ((expr (D.var id)).evalE O eff σ w).result with
        | none => ⟨some (σ, false), ((expr (D.var id)).evalE O eff σ w).world, ((expr (D.var id)).evalE O eff σ w).calls⟩
        | some x =>
            let o := evaluateAllE list { σ with value := Function.update σ.value (D.var id) x } ((expr (D.var id)).evalE O eff σ w).world
            ⟨o.result, o.world, ((expr (D.var id)).evalE O eff σ w).calls ++ o.calls⟩
      else ⟨none, w, []⟩

/-- `update`: dependencies.hpp 138-146; at most `n` iterations of the searches. The result tells whether the update came to its end
(otherwise there was an exception while a variable was evaluated, and the parameters have not been reached). `none`: an assertion failed, a
null pointer, or the searches have not ended. -/
def Updater.updateE (n : ℕ) (U : Updater) (σ : State F W) : Outcome F W (Updater × State F W × Bool) :=
  ((Run.lift (if U.isValid then some U
    else (D.updateList (U.independent.image σ.id) (U.dependent.image σ.id) n).map
      fun l => { U with updateList := l, isValid := true })).bind fun U' =>
    (evaluateAllE O eff expr D U'.updateList σ).bind fun s => fun w =>
      ⟨some (U', (if s.2 then U'.params.foldl Param.update { s.1 with world := w } else { s.1 with world := w }), s.2), w, []⟩) σ.world

end

end Schnek.Deck
