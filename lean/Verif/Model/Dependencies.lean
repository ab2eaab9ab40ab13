import Verif.Model.Expression
import Mathlib.Data.Finset.Card
import Mathlib.Data.List.Sort
import Mathlib.Data.Finset.Basic
import Mathlib.Algebra.Order.Ring.Int

/-!
# Model of `schnek::DependencyMap` and `schnek::DependencyUpdater`

`src/variables/dependencies.hpp`, `src/variables/dependencies.cpp`

`std::set<long>` and the keys of `std::map<long, ...>` are finite sets, iterated in increasing order. A pointer to the `VarInfo` of
a key is represented by the key. `none` is an exception or a failed assertion. Log output is left out.
-/

namespace Schnek.Deck

/-- iteration over a `std::set<long>` or over the keys of a `std::map<long, ...>`: in increasing order -/
def asc (s : Finset ℤ) : List ℤ :=
  Quot.liftOn s.val (List.insertionSort (· ≤ ·)) (fun a b h =>
    ((List.perm_insertionSort _ a).trans (h.trans (List.perm_insertionSort _ b).symm)).eq_of_pairwise
      (fun _ _ _ _ h1 h2 => le_antisymm h1 h2) (List.pairwise_insertionSort _ a) (List.pairwise_insertionSort _ b))

/-- `DepMap dependencies`: dependencies.hpp 56-70. For an `id` that is not a key, `dependencies[id]` inserts a `VarInfo` without
variable and with empty sets; here such an `id` has empty sets without being inserted. (The inserted entries are seen by `updateAll`
only, see `DepMap.touched`.) -/
structure DepMap where
  keys : Finset ℤ
  /-- `VarInfo::v` -/
  var : ℤ → Var
  /-- `VarInfo::dependsOn` -/
  dependsOn : ℤ → Finset ℤ
  /-- `VarInfo::modifies` -/
  modifies : ℤ → Finset ℤ

namespace DepMap

variable {F W : Type}

/-- `BlockVariables`: the variables of a block and its child blocks, variables.hpp 147-165; names are left out -/
inductive Tree
  | node (vars : List Var) (children : List Tree)

/-- constructor: dependencies.cpp 46-58; `dummy` is the new variable -/
def initial (σ : State F W) (dummy : Var) : DepMap where
  keys := {σ.id dummy}
  var := fun _ => dummy
  dependsOn := fun _ => ∅
  modifies := fun _ => ∅

/-- the dependencies entered for a variable: dependencies.cpp 72-78 -/
def entry (σ : State F W) (expr : Var → Expr F W) (dummy v : Var) : Finset ℤ :=
  let dep := ((expr v).deps σ).toFinset
  if -1 ∈ dep then insert (σ.id dummy) (dep.erase (-1)) else dep

/-- body of the loop over the variables of a block: dependencies.cpp 66-83 -/
def addVar (σ : State F W) (expr : Var → Expr F W) (dummy : Var) (D : DepMap) (v : Var) : Option DepMap :=
  if σ.fixed v then some D
  else if σ.id v ∈ D.keys then none
  else some
    { keys := insert (σ.id v) D.keys
      var := Function.update D.var (σ.id v) v
      dependsOn := Function.update D.dependsOn (σ.id v) (entry σ expr dummy v)
      modifies := Function.update D.modifies (σ.id v) ∅ }

mutual

/-- `constructMapRecursive`: dependencies.cpp 64-90 -/
def addTree (σ : State F W) (expr : Var → Expr F W) (dummy : Var) : Tree → DepMap → Option DepMap
  | .node vars children, D => (vars.foldlM (addVar σ expr dummy) D).bind (addTrees σ expr dummy children)

/-- loop over the children: dependencies.cpp 86-89 -/
def addTrees (σ : State F W) (expr : Var → Expr F W) (dummy : Var) : List Tree → DepMap → Option DepMap
  | [], D => some D
  | t :: ts, D => (addTree σ expr dummy t D).bind (addTrees σ expr dummy ts)

end

/-- `if (dependencies.count(id)>0) dependencies[id].modifies.insert(entry.first)`: dependencies.cpp 103-106 -/
def addModifies (k : ℤ) (D : DepMap) (id : ℤ) : DepMap :=
  if id ∈ D.keys then { D with modifies := Function.update D.modifies id (insert k (D.modifies id)) } else D

/-- the loops of `constructMap`: dependencies.cpp 98-109 -/
def setModifies (D : DepMap) : DepMap :=
  (asc D.keys).foldl (fun D k => (asc (D.dependsOn k)).foldl (addModifies k) D) D

/-- `constructMap`: dependencies.cpp 91-111 -/
def constructMap (σ : State F W) (expr : Var → Expr F W) (dummy : Var) (t : Tree) (D : DepMap) : Option DepMap :=
  (addTree σ expr dummy t D).map setModifies

/-- constructor: dependencies.cpp 46-62 -/
def create (σ : State F W) (expr : Var → Expr F W) (dummy : Var) (t : Tree) : Option DepMap :=
  constructMap σ expr dummy t (initial σ dummy)

/-- `recreate`: dependencies.hpp 97 -/
def recreate (σ : State F W) (expr : Var → Expr F W) (dummy : Var) (t : Tree) (D : DepMap) : Option DepMap :=
  constructMap σ expr dummy t D

/-- The loops `while (!workingSet.empty())` of `makeUpdatePredecessors` and `makeUpdateFollowers`: dependencies.cpp 145-179, 207-221.
`next id` are the ids considered for the element taken out; those not in the result yet are appended to the working set and
inserted in the result. `none`: the loop has not ended after that many iterations. -/
def search (next : ℤ → List ℤ) : ℕ → List ℤ → Finset ℤ → Option (Finset ℤ)
  | 0, _, _ => none
  | _ + 1, [], seen => some seen
  | n + 1, id :: work, seen =>
      let s := (next id).foldl (fun s j => if j ∈ s.2 then s else (s.1 ++ [j], insert j s.2)) (work, seen)
      search next n s.1 s.2

/-- `makeUpdatePredecessors`: dependencies.cpp 128-185; the arguments are the ids of the variables -/
def predecessors (D : DepMap) (independent dependent : Finset ℤ) (n : ℕ) : Option (Finset ℤ) :=
  search (fun id => (asc (D.dependsOn id)).flatMap fun j => if j < 0 then (asc independent) else [j])
    n (asc dependent) dependent

/-- `makeUpdateFollowers`: dependencies.cpp 187-227 -/
def followers (D : DepMap) (independent pred : Finset ℤ) (n : ℕ) : Option (Finset ℤ) :=
  search (fun id => (asc (D.modifies id)).filter (· ∈ pred))
    n ((asc independent).filter (· ∈ pred)) (independent.filter (· ∈ pred))

/-- `if (deps.count(id) == 0) continue; --(vi->counter); assert(vi->counter >= 0);`: dependencies.cpp 268-273 -/
def decrement (deps : Finset ℤ) (counter : ℤ → ℤ) (id : ℤ) : Option (ℤ → ℤ) :=
  if id ∈ deps then
    if 0 ≤ counter id - 1 then some (Function.update counter id (counter id - 1)) else none
  else some counter

/-- the loop of `makeUpdateOrder`: dependencies.cpp 251-274; one iteration for each element of the working set -/
def orderLoop (D : DepMap) (deps : Finset ℤ) : ℕ → List ℤ → (ℤ → ℤ) → List ℤ → Option (List ℤ)
  | 0, _, _, updateList => some updateList
  | n + 1, work, counter, updateList =>
      match work.find? (fun id => counter id = 0) with
      | none => none
      | some id => ((asc (D.modifies id)).foldlM (decrement deps) counter).bind fun counter' =>
          orderLoop D deps n (work.erase id) counter' (updateList ++ [id])

/-- `makeUpdateOrder`: dependencies.cpp 229-275; the list of the ids of the variables -/
def updateOrder (D : DepMap) (deps : Finset ℤ) : Option (List ℤ) :=
  orderLoop D deps deps.card (asc deps) (fun id => ((D.dependsOn id).filter (· ∈ deps)).card) []

/-- `makeUpdateList`: dependencies.cpp 121-126; at most `n` iterations of the searches -/
def updateList (D : DepMap) (independent dependent : Finset ℤ) (n : ℕ) : Option (List ℤ) :=
  (D.predecessors independent dependent n).bind fun pred =>
    (D.followers independent pred n).bind fun foll => D.updateOrder foll

/-- keys after `makeUpdatePredecessors` found `pred`: `dependencies[id]` inserts missing ids, dependencies.cpp 140, 167, 175 -/
def touched (D : DepMap) (pred : Finset ℤ) : Finset ℤ := D.keys ∪ pred

end DepMap

section

variable {F W : Type}

/-- `Variable::evaluateExpression`: variables.cpp 119-124 -/
def evaluateExpression (O : FloatOps F) (expr : Var → Expr F W) (σ : State F W) (v : Var) : Option (State F W) :=
  ((expr v).eval O σ).map fun x => { σ with value := Function.update σ.value v x }

/-- first loop of `DependencyUpdater::update`: dependencies.hpp 144; `none`: an exception or a null pointer -/
def evaluateAll (O : FloatOps F) (expr : Var → Expr F W) (D : DepMap) (list : List ℤ) (σ : State F W) :
    Option (State F W) :=
  list.foldlM (fun σ id => if id ∈ D.keys then evaluateExpression O expr σ (D.var id) else none) σ

/-- The first loop of `DependencyUpdater::update` if an evaluation throws an exception: dependencies.hpp 144. The variables before it
have got their new values, `var` of the variable itself is assigned only after the evaluation (variables.cpp 122). `none`: there is no
exception, or a null pointer before it. -/
def evaluateThrow (O : FloatOps F) (expr : Var → Expr F W) (D : DepMap) : List ℤ → State F W → Option (State F W)
  | [], _ => none
  | id :: list, σ =>
      if id ∈ D.keys then
        match evaluateExpression O expr σ (D.var id) with
        | some σ' => evaluateThrow O expr D list σ'
        | none => some σ
      else none

/-- `DependencyMap::updateAll`: dependencies.cpp 282-304; `keys` are the keys of the map at this time. An exception while evaluating
a variable is swallowed and leaves the variable as it was. `none`: an assertion fails or the variable is a null pointer. -/
def updateAll (O : FloatOps F) (expr : Var → Expr F W) (D : DepMap) (keys : Finset ℤ) (σ : State F W) : Option (State F W) :=
  (D.updateOrder keys).bind fun list =>
    list.foldlM (fun σ id => if id ∈ D.keys then some ((evaluateExpression O expr σ (D.var id)).getD σ) else none) σ

/-- `ConcreteParameter`: blockparameters.hpp 95-127; `target` is the variable `value` points to. `readonly` is that of the variable.
The name and the allowed dependencies are left out, `ConstantParameter` is left out. -/
structure Param where
  var : Var
  target : ℕ
  readOnly : Bool
deriving DecidableEq

/-- `ConcreteParameter::update`: blockparameters.hpp 122-126. Simplified: variables and targets have no types here; `boost::get<T>`
throws when the value has another type. -/
def Param.update (σ : State F W) (p : Param) : State F W :=
  if p.readOnly then σ else { σ with ext := Function.update σ.ext p.target (σ.value p.var) }

/-- `DependencyUpdater`: dependencies.hpp 106-120. The set of parameters is a list; a set of pointers is iterated in an unspecified
order, here that in which they have been added. -/
structure Updater where
  updateList : List ℤ
  independent : Finset Var
  dependent : Finset Var
  params : List Param
  isValid : Bool

namespace Updater

/-- constructor: dependencies.cpp 307-312 -/
def create (dummy : Var) : Updater where
  updateList := []
  independent := {dummy}
  dependent := ∅
  params := []
  isValid := true

/-- `addIndependent`: dependencies.cpp 315-320; `none`: the assertion fails -/
def addIndependent (U : Updater) (p : Param) : Option Updater :=
  if p.readOnly then some { U with independent := insert p.var U.independent, isValid := false } else none

/-- `addDependent`: dependencies.cpp 322-334 -/
def addDependent (U : Updater) (σ : State F W) (p : Param) : Updater × State F W :=
  if σ.fixed p.var then (U, p.update σ)
  else
    ({ U with
        params := if p ∈ U.params then U.params else U.params ++ [p]
        dependent := insert p.var U.dependent
        isValid := false }, σ)

/-- `clearDependent`: dependencies.cpp 336-341 -/
def clearDependent (U : Updater) : Updater := { U with params := [], dependent := ∅, isValid := false }

/-- `update`: dependencies.hpp 138-146; at most `n` iterations of the searches. `none`: there was an exception, an assertion failed
or the searches have not ended. -/
def update (O : FloatOps F) (expr : Var → Expr F W) (D : DepMap) (n : ℕ) (U : Updater) (σ : State F W) :
    Option (Updater × State F W) :=
  (if U.isValid then some U
    else (D.updateList (U.independent.image σ.id) (U.dependent.image σ.id) n).map
      fun l => { U with updateList := l, isValid := true }).bind fun U' =>
    (evaluateAll O expr D U'.updateList σ).map fun σ' => (U', U'.params.foldl Param.update σ')

/-- `update` if an evaluation throws an exception, and what it leaves behind: dependencies.hpp 138-146. The list is complete then and the
parameters have not been reached. -/
def updateThrow (O : FloatOps F) (expr : Var → Expr F W) (D : DepMap) (n : ℕ) (U : Updater) (σ : State F W) :
    Option (Updater × State F W) :=
  (if U.isValid then some U
    else (D.updateList (U.independent.image σ.id) (U.dependent.image σ.id) n).map
      fun l => { U with updateList := l, isValid := true }).bind fun U' =>
    (evaluateThrow O expr D U'.updateList σ).map fun σ' => (U', σ')

end Updater

end

end Schnek.Deck
