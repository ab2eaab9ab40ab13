import Verif.Model.Deck

/-!
# The life of the variables of a setup file

`src/variables/variables.hpp`, `src/variables/expression.hpp`, `src/variables/function_expression.hpp`

Blocks of variables and variables are held by `std::shared_ptr` (`pBlockVariables`, `pVariable`, src/variables/variables.hpp 49, 135): by the
program, by the blocks of variables, and by the expressions, which belong to variables. An object is destroyed when no such pointer to it is left,
and then its own pointers are gone as well. The model is about the time after a file has been read, when these pointers are not changed
any more.
-/

namespace Schnek.Deck

variable {F W : Type}

mutual

/-- the pointers to variables in an expression: `var` in `ReferencedValue` (expression.hpp 157) and those in the expressions it consists
of (expression.hpp 220, 262, 411, function_expression.hpp 83). A `FunctionExpression` holds its arguments. -/
def Expr.holds : Expr F W → List ℕ
  | .value _ => []
  | .ref _ v => [v]
  | .ext _ _ => []
  | .unary _ e => e.holds
  | .binary _ es => es.holds
  | .cast _ e => e.holds
  | .call _ args => args.holds

/-- those of the operands -/
def Terms.holds : Terms F W → List ℕ
  | .nil => []
  | .cons _ e es => e.holds ++ es.holds

/-- those of the arguments -/
def Args.holds : Args F W → List ℕ
  | .nil => []
  | .cons e es => e.holds ++ es.holds

end

namespace VarLifetime

/-- the objects -/
inductive Node
  /-- a `BlockVariables` -/
  | block (b : ℕ)
  /-- a `Variable` with its expression -/
  | var (v : ℕ)
deriving DecidableEq

/-- the objects made while the file was read -/
def nodes (D : DeckState F W) : List Node :=
  (List.range D.store.blocks.length).map .block ++ (List.range D.heap.length).map .var

/-- the pointers in an object: `parent`, `children`, `childrenByName` and `vars` of a block (src/variables/variables.hpp 155-164; `childrenByClassName`
has the same blocks as `children`), `expression` of a variable (src/variables/variables.hpp 68) -/
def members (D : DeckState F W) : Node → List Node
  | .block b =>
    match D.store.blocks[b]? with
    | none => []
    | some B => B.parent.toList.map .block ++ B.children.map .block ++ (B.childrenByName.map Prod.snd).map .block ++
        (B.vars.map Prod.snd).map .var
  | .var v =>
    match D.heap[v]? with
    | none => []
    | some x =>
      match x.expression with
      | none => []
      | some e => e.holds.map .var

/-- the memory of the program -/
structure Mem (F W : Type) where
  /-- what has been read -/
  deck : DeckState F W
  /-- the pointers of the program (in the storage, the blocks of the program, the dependency maps, its own), with repetitions -/
  handles : List Node
  /-- the object has not been destroyed -/
  alive : Node → Bool

/-- what the program does with pointers -/
inductive Op
  /-- it copies a pointer, or gets one from an object it has a pointer to (`getParent()`, `getChildren()`, `getVariables()`) -/
  | hold (x : Node)
  /-- a pointer of the program is destroyed or set to something else -/
  | release (x : Node)
  /-- the last pointer to an object is gone -/
  | destroy (x : Node)

namespace Mem

/-- after reading the file: the program has the pointers `handles` -/
def start (D : DeckState F W) (handles : List Node) : Mem F W := ⟨D, handles, fun x => decide (x ∈ nodes D)⟩

/-- all pointers -/
def pointers (m : Mem F W) : List Node := m.handles ++ ((nodes m.deck).filter m.alive).flatMap (members m.deck)

/-- `use_count()` -/
def useCount (m : Mem F W) (x : Node) : ℕ := m.pointers.count x

/-- One step; `none`: cannot happen. Objects with no pointers to them may be destroyed a bit later than in the program. -/
def step (m : Mem F W) : Op → Option (Mem F W)
  | .hold x => if x ∈ m.handles ∨ x ∈ m.handles.flatMap (members m.deck) then some { m with handles := x :: m.handles } else none
  | .release x => if x ∈ m.handles then some { m with handles := m.handles.erase x } else none
  | .destroy x => if m.alive x = true ∧ m.useCount x = 0 then some { m with alive := Function.update m.alive x false } else none

/-- several steps -/
def run (m : Mem F W) (ops : List Op) : Option (Mem F W) := ops.foldlM step m

end Mem

end VarLifetime

end Schnek.Deck
