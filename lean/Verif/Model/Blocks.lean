import Verif.Model.Deck

/-!
# Model of what blocks do after a file has been read

`src/variables/block.hpp`, `src/variables/block.cpp`, `src/variables/blockparameters.hpp`, `src/variables/blockdata.hpp`

Recursions over the tree get the number of levels they may go down. With as many levels as there are blocks that is no restriction for
the trees the parser makes, because there a block comes after its parent.
-/

namespace Schnek.Deck

/-! ## lifecycle -/

/-- what `initAll` calls -/
inductive Phase
  | evaluate | registerData | preInit | init | postInit
deriving DecidableEq

namespace BlockTree

/-- parent of a block -/
def parentOf (T : BlockTree) (b : ℕ) : Option ℕ := T.blocks[b]?.bind Block.parent

/-- children of a block -/
def childrenOf (T : BlockTree) (b : ℕ) : List ℕ := (T.blocks[b]?.map Block.children).getD []

/-- name of a block -/
def nameOf (T : BlockTree) (b : ℕ) : Option String := T.blocks[b]?.map Block.name

/-- the blocks in the order in which `evaluateParameters`, `registerHierarchy`, `preInitHierarchy`, `initHierarchy` and
`postInitHierarchy` reach them: block.cpp 75-82, 101-135 -/
def visit (T : BlockTree) : ℕ → ℕ → List ℕ
  | 0, _ => []
  | n + 1, b => b :: (T.childrenOf b).flatMap (visit T n)

/-- the loop of `initAll`: block.cpp 139-140. `b` is the pointer, `this` the block `initAll` is called for; at most `n` iterations,
`none`: not yet finished. -/
def climb (T : BlockTree) (this : ℕ) : ℕ → ℕ → Option ℕ
  | 0, _ => none
  | n + 1, b =>
      match T.parentOf b with
      | none => some b
      | some _ =>
          match T.parentOf this with
          | some p => climb T this n p
          | none => none

/-- all calls of `initAll`, in order, if evaluating the parameters succeeds: block.cpp 137-147 -/
def calls (T : BlockTree) (b : ℕ) : List (Phase × ℕ) :=
  [Phase.evaluate, .registerData, .preInit, .init, .postInit].flatMap fun p => (T.visit T.blocks.length b).map (p, ·)

end BlockTree

namespace DeckState

variable {F W : Type}

/-- `ConcreteParameter::evaluate`, `ConstantParameter::evaluate`: blockparameters.hpp 104-120, 138-141; `none`: an exception -/
def evalParam (H : Host F W) (D : DeckState F W) (p : BlockParam) : Option (DeckState F W) :=
  match p.target with
  | none => some D
  | some t =>
    match D.heap[p.var]? with
    | none => none
    | some x =>
      if x.initialised = false then none
      else if x.readOnly then some D
      else if x.fixed then some { D with ext := Function.update D.ext t x.value }
      else match x.expression.bind (·.eval H.ops D.state) with
        | none => none
        | some val => some
            { D with
              heap := D.heap.set p.var { x with value := val }
              ext := Function.update D.ext t val }

/-- `std::map` goes through the parameters in the order of their names -/
def paramOrder (l : List (String × BlockParam)) : List (String × BlockParam) := l.insertionSort fun p q => p.1 ≤ q.1

/-- `BlockParameters::evaluate` of one block: blockparameters.hpp 281-288 -/
def evalBlock (H : Host F W) (D : DeckState F W) (b : ℕ) : Option (DeckState F W) :=
  match D.tree.blocks[b]? with
  | none => none
  | some B => (paramOrder B.params).foldlM (fun D p => D.evalParam H p.2) D

/-- `Block::evaluateParameters`: block.cpp 75-82 -/
def evaluateParameters (H : Host F W) (D : DeckState F W) (b : ℕ) : Option (DeckState F W) :=
  (D.tree.visit D.tree.blocks.length b).foldlM (evalBlock H) D

/-- `evalParam`, with what is left behind by an exception (`Except.error`): the program's variable and `var` are assigned only after all
that can throw, blockparameters.hpp 104-120, variables.cpp 122 -/
def evalParamThrow (H : Host F W) (D : DeckState F W) (p : BlockParam) : Except (DeckState F W) (DeckState F W) :=
  match D.evalParam H p with
  | none => .error D
  | some D' => .ok D'

/-- `BlockParameters::evaluate`, with what is left behind by an exception: blockparameters.hpp 281-288 -/
def evalBlockThrow (H : Host F W) (D : DeckState F W) (b : ℕ) : Except (DeckState F W) (DeckState F W) :=
  match D.tree.blocks[b]? with
  | none => .error D
  | some B => (paramOrder B.params).foldlM (fun D p => D.evalParamThrow H p.2) D

/-- `Block::evaluateParameters`, with what is left behind by an exception: block.cpp 75-82 -/
def evaluateParametersThrow (H : Host F W) (D : DeckState F W) (b : ℕ) : Except (DeckState F W) (DeckState F W) :=
  (D.tree.visit D.tree.blocks.length b).foldlM (evalBlockThrow H) D

end DeckState

/-! ## shared data -/

/-- the two loops over children in `getData`: block.hpp 149-156, 162-169. `none`: an exception; `some none`: not found. -/
def pick {α : Type} (l : List (Option (Option α))) : Option (Option α) :=
  match l.mapM id with
  | none => none
  | some rs =>
      match rs.filterMap id with
      | [] => some none
      | [d] => some (some d)
      | _ => none

namespace BlockTree

variable {α : Type}

/-- `getData` with `upward == false`: block.hpp 135-170. A key is represented by its parts between dots; `data` is `BlockData<T>`,
blockdata.hpp 41-55. -/
def getDown (T : BlockTree) (data : ℕ → List String → Option α) : ℕ → List String → ℕ → Option (Option α)
  | 0, _, _ => some none
  | n + 1, key, b =>
      match data b key with
      | some d => some (some d)
      | none =>
        match (match key with
          | h :: t :: ts => pick (((T.childrenOf b).filter fun c => T.nameOf c = some h).map (getDown T data n (t :: ts)))
          | _ => some none) with
        | none => none
        | some (some d) => some (some d)
        | some none => pick ((T.childrenOf b).map (getDown T data n key))

/-- `getData` with `upward == true`: block.hpp 135-170; at most `m` steps upwards -/
def getUp (T : BlockTree) (data : ℕ → List String → Option α) (n : ℕ) : ℕ → List String → ℕ → Option (Option α)
  | 0, _, _ => some none
  | m + 1, key, b =>
      match data b key with
      | some d => some (some d)
      | none =>
        match (match key with
          | h :: t :: ts => pick (((T.childrenOf b).filter fun c => T.nameOf c = some h).map (getDown T data n (t :: ts)))
          | _ => some none) with
        | none => none
        | some (some d) => some (some d)
        | some none =>
          match T.parentOf b with
          | some p => getUp T data n m key p
          | none => pick ((T.childrenOf b).map (getDown T data n key))

/-- `getData(key, data, true)` -/
def getData (T : BlockTree) (data : ℕ → List String → Option α) (b : ℕ) (key : List String) : Option (Option α) :=
  T.getUp data T.blocks.length (b + 1) key b

/-- `retrieveData(key, T &data)`: block.hpp 189-196; `none`: an exception -/
def retrieveValue (T : BlockTree) (data : ℕ → List String → Option α) (b : ℕ) (key : List String) : Option α :=
  (T.getData data b key).bind id

/-- `retrieveData(key, T* &data)`: block.hpp 178-187. `pointers` is `BlockData<T*>`, with what the pointers point to, `data` is
`BlockData<T>`. -/
def retrievePointer (T : BlockTree) (pointers data : ℕ → List String → Option α) (b : ℕ) (key : List String) : Option α :=
  match T.getData pointers b key with
  | none => none
  | some (some d) => some d
  | some none => (T.getData data b key).bind id

end BlockTree

/-- `BlockData<T>::add`: blockdata.hpp 58-69 -/
def addData {α : Type} (data : ℕ → List String → Option α) (b : ℕ) (key : List String) (d : α) : ℕ → List String → Option α :=
  fun b' key' => if b' = b ∧ key' = key then some d else data b' key'

end Schnek.Deck
