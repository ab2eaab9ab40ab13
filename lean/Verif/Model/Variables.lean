import Verif.Model.Dependencies

/-!
# Model of `schnek::Variable`, `schnek::BlockVariables` and `schnek::VariableStorage`

`src/variables/variables.hpp`, `src/variables/variables.cpp`

Pointers to variables and to blocks are numbers: a `pVariable` is the position of the variable among all variables created, a
`pBlockVariables` the position of the block among the blocks of the storage, the root block being number 0.
-/

namespace Schnek.Deck

/-- `Variable`: variables.hpp 58-80. `uniqueId` is represented by the number it holds. A null pointer in `expression` is `none`. -/
structure Variable (F W : Type) where
  expression : Option (Expr F W)
  value : Val F
  ty : Ty
  fixed : Bool
  initialised : Bool
  readOnly : Bool
  id : ℤ

namespace Variable

variable {F W : Type}

/-- constructors from values: variables.cpp 42-67 -/
def ofValue (value : Val F) (initialised readOnly : Bool) (id : ℤ) : Variable F W where
  expression := none
  value := value
  ty := value.ty
  fixed := true
  initialised := initialised
  readOnly := readOnly
  id := id

/-- constructors from expressions: variables.cpp 69-94; a default constructed `ValueVariant` is the `int` 0 -/
def ofExpr (e : Expr F W) (initialised readOnly : Bool) (id : ℤ) : Variable F W where
  expression := some e
  value := .int 0
  ty := e.ty
  fixed := false
  initialised := initialised
  readOnly := readOnly
  id := id

/-- `operator=`: variables.cpp 106-116; `none`: `TypeMismatchException` or `ReadOnlyAssignmentException`, both thrown before
anything is changed -/
def assign (a rhs : Variable F W) : Option (Variable F W) :=
  if a.ty ≠ rhs.ty then none
  else if a.readOnly then none
  else some
    { a with
      value := rhs.value
      expression := rhs.expression
      fixed := rhs.fixed
      initialised := rhs.initialised
      id := rhs.id }

end Variable

/-- `BlockVariables`: variables.hpp 147-165. `std::map` is a list of pairs, its order is that of insertion. `childrenByClassName` is
left out (it is never read). -/
structure BlockVars where
  name : String
  className : String
  parent : Option ℕ
  children : List ℕ
  vars : List (String × Var)
  childrenByName : List (String × ℕ)

/-- `map.count(name)`, `map[name]` -/
def find {α : Type} (l : List (String × α)) (name : String) : Option α := l.lookup name

/-- `VariableStorage`: variables.hpp 222-228, with all blocks made for it -/
structure Storage where
  blocks : List BlockVars
  cursor : ℕ

/-- `boost::split(path, name, boost::is_any_of(sep))` -/
def splitChars (sep : Char) : List Char → List (List Char)
  | [] => [[]]
  | c :: cs =>
      if c = sep then [] :: splitChars sep cs
      else match splitChars sep cs with
        | [] => [[c]]
        | w :: ws => (c :: w) :: ws

/-- `boost::split` on strings -/
def splitName (sep : Char) (name : String) : List String := (splitChars sep name.toList).map String.ofList

namespace Storage

/-- constructor: variables.cpp 217-222 -/
def create (name className : String) : Storage where
  blocks := [{ name, className, parent := none, children := [], vars := [], childrenByName := [] }]
  cursor := 0

/-- `vars` of a block -/
def varOf (S : Storage) (b : ℕ) (name : String) : Option Var := S.blocks[b]?.bind fun B => find B.vars name

/-- `childrenByName` of a block -/
def childOf (S : Storage) (b : ℕ) (name : String) : Option ℕ :=
  S.blocks[b]?.bind fun B => find B.childrenByName name

/-- `getParent` -/
def parentOf (S : Storage) (b : ℕ) : Option ℕ := S.blocks[b]?.bind BlockVars.parent

/-- `BlockVariables::getVariable(path, false)`: variables.cpp 161-185; `none`: `VariableNotFoundException`. The path is never
empty. -/
def getDown (S : Storage) : List String → ℕ → Option Var
  | [], _ => none
  | name :: rest, b =>
      if rest ≠ [] then
        match S.childOf b name with
        | some c => S.getDown rest c
        | none => none
      else S.varOf b name

/-- `BlockVariables::getVariable(path, true)`: variables.cpp 161-185; at most `n` blocks are visited going up -/
def getUp (S : Storage) (path : List String) : ℕ → ℕ → Option Var
  | 0, _ => none
  | n + 1, b =>
      let up := match S.parentOf b with
        | some p => S.getUp path n p
        | none => none
      match path with
      | [] => none
      | name :: rest =>
          if rest ≠ [] then
            match S.childOf b name with
            | some c => S.getDown rest c
            | none => up
          else
            match S.varOf b name with
            | some v => some v
            | none => up

/-- `BlockVariables::getVariable(name)`: variables.cpp 188-193 -/
def getVariable (S : Storage) (b : ℕ) (name : String) : Option Var :=
  S.getUp (splitName ':' name) S.blocks.length b

/-- `BlockVariables::exists(path, upward)`: variables.cpp 131-152; `none`: a null pointer is dereferenced. After
`upward && (parent.get()==0)` the parent that is asked is always the null pointer. -/
def existsPath (S : Storage) : List String → Bool → ℕ → Option Bool
  | [], _, _ => some false
  | name :: rest, upward, b =>
      let up := if upward && (S.parentOf b).isNone then none else some false
      if rest ≠ [] then
        match S.childOf b name with
        | some c => S.existsPath rest false c
        | none => up
      else
        match S.varOf b name with
        | some _ => some true
        | none => up

/-- `BlockVariables::exists(name)`: variables.cpp 154-159 -/
def exists? (S : Storage) (b : ℕ) (name : String) : Option Bool := S.existsPath (splitName '.' name) true b

/-- change the object a pointer to a block points to -/
def modifyBlock (S : Storage) (b : ℕ) (f : BlockVars → BlockVars) : Storage :=
  { S with blocks := S.blocks.modify b f }

/-- `BlockVariables::addVariable`: variables.cpp 195-200; `none` is `false` -/
def addVariableTo (S : Storage) (b : ℕ) (name : String) (v : Var) : Option Storage :=
  if (S.varOf b name).isSome then none
  else some (S.modifyBlock b fun B => { B with vars := B.vars ++ [(name, v)] })

/-- `VariableStorage::addVariable`: variables.cpp 235-239; `none`: `DuplicateVariableException` -/
def addVariable (S : Storage) (name : String) (v : Var) : Option Storage := S.addVariableTo S.cursor name v

/-- `VariableStorage::createBlock` with `BlockVariables::addChild`: variables.cpp 202-209, 241-248; `none`:
`DuplicateBlockException` -/
def createBlock (S : Storage) (name className : String) : Option Storage :=
  if (S.childOf S.cursor name).isSome then none
  else
    let new := S.blocks.length
    some
      { blocks := (S.blocks.modify S.cursor fun B =>
          { B with
            childrenByName := B.childrenByName ++ [(name, new)]
            children := B.children ++ [new] }) ++
          [{ name, className, parent := some S.cursor, children := [], vars := [], childrenByName := [] }]
        cursor := new }

/-- `cursorUp`: variables.cpp 229-233 -/
def cursorUp (S : Storage) : Storage := { S with cursor := (S.parentOf S.cursor).getD 0 }

/-- `resetCursor`: variables.cpp 224-227 -/
def resetCursor (S : Storage) : Storage := { S with cursor := 0 }

/-- calls that change a storage -/
inductive Op
  | addVariable (name : String) (v : Var)
  | addVariableTo (b : ℕ) (name : String) (v : Var)
  | createBlock (name className : String)
  | cursorUp
  | resetCursor

/-- one call; an exception, or a result `false`, leaves the storage as it was -/
def step (S : Storage) : Op → Storage
  | .addVariable name v => (S.addVariable name v).getD S
  | .addVariableTo b name v => (S.addVariableTo b name v).getD S
  | .createBlock name className => (S.createBlock name className).getD S
  | .cursorUp => S.cursorUp
  | .resetCursor => S.resetCursor

/-- a sequence of calls -/
def run (S : Storage) (ops : List Op) : Storage := ops.foldl step S

end Storage

end Schnek.Deck
