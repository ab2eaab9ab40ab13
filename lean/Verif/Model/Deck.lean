import Verif.Model.Grammar
import Verif.Model.Variables

/-!
# Model of reading a setup file

`src/parser/parser.cpp`, `src/parser/parsertoken.cpp`, `src/variables/blockclasses.hpp`, `src/variables/blockparameters.hpp`,
`BlockTree` in `src/variables/block.cpp`, statements in `parser/deckgrammar.y`

A setup file is the list of its statements, with the derivation trees of the expressions in them. The parser that
finds them, and what it does with a syntax error, is in Lemon.lean.
-/

namespace Schnek.Deck

open Grammar

/-! ## blocks made by factories -/

/-- An entry of `BlockParameters::parameterMap`: blockparameters.hpp 73-153. `target` stands for the pointer to the program's
variable; there is none for a `ConstantParameter`. -/
structure BlockParam where
  var : Var
  target : Option ℕ

/-- `Block`: block.hpp 65-82. `context` is the block of variables set by `setContext`. -/
structure Block where
  name : String
  context : ℕ
  parent : Option ℕ
  children : List ℕ
  params : List (String × BlockParam)

/-- `BlockTree`: block.hpp 46-58, with all blocks added to it; pointers to blocks are positions in `blocks`. The head of `depth` is
the top of the stack. -/
structure BlockTree where
  blocks : List Block
  root : Option ℕ
  cursor : Option ℕ
  depth : List ℕ

namespace BlockTree

/-- constructor: block.cpp 33 -/
def empty : BlockTree where
  blocks := []
  root := none
  cursor := none
  depth := []

/-- `addChild`: block.cpp 35-47, 94-98. A block made by a factory has no parent before. -/
def addChild (T : BlockTree) (child : Block) : BlockTree where
  blocks := (match T.cursor with
    | some c => T.blocks.modify c fun B => { B with children := B.children ++ [T.blocks.length] }
    | none => T.blocks) ++ [{ child with parent := T.cursor }]
  root := match T.root with
    | some r => some r
    | none => some T.blocks.length
  cursor := some T.blocks.length
  depth := 0 :: T.depth

/-- `moveDown`: block.cpp 49-53 -/
def moveDown (T : BlockTree) : BlockTree :=
  { T with depth := match T.depth with
    | [] => []
    | d :: ds => (d + 1) :: ds }

/-- `moveUp`: block.cpp 55-72 -/
def moveUp (T : BlockTree) : BlockTree :=
  match T.depth with
  | [] => T
  | 0 :: ds =>
    { T with
      cursor := T.cursor.bind fun c => T.blocks[c]?.bind Block.parent
      depth := ds }
  | (d + 1) :: ds => { T with depth := d :: ds }

end BlockTree

/-- What the class of a block passes to `addParameter` or `addConstant` in `initParameters`: blockparameters.hpp 167-217. `current`
is what the program's variable holds before, or the value of the constant. -/
structure ParamSpec (F : Type) where
  name : String
  current : Val F
  default : Option (Val F)
  readOnly : Bool
  constant : Bool
  /-- the C++ compiler checks this -/
  typed : ∀ d, default = some d → d.ty = current.ty

/-- `BlockClassDescriptor`: blockclasses.hpp 66-99; the factory is represented by what `initParameters` of the class does -/
structure ClassDesc (F : Type) where
  allowedChildren : List String
  factory : Option (List (ParamSpec F))

/-! ## statements -/

/-- `statement`: deckgrammar.y 26-43. A declaration has a list of names with or without expression. If a block has no name it is
`start c c`. `INCLUDE` (never produced by the scanner) and `error` are left out. -/
inductive Stmt (F : Type)
  | decl (t : Ty) (ds : List (String × Option (Grammar.Expression F)))
  | assign (name : String) (e : Grammar.Expression F)
  | start (className name : String)
  | stop

/-- Everything reading a file works on: `ParserContext`, parsercontext.hpp, and the state of the program. -/
structure DeckState (F W : Type) where
  /-- `VariableStorage` -/
  store : Storage
  /-- all variables -/
  heap : List (Variable F W)
  /-- the next id, util/unique.hpp -/
  nextId : ℤ
  tree : BlockTree
  /-- `BlockClasses`: blockclasses.hpp 103-121 -/
  classes : List (String × ClassDesc F)
  restr : Bool
  /-- the program's variables -/
  ext : ℕ → Val F
  nextExt : ℕ
  world : W

/-- the program around the parser -/
structure Host (F W : Type) where
  ops : FloatOps F
  /-- `FunctionRegistry` -/
  func : String → Option (Func F W)

namespace DeckState

variable {F W : Type}

/-- what expressions look at. (Where there is no variable, `value` and `fixed` are of no importance; `id` is made up such that it is
not that of a variable.) -/
def state (D : DeckState F W) : State F W where
  value v := (D.heap[v]?.map Variable.value).getD (.int 0)
  fixed v := (D.heap[v]?.map Variable.fixed).getD true
  id v := (D.heap[v]?.map Variable.id).getD (D.nextId + v)
  ext := D.ext
  world := D.world

/-- `BlockClasses::get`: blockclasses.cpp 62-68; a class that is not registered is registered without factory -/
def getClass (D : DeckState F W) (name : String) : ClassDesc F × DeckState F W :=
  match find D.classes name with
  | some c => (c, D)
  | none => (⟨[], none⟩, { D with classes := D.classes ++ [(name, ⟨[], none⟩)] })

/-- `T()` -/
def zero (H : Host F W) : Ty → Val F
  | .int => .int 0
  | .float => .float (H.ops.ofInt 0)
  | .str => .str ""

/-- the variable made by `addParameter` or `addConstant`: blockparameters.hpp 175-184, 211; `x` is the program's variable -/
def paramVariable (H : Host F W) (p : ParamSpec F) (x : ℕ) (id : ℤ) : Variable F W :=
  if p.constant then .ofValue p.current true true id
  else if p.readOnly then .ofExpr (.ext p.current.ty x) true true id
  else .ofValue (p.default.getD (zero H p.current.ty)) p.default.isSome false id

/-- `parameterMap[varName] = par` -/
def setParam (l : List (String × BlockParam)) (name : String) (p : BlockParam) : List (String × BlockParam) :=
  l.filter (fun q => q.1 ≠ name) ++ [(name, p)]

/-- `addParameter`, `addConstant`: blockparameters.hpp 167-217. The result of `block->addVariable` is ignored. -/
def addParameter (H : Host F W) (context : ℕ) (s : DeckState F W × List (String × BlockParam)) (p : ParamSpec F) :
    DeckState F W × List (String × BlockParam) :=
  let D := s.1
  ({ D with
      store := (D.store.addVariableTo context p.name D.heap.length).getD D.store
      heap := D.heap ++ [paramVariable H p D.nextExt D.nextId]
      nextId := D.nextId + 1
      ext := Function.update D.ext D.nextExt (if p.readOnly ∧ ¬ p.constant then p.default.getD p.current else p.current)
      nextExt := D.nextExt + 1 },
    setParam s.2 p.name ⟨D.heap.length, if p.constant then none else some D.nextExt⟩)

/-- `makeBlock`, `setContext`, `setup` and `addChild` if the class has a factory, otherwise `moveDown`: parsertoken.cpp 430-441,
parser.cpp 70-81 -/
def enterBlock (H : Host F W) (D : DeckState F W) (name className : String) : DeckState F W :=
  let c := D.getClass className
  match c.1.factory with
  | some specs =>
      let s := specs.foldl (addParameter H c.2.store.cursor) (c.2, [])
      let block : Block := { name, context := c.2.store.cursor, parent := none, children := [], params := s.2 }
      { s.1 with tree := s.1.tree.addChild block }
  | none => { c.2 with tree := c.2.tree.moveDown }

/-- class of the current block -/
def currentClass (D : DeckState F W) : String := (D.store.blocks[D.store.cursor]?.map BlockVars.className).getD ""

/-- `hasChild(parentClass, blockClass)`: blockclasses.cpp 70-77; an unknown class is an error as well -/
def hasChild (D : DeckState F W) (parent child : String) : Bool :=
  match find D.classes parent with
  | some c => c.allowedChildren.contains child
  | none => false

/-- `createBlock`: parsertoken.cpp 407-450; `false` is an error -/
def createBlock (H : Host F W) (D : DeckState F W) (className name : String) : Bool × DeckState F W :=
  if D.restr && !D.hasChild D.currentClass className then (false, D)
  else match D.store.createBlock name className with
    | none => (false, D)
    | some st => (true, enterBlock H { D with store := st } name className)

/-- `endBlock`: parsertoken.cpp 452-460 -/
def endBlock (D : DeckState F W) : Bool × DeckState F W :=
  match D.store.parentOf D.store.cursor with
  | none => (false, D)
  | some _ => (true, { D with store := D.store.cursorUp, tree := D.tree.moveUp })

/-- what the actions of expressions look up -/
def env (H : Host F W) (D : DeckState F W) : Env F W where
  lookup n := (D.store.getVariable D.store.cursor n).bind fun v => D.heap[v]?.map fun x => (v, x.ty)
  func := H.func

/-- `evaluateVisitor`: parsertoken.cpp 232-256; `none`: evaluating failed -/
def evaluate (H : Host F W) (D : DeckState F W) (e : Expr F W) : Option (Variable F W) :=
  if e.isConstant D.state then (e.eval H.ops D.state).map fun x => .ofValue x true false D.nextId
  else some (.ofExpr e true false D.nextId)

/-- `storeVariable` for one declaration, without the chained ones: parsertoken.cpp 283-305, 345-405. A declaration without expression
is an error in `evaluateVisitor`. -/
def storeOne (H : Host F W) (t : Ty) (D : DeckState F W) (d : String × Option (Expr F W)) : Bool × DeckState F W :=
  match d.2 with
  | none => (false, D)
  | some e =>
    match D.evaluate H e with
    | none => (false, D)
    | some x =>
      if x.ty ≠ t then (false, { D with nextId := D.nextId + 1 })
      else match D.store.addVariable d.1 D.heap.length with
        | none => (false, { D with nextId := D.nextId + 1 })
        | some st => (true,
            { D with
              store := st
              heap := D.heap ++ [x]
              nextId := D.nextId + 1 })

/-- steps in sequence, up to the first error -/
def chain {α : Type} (f : DeckState F W → α → Bool × DeckState F W) : List α → DeckState F W → Bool × DeckState F W
  | [], D => (true, D)
  | a :: as, D =>
      match f D a with
      | (true, D') => chain f as D'
      | (false, D') => (false, D')

/-- the expressions of a declaration list; they are built while the list is read, before anything is stored -/
def buildAll (env : Env F W) : List (String × Option (Grammar.Expression F)) → Option (List (String × Option (Expr F W)))
  | [] => some []
  | (n, none) :: ds => (buildAll env ds).map ((n, none) :: ·)
  | (n, some e) :: ds => (e.build env).bind fun x => (buildAll env ds).map ((n, some x) :: ·)

/-- `storeVariable`: parsertoken.cpp 283-305. The token of the list is the last declaration, with the ones before it chained to it in
reverse order: deckgrammar.y 36-37, parsertoken.cpp 84-89. -/
def declare (H : Host F W) (D : DeckState F W) (t : Ty) (ds : List (String × Option (Grammar.Expression F))) :
    Bool × DeckState F W :=
  match buildAll (D.env H) ds with
  | none => (false, D)
  | some l => chain (storeOne H t) l.reverse D

/-- `TypePromoterAssign`: parsertoken.t 94-140 -/
def promoteAssign (t : Ty) (e : Expr F W) : Expr F W := if e.ty = t then e else .cast t e

/-- type of the expression made from a variable in `updateVariable`: parsertoken.cpp 318-327 -/
def lhsType (x : Variable F W) : Ty :=
  if x.fixed then x.value.ty
  else match x.expression with
    | some e => e.ty
    | none => .int

/-- `updateVariable`: parsertoken.cpp 307-343 -/
def update (H : Host F W) (D : DeckState F W) (name : String) (e : Grammar.Expression F) : Bool × DeckState F W :=
  match e.build (D.env H) with
  | none => (false, D)
  | some e =>
    match D.store.getVariable D.store.cursor name with
    | none => (false, D)
    | some v =>
      match D.heap[v]? with
      | none => (false, D)
      | some x =>
        match D.evaluate H (promoteAssign (lhsType x) e) with
        | none => (false, D)
        | some y =>
          match x.assign y with
          | none => (false, { D with nextId := D.nextId + 1 })
          | some x' => (true, { D with heap := D.heap.set v x', nextId := D.nextId + 1 })

/-- one statement -/
def step (H : Host F W) (D : DeckState F W) : Stmt F → Bool × DeckState F W
  | .decl t ds => D.declare H t ds
  | .assign n e => D.update H n e
  | .start c n => D.createBlock H c n
  | .stop => D.endBlock

/-- the statements of a file: parser.cpp 83-93; reading stops at the first error -/
def run (H : Host F W) (D : DeckState F W) (deck : List (Stmt F)) : Bool × DeckState F W := chain (step H) deck D

/-- the storage of the parser, parser.hpp, before anything is read; the other arguments are the program -/
def initial (name className : String) (classes : List (String × ClassDesc F)) (restr : Bool) (ext : ℕ → Val F) (world : W)
    (id : ℤ) : DeckState F W where
  store := Storage.create name className
  heap := []
  nextId := id
  tree := BlockTree.empty
  classes := classes
  restr := restr
  ext := ext
  nextExt := 0
  world := world

/-- beginning of `Parser::parse`: parser.cpp 55-81 -/
def start (H : Host F W) (name className : String) (classes : List (String × ClassDesc F)) (restr : Bool) (ext : ℕ → Val F)
    (world : W) (id : ℤ) : DeckState F W :=
  enterBlock H (initial name className classes restr ext world id) name className

/-! ## the end of `Parser::parse` -/

/-- a block of variables with the blocks in it, as `constructMapRecursive` sees it; at most `n` levels -/
def blockTree (S : Storage) : ℕ → ℕ → DepMap.Tree
  | 0, _ => .node [] []
  | n + 1, b =>
      match S.blocks[b]? with
      | none => .node [] []
      | some B => .node (B.vars.map Prod.snd) (B.children.map (blockTree S n))

/-- `getExpression` -/
def expr (D : DeckState F W) (v : Var) : Expr F W := (D.heap[v]?.bind Variable.expression).getD (.value (.int 0))

/-- the map's own variable: dependencies.cpp 50-57 -/
def withDummy (D : DeckState F W) : DeckState F W :=
  { D with
    heap := D.heap ++ [.ofExpr (.ext .int D.nextExt) true true D.nextId]
    nextId := D.nextId + 1
    ext := Function.update D.ext D.nextExt (.int 0)
    nextExt := D.nextExt + 1 }

/-- values of the variables -/
def setValues (D : DeckState F W) (σ : State F W) : DeckState F W :=
  { D with heap := D.heap.mapIdx fun v x => { x with value := σ.value v } }

/-- `DependencyMap depMap(variables.getRootBlock()); depMap.updateAll();`: parser.cpp 97-98; `none`: an assertion fails -/
def finish (H : Host F W) (D : DeckState F W) : Option (DeckState F W) :=
  let E := D.withDummy
  (DepMap.create E.state E.expr D.heap.length (blockTree E.store E.store.blocks.length 0)).bind fun M =>
    (updateAll H.ops E.expr M M.keys E.state).map E.setValues

/-- `Parser::parse`: parser.cpp 55-102; `none`: an error -/
def parse (H : Host F W) (D : DeckState F W) (deck : List (Stmt F)) : Option (DeckState F W) :=
  match D.run H deck with
  | (true, D') => D'.finish H
  | (false, _) => none

end DeckState

end Schnek.Deck
