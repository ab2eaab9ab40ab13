import Verif.Model.Deck
import Verif.Model.FileDiagnostic

/-!
# The life of blocks

`src/variables/block.hpp`, `src/variables/block.cpp`, `src/parser/parser.cpp`, `src/diagnostic/diagnostic.hpp`

All pointers to blocks are `std::shared_ptr` (`pBlock`, block.hpp 42): those of the program, those of the `BlockTree` that exists while a file
is read (and longer if the parser is not freed, because an exception was thrown), and those of the blocks themselves, to their children and to their parent. A block is destroyed when no such pointer to it is left,
and then its own pointers are gone as well. Blocks that are file diagnostics have a stream, which their destructor closes. (Further pointers
to blocks in `BlockContainer` are left out.)
-/

namespace Schnek.Deck.Lifetime

open Diagnostic

/-- the blocks of a program and everything that has a pointer to one of them -/
structure Mem where
  /-- the tree that is made by `parse`; the blocks stay in the list when they have been destroyed -/
  tree : BlockTree
  /-- `parse` has not returned or thrown yet: its variable `blockTree` (parser.cpp 65) points to the `BlockTree` object -/
  reading : Bool
  /-- the stack of the parser made by `ParseAlloc` (parser.cpp 61) has a token, and this a pointer to the `BlockTree` object (parsertoken.hpp
  111, parsercontext.hpp 44) -/
  kept : Bool
  /-- the pointers of the program, with repetitions -/
  handles : List ℕ
  /-- the block has not been destroyed -/
  alive : ℕ → Bool
  /-- the member `output` of blocks that are file diagnostics: diagnostic.hpp 171 -/
  stream : ℕ → Stream
  disk : Disk

/-- what happens to blocks -/
inductive Op
  /-- a block made by a factory is put into the tree: `BlockTree::addChild` -/
  | addChild (B : Block)
  | moveDown
  | moveUp
  /-- a token is put on the stack of the parser: deckgrammar.inc 654 -/
  | token
  /-- no token with a pointer to the tree is left on the stack: `ParseFree` has deleted the parser (parser.cpp 95), or other values have taken
  their places -/
  | free
  /-- `parse` returns the root of the tree -/
  | finish
  /-- `parse` throws an exception -/
  | abandon
  /-- the program copies a pointer it has, or gets one from a block it has a pointer to (`getParent()`, `getChildren()`) -/
  | hold (b : ℕ)
  /-- a pointer of the program is destroyed or set to another block -/
  | release (b : ℕ)
  /-- the diagnostic manager calls a diagnostic, which calls `open`, `write` or `close` -/
  | act (b : ℕ) (a : Action)
  /-- the last pointer to a block is gone -/
  | destroy (b : ℕ)

namespace Mem

/-- nothing has been read, the first call of `parse` has made the tree: parser.cpp 65 -/
def start (D : Disk) : Mem := ⟨BlockTree.empty, true, false, [], fun _ => false, fun _ => .new, D⟩

/-- the members `parent` and `children` of a block: block.hpp 69, 70 -/
def members (B : Block) : List ℕ := B.parent.toList ++ B.children

/-- the members of all blocks that exist, from the `i`-th on -/
def membersFrom (alive : ℕ → Bool) : ℕ → List Block → List ℕ
  | _, [] => []
  | i, B :: l => (if alive i then members B else []) ++ membersFrom alive (i + 1) l

/-- all pointers to blocks: those of the program, `root` and `cursor` of the tree (block.hpp 49, 50), and the members of the blocks -/
def pointers (m : Mem) : List ℕ :=
  m.handles ++ (if m.reading || m.kept then m.tree.root.toList ++ m.tree.cursor.toList else []) ++ membersFrom m.alive 0 m.tree.blocks

/-- `use_count()` -/
def useCount (m : Mem) (b : ℕ) : ℕ := m.pointers.count b

/-- One step; `none`: cannot happen. Blocks with no pointers to them may be destroyed a bit later than in the program, but in the same way. -/
def step (m : Mem) : Op → Option Mem
  -- block.cpp 35-47; parsertoken.cpp 433-436: `block` is the only pointer to the new block before, and is gone afterwards
  | .addChild B =>
    if m.reading then
      some { m with
        tree := m.tree.addChild { B with children := [] }
        alive := Function.update m.alive m.tree.blocks.length true
        stream := Function.update m.stream m.tree.blocks.length .new }
    else none
  -- block.cpp 49-53
  | .moveDown => if m.reading then some { m with tree := m.tree.moveDown } else none
  -- block.cpp 55-72
  | .moveUp => if m.reading then some { m with tree := m.tree.moveUp } else none
  -- parser.cpp 86
  | .token => if m.reading then some { m with kept := true } else none
  | .free => if m.reading then some { m with kept := false } else none
  -- parser.cpp 95, 101
  | .finish => if m.reading && !m.kept then some { m with reading := false, handles := m.tree.root.toList ++ m.handles } else none
  -- `ParseFree` is not called if there is an exception before parser.cpp 95
  | .abandon => if m.reading then some { m with reading := false } else none
  -- block.hpp 89, 116
  | .hold b =>
    if b ∈ m.handles ∨ b ∈ m.handles.flatMap (fun a => (m.tree.blocks[a]?.map members).getD []) then some { m with handles := b :: m.handles } else none
  | .release b => if b ∈ m.handles then some { m with handles := m.handles.erase b } else none
  -- diagnostic.cpp 102-114, diagnostic.t 56-73; a call for a block that has been destroyed is undefined (see C48) and left out
  | .act b a =>
    if m.alive b then
      let r := a.run (m.stream b) m.disk
      some { m with stream := Function.update m.stream b r.1, disk := r.2 }
    else none
  -- diagnostic.hpp 171: the destructor of the stream
  | .destroy b =>
    if m.alive b = true ∧ m.useCount b = 0 then
      some { m with alive := Function.update m.alive b false, disk := (m.stream b).destroy m.disk }
    else none

/-- several steps -/
def run (m : Mem) (ops : List Op) : Option Mem := ops.foldlM step m

end Mem

end Schnek.Deck.Lifetime
