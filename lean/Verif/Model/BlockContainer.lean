import Verif.Model.Blocks

/-!
# Model of containers of child blocks

`src/variables/blockcontainer.hpp`
-/

namespace Schnek.Deck

/-- What is known about the classes of the blocks of a tree, for one `ChildType`. -/
structure ContainerTypes where
  /-- the class of the block is derived from `BlockContainer<ChildType>` -/
  container : ℕ → Bool
  /-- the class of the block is derived from `ChildBlock<ChildType>`, is a `ChildType`, and does not replace `preInit` by one that does
  not call `ChildBlock::preInit` -/
  child : ℕ → Bool

namespace BlockTree

/-- `ChildBlock::preInit` and `BlockContainer::addChild`: blockcontainer.hpp 55-58, 84-90. `lists p` is the member `children` of the container `p`. -/
def preInitChild (T : BlockTree) (K : ContainerTypes) (lists : ℕ → List ℕ) (b : ℕ) : ℕ → List ℕ :=
  match T.parentOf b with
  | none => lists
  | some p => if K.container p && K.child b then Function.update lists p (lists p ++ [b]) else lists

/-- what the calls made by `initAll` do to the containers; only `preInit` does something -/
def runCalls (T : BlockTree) (K : ContainerTypes) (calls : List (Phase × ℕ)) (lists : ℕ → List ℕ) : ℕ → List ℕ :=
  calls.foldl (fun lists c => if c.1 = .preInit then T.preInitChild K lists c.2 else lists) lists

/-- `childBlocks()` of the container `p` after these calls: blockcontainer.hpp 66-69. It is empty when the block has been made. -/
def childBlocks (T : BlockTree) (K : ContainerTypes) (calls : List (Phase × ℕ)) (p : ℕ) : List ℕ := T.runCalls K calls (fun _ => []) p

end BlockTree

end Schnek.Deck
