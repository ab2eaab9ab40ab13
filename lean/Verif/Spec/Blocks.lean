import Verif.Model.Blocks
import Verif.Spec.Deck

/-!
# Blocks after a file has been read
-/

namespace Schnek.Spec

open Schnek.Deck Relation

/-- `c` is a child of `p`. -/
def ChildOf (T : BlockTree) (p c : ℕ) : Prop := ∃ B, T.blocks[c]? = some B ∧ B.parent = some p

/-- `c` is `b` or below it. -/
def Below (T : BlockTree) (b c : ℕ) : Prop := ReflTransGen (ChildOf T) b c

/-- `r` is the outermost block around `b`. -/
def Outermost (T : BlockTree) (r b : ℕ) : Prop := Below T r b ∧ ∀ p, ¬ ChildOf T p r

/-- Where data has been registered: the block, and the key it used. -/
abbrev Place := ℕ × List String

/-- The place is one that `b`, or a block below it, offers, and above it there is none, up to `b`. -/
def Highest (T : BlockTree) (offers : ℕ → Place → Prop) (b : ℕ) (l : Place) : Prop :=
  ∃ e, Below T b e ∧ offers e l ∧ ∀ e', Below T b e' → Below T e' e → (∃ l', offers e' l') → e' = e

/-- The data a block offers under a key: what it has registered itself under this key; if there is no such data and the key is
`name.rest`, then what is offered under `rest` highest in its children with that name. -/
def Offers {α : Type} (T : BlockTree) (data : ℕ → List String → Option α) : List String → ℕ → Place → Prop
  | [], b, l => l = (b, []) ∧ data b [] ≠ none
  | h :: t, b, l => (l = (b, h :: t) ∧ data b (h :: t) ≠ none) ∨
      (data b (h :: t) = none ∧ t ≠ [] ∧ ∃ c, ChildOf T b c ∧ T.nameOf c = some h ∧ Highest T (Offers T data t) c l)

/-- The data a block sees under a key: what the closest block around it offers; if none of them does, what is offered highest in the
whole tree. -/
def Sees {α : Type} (T : BlockTree) (data : ℕ → List String → Option α) (key : List String) (b : ℕ) (l : Place) : Prop :=
  (∃ e, Below T e b ∧ Offers T data key e l ∧ ∀ e', Below T e' b → (∃ l', Offers T data key e' l') → Below T e' e) ∨
  ((∀ e, Below T e b → ∀ l', ¬ Offers T data key e l') ∧ ∃ r, Outermost T r b ∧ Highest T (Offers T data key) r l)

variable {F W : Type}

/-- No class of blocks uses the same name for two parameters. -/
def DistinctNames (classes : List (String × ClassDesc F)) : Prop :=
  ∀ c d specs, classes.lookup c = some d → d.factory = some specs → (specs.map ParamSpec.name).Nodup

/-- The class of the block `k` has the parameter `q`, which is not a constant. -/
def Asks (classes : List (String × ClassDesc F)) (D : DeckState F W) (k : ℕ) (q : ParamSpec F) : Prop :=
  ∃ (B : Block) (Bv : BlockVars) (d : ClassDesc F) (specs : List (ParamSpec F)), D.tree.blocks[k]? = some B ∧
    D.store.blocks[B.context]? = some Bv ∧ classes.lookup Bv.className = some d ∧ d.factory = some specs ∧ q ∈ specs ∧ q.constant = false

/-- `v` is what the file calls `n` in the block `k`. -/
def FileVariable (D : DeckState F W) (k : ℕ) (n : String) (v : ℕ) : Prop :=
  ∃ B : Block, D.tree.blocks[k]? = some B ∧ Declares D.store B.context n v

/-- `t` is the variable of the program that the block `k` has registered as `n`. -/
def ProgramVariable (D : DeckState F W) (k : ℕ) (n : String) (t : ℕ) : Prop :=
  ∃ (B : Block) (p : BlockParam), D.tree.blocks[k]? = some B ∧ (n, p) ∈ B.params ∧ p.target = some t

end Schnek.Spec
