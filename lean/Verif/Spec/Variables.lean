import Verif.Model.Variables
import Mathlib.Logic.Relation

/-!
# Scopes
-/

namespace Schnek.Spec

open Schnek.Deck Relation

/-- A storage as it can be after any sequence of calls. -/
def Reachable (S : Storage) : Prop := ∃ name className ops, S = (Storage.create name className).run ops

/-- The block `b` declares `v` under the name `n`. -/
def Declares (S : Storage) (b : ℕ) (n : String) (v : Var) : Prop := ∃ B, S.blocks[b]? = some B ∧ (n, v) ∈ B.vars

/-- The block `b` lies directly in the block `p`. -/
def DirectlyIn (S : Storage) (p b : ℕ) : Prop := ∃ B, S.blocks[b]? = some B ∧ B.parent = some p

/-- `e` is `b` or a block around it. -/
def Encloses (S : Storage) (e b : ℕ) : Prop := ReflTransGen (DirectlyIn S) e b

/-- `c` lies directly in `b` and is called `n`. -/
def ChildNamed (S : Storage) (b : ℕ) (n : String) (c : ℕ) : Prop :=
  ∃ C, S.blocks[c]? = some C ∧ C.parent = some b ∧ C.name = n

/-- The block has what the first part of the path asks for: the variable if there is only one part, otherwise a block. -/
def Matches (S : Storage) (b : ℕ) : List String → Prop
  | [] => False
  | [n] => ∃ v, Declares S b n v
  | n :: _ :: _ => ∃ c, ChildNamed S b n c

/-- Following the path downwards from `b` leads to the variable. -/
inductive Leads (S : Storage) : ℕ → List String → Var → Prop
  | var {b n v} : Declares S b n v → Leads S b [n] v
  | child {b n c path v} : ChildNamed S b n c → Leads S c path v → Leads S b (n :: path) v

/-- The path, used in the block `b`, means the variable `v`: from the innermost block around `b` that has what the first part
asks for, the path leads to `v`. -/
def Resolves (S : Storage) (b : ℕ) (path : List String) (v : Var) : Prop :=
  ∃ e, Encloses S e b ∧ Matches S e path ∧ (∀ e', Encloses S e' b → Matches S e' path → Encloses S e' e) ∧ Leads S e path v

/-- the path as it is written -/
def Written (sep : Char) (path : List String) (name : String) : Prop :=
  name.toList = [sep].intercalate (path.map String.toList) ∧ path ≠ [] ∧ ∀ n ∈ path, sep ∉ n.toList

end Schnek.Spec
