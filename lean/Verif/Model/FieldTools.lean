import Verif.Model.Storage
import Verif.Model.Field
import Verif.Model.Dependencies

/-!
# Model of `schnek::fill_field` and `schnek::FieldFiller`

`src/tools/fieldtools.hpp`, `src/tools/fieldtools.t`
-/

namespace Schnek

open Deck

namespace FieldTools

variable {K W : Type} [Field K] {n : ℕ}

/-- `coords[i] = field.indexToPosition(i,pos[i])` for all `i`: fieldtools.t 56-59. `slot i` is where `coords[i]` is stored. -/
def setCoords (f : FieldShape K (n + 1)) (slot : Fin (n + 1) → ℕ) (p : Idx (n + 1)) (σ : State K W) : State K W :=
  (List.finRange (n + 1)).foldl
    (fun (σ : State K W) i => { σ with ext := Function.update σ.ext (slot i) (.float (f.indexToPosition i (p i))) }) σ

/-- the updater, the variables and the data of the field -/
structure FillState (K W : Type) (n : ℕ) where
  updater : Updater
  vars : State K W
  data : Grid (Val K) n

/-- the body of the loop of `fill_field`: fieldtools.t 51-62. `value` is where the argument `value` is stored; a cell holds a value
together with its type. `none`: an exception or undefined behaviour. At most `N` iterations of the searches of `update`. -/
def fillCell (O : FloatOps K) (expr : Var → Expr K W) (D : DepMap) (N : ℕ) (f : FieldShape K (n + 1)) (slot : Fin (n + 1) → ℕ)
    (value : ℕ) (s : FillState K W n) (p : Idx (n + 1)) : Option (FillState K W n) :=
  (s.updater.update O expr D N (setCoords f slot p s.vars)).bind fun r =>
    (s.data.set? p (r.2.ext value)).map fun g => ⟨r.1, r.2, g⟩

/-- `fill_field(field, coords, value, updater)`: fieldtools.t 39-66, for the positions `l` of the range iterator -/
def fillField (O : FloatOps K) (expr : Var → Expr K W) (D : DepMap) (N : ℕ) (f : FieldShape K (n + 1)) (slot : Fin (n + 1) → ℕ)
    (value : ℕ) (l : List (Idx (n + 1))) (s : FillState K W n) : Option (FillState K W n) :=
  l.foldlM (fillCell O expr D N f slot value) s

/-- `fill_field` if an evaluation throws an exception in `update`, and what it leaves behind: fieldtools.t 39-66. `none`: there is no
exception, or something undefined before it. -/
def fillThrow (O : FloatOps K) (expr : Var → Expr K W) (D : DepMap) (N : ℕ) (f : FieldShape K (n + 1)) (slot : Fin (n + 1) → ℕ)
    (value : ℕ) : List (Idx (n + 1)) → FillState K W n → Option (FillState K W n)
  | [], _ => none
  | p :: l, s =>
      match fillCell O expr D N f slot value s p with
      | some s' => fillThrow O expr D N f slot value l s'
      | none => (s.updater.updateThrow O expr D N (setCoords f slot p s.vars)).map fun r => ⟨r.1, r.2, s.data⟩

/-- `fill_field(field, coords, value, updater, dependent)`: fieldtools.t 75-85 -/
def fillFieldDependent (O : FloatOps K) (expr : Var → Expr K W) (D : DepMap) (N : ℕ) (f : FieldShape K (n + 1))
    (slot : Fin (n + 1) → ℕ) (value : ℕ) (dependent : Param) (l : List (Idx (n + 1))) (s : FillState K W n) :
    Option (FillState K W n) :=
  let r := s.updater.clearDependent.addDependent s.vars dependent
  fillField O expr D N f slot value l ⟨r.1, r.2, s.data⟩

end FieldTools

namespace Filler

/-- The objects a program refers to: fillers, coordinate arrays, updaters, fields and values, each numbered. -/
abbrev Ref := ℕ

/-- `impl`: fieldtools.hpp 83-93 -/
structure Impl where
  field : Ref
  coords : Ref
  value : Ref
  updater : Ref
deriving DecidableEq

/-- `fieldAdder`: fieldtools.hpp 113-120; `owner` is the filler whose `implementations` it refers to -/
structure Adder where
  coords : Ref
  updater : Ref
  owner : Ref
deriving DecidableEq

/-- `implementations` of each filler, and the static variable `adder` of `set` for one rank: fieldtools.hpp 102, 147. A null static
variable is one that has not been initialised yet. -/
structure Memory where
  impls : Ref → List Impl
  adder : Option Adder

/-- at the start of the program -/
def initial : Memory := ⟨fun _ => [], none⟩

/-- `filler.set(coords, updater)`: fieldtools.hpp 141-149. A static variable is initialised when its declaration is reached for the
first time. -/
def set (m : Memory) (filler coords updater : Ref) : Memory × Adder :=
  match m.adder with
  | some a => (m, a)
  | none => ({ m with adder := some ⟨coords, updater, filler⟩ }, ⟨coords, updater, filler⟩)

/-- `adder(field, value)`: fieldtools.hpp 129-136 -/
def add (m : Memory) (a : Adder) (field value : Ref) : Memory :=
  { m with impls := Function.update m.impls a.owner (m.impls a.owner ++ [⟨field, a.coords, value, a.updater⟩]) }

/-- `filler.clear()`: fieldtools.hpp 151 -/
def clear (m : Memory) (filler : Ref) : Memory := { m with impls := Function.update m.impls filler [] }

/-- what a program does with fillers: `set(coords, updater)(field, value)(field, value)...`, or `clear()` -/
inductive Call
  | set (filler coords updater : Ref) (fields : List (Ref × Ref))
  | clear (filler : Ref)

/-- one call -/
def run (m : Memory) : Call → Memory
  | .set filler coords updater fields =>
      let r := set m filler coords updater
      fields.foldl (fun m f => add m r.2 f.1 f.2) r.1
  | .clear filler => clear m filler

/-- some calls -/
def runs (calls : List Call) : Memory := calls.foldl run initial

end Filler

end Schnek
