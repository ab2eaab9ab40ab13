import Verif.Model.Hdf
import Verif.Props.Storage

/-!
# What the properties of HDF5 output mean
-/

namespace Schnek.Spec

open Schnek Schnek.Hdf

variable {n : ℕ} {T : Type}

/-- a number of type `int` -/
def IsInt (x : ℤ) : Prop := -2 ^ 31 ≤ x ∧ x < 2 ^ 31

/-- The part of the grid that is to be written or read lies in the grid and in the global domain. -/
structure Placed (c : Container T n) : Prop where
  usable : Props.Usable c.grid
  localGlobal : ∀ i, c.globalMin i ≤ c.localMin i ∧ c.localMin i ≤ c.localMax i + 1 ∧ c.localMax i ≤ c.globalMax i
  localGrid : ∀ i, c.grid.range.lo i ≤ c.localMin i ∧ c.localMax i ≤ c.grid.range.hi i
  int : ∀ i, IsInt (c.globalMin i) ∧ IsInt (c.globalMax i) ∧ IsInt (c.grid.range.lo i) ∧ IsInt (c.grid.range.hi i)

/-- The same for a grid in C order. -/
structure Fits (c : Container T n) : Prop extends Placed c where
  order : c.grid.order = .c

/-- The containers of all processes have the same global domain. -/
def SameDomain (lo hi : Idx (n + 1)) (cs : List (Container T n)) : Prop := ∀ c ∈ cs, c.globalMin = lo ∧ c.globalMax = hi

/-- The local parts of the containers hold the values `v`. -/
def Holds (v : Idx (n + 1) → T) (c : Container T n) : Prop :=
  ∀ p, InBox c.localMin c.localMax p → c.grid.get? p = some (v p)

/-- The dataset holds the values `v` of the domain from `lo` to `hi`. -/
def DatasetHolds (v : Idx (n + 1) → T) (lo hi : Idx (n + 1)) (D : Dataset (n + 1) T) : Prop :=
  D.dims = extent lo hi ∧ ∀ p, InBox lo hi p → D.cells (p - lo) = v p

/-- The number of files that a stream, or a program with streams, has open is what the streams say. -/
structure Tidy (w : Files) : Prop where
  /-- every open file belongs to a stream -/
  owned : ∀ id ∈ w.isOpen, ∃ s ∈ w.streams, s.2 = some id
  /-- the files of the streams are open -/
  isOpen : ∀ s ∈ w.streams, ∀ id, s.2 = some id → id ∈ w.isOpen
  /-- no two streams use the same file -/
  apart : w.streams.Pairwise fun s t => s.1 ≠ t.1 ∧ ∀ id, s.2 = some id → t.2 ≠ some id
  /-- ids are below `fresh` and listed once -/
  ids : (∀ id ∈ w.isOpen, id < w.fresh) ∧ w.isOpen.Nodup

/-- A call is legal if it is for a stream that exists (or does not exist yet, for a constructor), does not copy a stream, and does not
open a file for output while the stream has a file. -/
def LegalCall (w : Files) : FileCall → Prop
  | .construct s => w.stream s = none
  | .openInput s | .close s | .destroy s => w.stream s ≠ none
  | .openOutput s => w.stream s = some none
  | .copy _ _ | .assign _ _ => False

/-- All calls are legal in the states in which they are made. -/
def Legal : Files → List FileCall → Prop
  | _, [] => True
  | w, c :: l => LegalCall w c ∧ ∀ w', w.call c = some w' → Legal w' l

/-- the same calls on an input stream -/
def NameCall.forReading {α : Type} : NameCall α → NameCall Unit
  | .setBlockName name => .setBlockName name
  | .transfer _ => .transfer ()

/-- the data that is written by calls -/
def dataOf {α : Type} (l : List (NameCall α)) : List α :=
  l.filterMap fun c => match c with
    | .setBlockName _ => none
    | .transfer a => some a

end Schnek.Spec
