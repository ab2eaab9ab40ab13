import Verif.Model.ParallelProgram
import Verif.Spec.Range
import Mathlib.Order.Interval.Finset.Defs
import Mathlib.Data.Int.Interval
import Mathlib.Data.Pi.Interval

/-!
# What the calls of a parallel program do

in terms of the data of all processes, without any reference to messages.
-/

namespace Schnek.Spec

open Schnek Schnek.Mpi

variable {n : ℕ} {S : Setup n} {X T F : Type}

/-- `p` and `q` stand for the same cell of the periodically continued domain -/
def SameCell (S : Setup n) (p q : Idx n) : Prop := ∀ i, (S.globalHi i + 1) ∣ q i - p i

instance (S : Setup n) (p q : Idx n) : Decidable (SameCell S p q) := inferInstanceAs (Decidable (∀ _, _))

/-- the neighbour to which `exchangeData(dim, orientation, …)` sends -/
def neighbour (S : Setup n) (dim : Fin n) (orientation : ℤ) (c : Coord S) : Coord S :=
  if orientation > 0 then next S c dim else prev S c dim

/-- only this variable changes: `x' c` is `x c` with a new value of `part`, for which `P c` holds -/
def Changes {A : Type} (part : Part X A) (x x' : Coord S → X) (P : Coord S → A → Prop) : Prop :=
  ∀ c, ∃ a, P c a ∧ x' c = part.set a (x c)

/-- a cell of the local domain of a process, ghost cells included -/
def Local (S : Setup n) (c : Coord S) (p : Idx n) : Prop := InBox (bounds S c).size.lo (bounds S c).size.hi p

/-- a cell that belongs to the process -/
def Owned (S : Setup n) (c : Coord S) (p : Idx n) : Prop := InBox (bounds S c).innerDomain.lo (bounds S c).innerDomain.hi p

/-- the number of cells in direction `i` that belong to the process -/
def ownWidth (S : Setup n) (c : Coord S) (i : Fin n) : ℤ := (bounds S c).innerDomain.hi i - (bounds S c).innerDomain.lo i + 1

/-- The grid covers the local domain. -/
def Covers (S : Setup n) (grid : Part X (GridMap n T)) (x : Coord S → X) : Prop :=
  ∀ c p, Local S c p → (grid.get (x c)).range.inside p = true

/-- What must hold of the data before a call. -/
def Ready : Call S X T F → (Coord S → X) → Prop
  | .compute _, _ => True
  | .exchange grid, x => Covers S grid x
  | .accumulate grid, x => Covers S grid x
  | .exchangeData _ _ input output, x =>
      (∀ c, (input.get (x c)).length < 2 ^ 31) ∧ ∀ y b, input.get (output.set b y) = input.get y
  | .reduceInt kind value _, x => match kind with
      | .sum | .avg => ∑ c, |value (x c)| < 2 ^ 31
      | .max | .min => True
  | .reduceDouble _ _ _, _ => True

/-- What a call does with the data. -/
def Does [AddCommMonoid T] [LinearOrder F] : Call S X T F → (Coord S → X) → (Coord S → X) → Prop
  | .compute f, x, x' => ∀ c, x' c = f c (x c)
  | .exchange grid, x, x' => Changes grid x x' fun c g =>
      g.range = (grid.get (x c)).range ∧
      (∀ p, Local S c p → ∀ c' q, Owned S c' q → SameCell S p q → g.cell p = (grid.get (x c')).cell q) ∧
      ∀ p, ¬ Local S c p → g.cell p = (grid.get (x c)).cell p
  | .accumulate grid, x, x' => Changes grid x x' fun c g =>
      g.range = (grid.get (x c)).range ∧
      (∀ p, Local S c p →
        (∀ i, (∀ c' : Coord S, 2 * S.delta ≤ ownWidth S c' i) ∨ (bounds S c).innerDomain.lo i ≤ p i) →
        g.cell p = ∑ c' : Coord S, ∑ q ∈ (Finset.Icc (bounds S c').size.lo (bounds S c').size.hi).filter (SameCell S p),
          (grid.get (x c')).cell q) ∧
      ∀ p, ¬ Local S c p → g.cell p = (grid.get (x c)).cell p
  | .exchangeData dim orientation input output, x, x' => Changes output x x' fun c b =>
      ∀ c', neighbour S dim orientation c' = c → b = input.get (x c')
  | .reduceInt kind value result, x, x' => Changes result x x' fun _ r => match kind with
      | .sum => r = ∑ c, value (x c)
      | .avg => r = (∑ c, value (x c)).tdiv (Fintype.card (Coord S))
      | .max => IsGreatest (Set.range fun c => value (x c)) r
      | .min => IsLeast (Set.range fun c => value (x c)) r
  | .reduceDouble kind value result, x, x' => Changes result x x' fun _ r => match kind with
      | .max => IsGreatest (Set.range fun c => value (x c)) r
      | .min => IsLeast (Set.range fun c => value (x c)) r

/-- One call after the other, by all processes together. -/
def Runs [AddCommMonoid T] [LinearOrder F] : List (Call S X T F) → (Coord S → X) → (Coord S → X) → Prop
  | [], x, x' => x' = x
  | call :: rest, x, x' => ∃ x₁, Does call x x₁ ∧ Runs rest x₁ x'

/-- Before each call, its requirements are met. -/
def Safe [AddCommMonoid T] [LinearOrder F] : List (Call S X T F) → (Coord S → X) → Prop
  | [], _ => True
  | call :: rest, x => Ready call x ∧ ∀ x', Does call x x' → Safe rest x'

end Schnek.Spec
