import Verif.Model.Diagnostic

/-!
# Diagnostics
-/

namespace Schnek.Spec

open Schnek.Diagnostic

/-- What a diagnostic does with its files: the names of the files it writes to, in order, and the file that is open at the end.
`none`: it opens a file while one is open, or writes or closes while none is open. -/
def files : Option (List Char) → List Call → Option (List (List Char) × Option (List Char))
  | f, [] => some ([], f)
  | none, .open name :: l => files (some name) l
  | some f, .write :: l => (files (some f) l).map fun r => (f :: r.1, r.2)
  | some _, .close :: l => files none l
  | _, _ => none

/-- All calls an interval diagnostic makes when it is executed for a list of steps; `none`: undefined behaviour. -/
def callsFor (d : Interval) (master : Bool) (rank : ℤ) (steps : List ℤ) : Option (List Call) :=
  (steps.mapM (d.execute master rank)).map List.flatten

/-- A diagnostic with that interval writes at step `t`. -/
def Due (interval t : ℤ) : Prop := t < 0 ∨ interval ∣ t

instance (interval t : ℤ) : Decidable (Due interval t) := inferInstanceAs (Decidable (_ ∨ _))

/-- The interval diagnostics that were constructed, in that order. -/
def intervalsOf {K : Type} (calls : List (SetUp K)) : List Interval := calls.filterMap fun
  | .interval d => some d
  | _ => none

/-- The physical time diagnostics that were constructed, in that order. -/
def deltasOf {K : Type} (calls : List (SetUp K)) : List (Delta K) := calls.filterMap fun
  | .delta d => some d
  | _ => none

/-- Whether this process is the master: as set last, and true if it has not been set. -/
def masterOf {K : Type} (calls : List (SetUp K)) : Bool := ((calls.filterMap fun
  | .master b => some b
  | _ => none).getLast?).getD true

/-- The rank as set last, 0 if it has not been set. -/
def rankOf {K : Type} (calls : List (SetUp K)) : ℤ := ((calls.filterMap fun
  | .rank r => some r
  | _ => none).getLast?).getD 0

variable {K : Type} [Field K] [LinearOrder K]

/-- What happened in one time step of a simulation. -/
structure Entry (K : Type) where
  step : ℤ
  now : K
  intervals : List (List Call)
  deltas : List (List Call)

/-- A simulation: in each step it calls `execute`, and then advances the time by what `adjustDeltaT` makes of the time step it wants to
make. `none`: an exception or undefined behaviour. -/
def simulate (M : Manager K) (t : ℤ) (now : K) : List K → Option (List (Entry K))
  | [] => some []
  | dt :: dts =>
      match M.execute t now with
      | .ok calls calls' M' =>
          match M'.adjustDeltaT now dt with
          | some adjusted => (simulate M' (t + 1) (now + adjusted) dts).map (⟨t, now, calls, calls'⟩ :: ·)
          | none => none
      | _ => none

/-- What the physical time diagnostic number `i` did. -/
def callsOf (i : ℕ) (e : Entry K) : List Call := e.deltas[i]?.getD []

/-- The times at which it wrote. -/
def writeTimes (i : ℕ) (log : List (Entry K)) : List K := (log.filter fun e => Call.write ∈ callsOf i e).map Entry.now

/-- The state after calls of `execute` at some steps and times; `none`: an exception or undefined behaviour. -/
def history (M : Manager K) : List (ℤ × K) → Option (Manager K)
  | [] => some M
  | (t, now) :: l =>
      match M.execute t now with
      | .ok _ _ M' => history M' l
      | _ => none

/-- A name contains `#c`. -/
def Placeholder (c : Char) (name : List Char) : Prop := ['#', c] <:+: name

end Schnek.Spec
