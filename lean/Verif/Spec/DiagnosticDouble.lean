import Verif.Model.DiagnosticDouble
import Verif.Spec.Diagnostic

/-!
# Diagnostics at physical times, in `double`
-/

namespace Schnek.Spec

open Schnek.Diagnostic

/-- A simulation: in each step it executes all physical time diagnostics, and then advances the time by what `adjustDeltaT` makes of the time step
it wants to make, with `now += dt` in `double`. The result is a list of times and of the calls that each diagnostic made. `none`: a time that is
not finite. -/
def simulateDouble (master : Bool) (rank : ℤ) (l : List (Delta ℚ)) (now : ℚ) : List ℚ → Option (List (ℚ × List (List Call)))
  | [] => some []
  | dt :: dts => do
      let r ← l.mapM fun d => d.executeDouble master rank now
      let adjusted ← adjustDouble (r.map Prod.snd) now dt
      let now' ← Binary64.add now adjusted
      let log ← simulateDouble master rank (r.map Prod.snd) now' dts
      some ((now, r.map Prod.fst) :: log)

/-- What the physical time diagnostic number `i` did. -/
def callsOfDouble (i : ℕ) (e : ℚ × List (List Call)) : List Call := e.2[i]?.getD []

/-- The times at which it wrote. -/
def writeTimesDouble (i : ℕ) (log : List (ℚ × List (List Call))) : List ℚ :=
  (log.filter fun e => Call.write ∈ callsOfDouble i e).map Prod.fst

/-- The time of output number `k`: `delay + deltaTime + ... + deltaTime`, added up in `double`. -/
def outputTime (delay deltaTime : ℚ) : ℕ → ℚ
  | 0 => delay
  | k + 1 => Binary64.rnd (outputTime delay deltaTime k + deltaTime)

/-- `t` is the time `s`, or the next number of type `double` after it. -/
def OnTime (s t : ℚ) : Prop := s ≤ t ∧ ∀ z, Binary64.IsFormat z → s < z → t ≤ z

end Schnek.Spec
