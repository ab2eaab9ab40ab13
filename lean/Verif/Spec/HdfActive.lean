import Verif.Model.HdfActive

/-! # Use of a stream of which only some processes are active -/

namespace Schnek.Spec.HdfActive

open Schnek.Hdf.Active

variable {N : ℕ}

/-- The use of a stream for one file: the processes that shall be active may be chosen, in all processes, then all processes open the file, there
are transfers by some processes, and all processes close the file. -/
structure Round (N : ℕ) where
  choose : Option (Fin N → Bool)
  work : List (Fin N → Bool)

/-- the calls of a round -/
def Round.calls (r : Round N) : List (Call N) :=
  (match r.choose with
    | none => []
    | some a => [.setActive fun p => some (a p)]) ++
  [.open fun _ => true] ++ r.work.map .transfer ++ [.close fun _ => true]

/-- the processes for which this holds, in the order of their ranks -/
def ranks (a : Fin N → Bool) : List (Fin N) := (List.finRange N).filter a

/-- The processes that shall take part in each round: those chosen last, all of them at first. -/
def chosen : (Fin N → Bool) → List (Round N) → List (Fin N → Bool)
  | _, [] => []
  | a, r :: rs => r.choose.getD a :: chosen (r.choose.getD a) rs

/-- What the transfers of a program of rounds shall be, when the processes `a` take part in the first round, `as` in the next ones: transfer `who`
of round number `k` is one of all active processes that call it, in file `k`. -/
def transfersFrom (attributes : (Fin N → Bool) → Bool) : ℕ → List (Fin N → Bool) → List (Round N) → List (Transfer N)
  | k, a :: as, r :: rs =>
    (r.work.filterMap fun who =>
      if ranks (fun p => who p && a p) = [] then none
      else some ⟨k, ranks (fun p => who p && a p), attributes fun p => who p && a p⟩) ++
    transfersFrom attributes (k + 1) as rs
  | _, _, _ => []

end Schnek.Spec.HdfActive
