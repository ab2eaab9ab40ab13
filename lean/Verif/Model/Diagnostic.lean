import Mathlib.Data.Nat.Digits.Defs
import Mathlib.Algebra.Order.Field.Basic

/-!
# Model of diagnostics

`src/diagnostic/diagnostic.hpp`, `src/diagnostic/diagnostic.cpp`

A diagnostic is represented by the calls to its virtual functions `open`, `write` and `close`. Times of type `double` are elements of
an ordered field: rounding is not modelled. Strings are lists of characters.
-/

namespace Schnek.Diagnostic

/-! ## file names -/

/-- `boost::lexical_cast<std::string>` of a number that is not negative -/
def decimalNat (n : ℕ) : List Char := if n = 0 then ['0'] else (Nat.digits 10 n).reverse.map Nat.digitChar

/-- `boost::lexical_cast<std::string>(int)` -/
def decimal (i : ℤ) : List Char := if i < 0 then '-' :: decimalNat i.natAbs else decimalNat i.natAbs

/-- `pos = parsed.find("#c"); if (pos != npos) parsed.replace(pos, 2, new)`: diagnostic.cpp 66-67, 70-71 -/
def replaceFirst (c : Char) (new : List Char) : List Char → List Char
  | [] => []
  | [a] => [a]
  | a :: b :: l => if a = '#' ∧ b = c then new ++ l else a :: replaceFirst c new (b :: l)

/-- `tstep`: diagnostic.cpp 59-60 -/
def stepName (t : ℤ) : List Char := if t < 0 then ['f', 'i', 'n', 'a', 'l'] else decimal t

/-- `DiagnosticInterface::parsedFileName(int rank, int timeCounter)`: diagnostic.cpp 54-74, without parallel HDF5 -/
def parsedFileName (fname : List Char) (rank t : ℤ) : List Char :=
  replaceFirst 't' (stepName t) (replaceFirst 'p' (decimal rank) fname)

/-! ## one diagnostic -/

/-- calls to the virtual functions of a diagnostic: diagnostic.hpp 61-65 -/
inductive Call
  | «open» (name : List Char)
  | write
  | close
deriving DecidableEq

/-- `DiagnosticInterface`: diagnostic.hpp 47-73; `single` is what `singleOut()` returns, `alive` is false after the destructor -/
structure Settings where
  fname : List Char
  append : Bool
  single : Bool
  alive : Bool
deriving DecidableEq

/-- the three lines around `write()`: diagnostic.cpp 110-112, 140-142 -/
def output (s : Settings) (rank t : ℤ) : List Call :=
  (if s.append then [] else [.open (parsedFileName s.fname rank t)]) ++ [.write] ++ if s.append then [] else [.close]

/-- `IntervalDiagnostic`: diagnostic.hpp 75-86 -/
structure Interval extends Settings where
  interval : ℤ
deriving DecidableEq

/-- `IntervalDiagnostic::execute`: diagnostic.cpp 102-114; `none`: undefined behaviour -/
def Interval.execute (d : Interval) (master : Bool) (rank t : ℤ) : Option (List Call) :=
  if d.single && !master then some []
  else
    let first : List Call := if t = 0 ∧ d.append = true then [.open d.fname] else []
    if t < 0 then some (first ++ output d.toSettings rank t)
    else if d.interval = 0 then none
    else if t.tmod d.interval = 0 then some (first ++ output d.toSettings rank t)
    else some first

variable {K : Type} [Field K] [LinearOrder K]

/-- `DeltaTimeDiagnostic`: diagnostic.hpp 88-102. `count` is an `int` in the code. -/
structure Delta (K : Type) extends Settings where
  deltaTime : K
  nextOutput : K
  count : ℕ

/-- `DeltaTimeDiagnostic::execute`: diagnostic.cpp 131-146 -/
def Delta.execute (d : Delta K) (master : Bool) (rank : ℤ) (now : K) : List Call × Delta K :=
  if d.single && !master then ([], d)
  else
    let first : List Call := if 0 = now ∧ d.append = true then [.open d.fname] else []
    if d.nextOutput ≤ now then
      (first ++ output d.toSettings rank d.count, { d with nextOutput := d.nextOutput + d.deltaTime, count := d.count + 1 })
    else (first, d)

/-! ## the manager -/

/-- `DiagnosticManager`: diagnostic.hpp 107-135. The clocks are represented by whether the pointers have been set; their values are
arguments of `execute` and `adjustDeltaT`. -/
structure Manager (K : Type) where
  intervals : List Interval
  deltas : List (Delta K)
  timecounter : Bool
  physicalTime : Bool
  usePhysicalTime : Bool
  master : Bool
  rank : ℤ

/-- constructor: diagnostic.cpp 164-167 -/
def Manager.new : Manager K where
  intervals := []
  deltas := []
  timecounter := false
  physicalTime := false
  usePhysicalTime := false
  master := true
  rank := 0

/-- `setTimeCounter`: diagnostic.cpp 169-173, with a pointer to a variable -/
def Manager.setTimeCounter (M : Manager K) : Manager K := { M with timecounter := true, usePhysicalTime := false }

/-- `setPhysicalTime`: diagnostic.cpp 175-179, with a pointer to a variable -/
def Manager.setPhysicalTime (M : Manager K) : Manager K := { M with physicalTime := true, usePhysicalTime := true }

/-- `setMaster`: diagnostic.cpp 181-184 -/
def Manager.setMaster (M : Manager K) (b : Bool) : Manager K := { M with master := b }

/-- `setRank`: diagnostic.cpp 186-189 -/
def Manager.setRank (M : Manager K) (r : ℤ) : Manager K := { M with rank := r }

/-- `addIntervalDiagnostic`, called by the constructor: diagnostic.cpp 97-100, 192-195 -/
def Manager.addInterval (M : Manager K) (d : Interval) : Manager K := { M with intervals := M.intervals ++ [d] }

/-- `addDeltaTimeDiagnostic`, called by the constructor: diagnostic.cpp 126-129, 197-200 -/
def Manager.addDelta (M : Manager K) (d : Delta K) : Manager K := { M with deltas := M.deltas ++ [d] }

/-- the destructor of an interval diagnostic: diagnostic.hpp 58; nothing tells the manager -/
def Manager.destroyInterval (M : Manager K) (i : ℕ) : Manager K :=
  { M with intervals := M.intervals.modify i fun d => { d with alive := false } }

/-- the destructor of a physical time diagnostic: diagnostic.hpp 58; nothing tells the manager -/
def Manager.destroyDelta (M : Manager K) (i : ℕ) : Manager K :=
  { M with deltas := M.deltas.modify i fun d => { d with alive := false } }

/-- the calls that set up a manager -/
inductive SetUp (K : Type)
  /-- an interval diagnostic is constructed; its parameters are those it has when it is executed -/
  | interval (d : Interval)
  /-- a physical time diagnostic is constructed -/
  | delta (d : Delta K)
  | timeCounter
  | physicalTime
  | master (b : Bool)
  | rank (r : ℤ)

/-- one of the calls: diagnostic.cpp 97-100, 126-129, 169-200 -/
def Manager.setUp (M : Manager K) : SetUp K → Manager K
  | .interval d => M.addInterval d
  | .delta d => M.addDelta d
  | .timeCounter => M.setTimeCounter
  | .physicalTime => M.setPhysicalTime
  | .master b => M.setMaster b
  | .rank r => M.setRank r

/-- what `execute` does: an exception, undefined behaviour, or calls for each interval diagnostic and for each physical time
diagnostic, and a new state -/
inductive Outcome (K : Type)
  | exception
  | ub
  | ok (calls : List (List Call)) (calls' : List (List Call)) (M : Manager K)

/-- the loop over interval diagnostics: diagnostic.cpp 211-214; `none`: undefined behaviour -/
def executeIntervals (clock : Bool) (master : Bool) (rank t : ℤ) (l : List Interval) : Option (List (List Call)) :=
  l.mapM fun d => if clock && d.alive then d.execute master rank t else none

/-- the loop over physical time diagnostics: diagnostic.cpp 216-219; `none`: undefined behaviour -/
def executeDeltas (clock : Bool) (master : Bool) (rank : ℤ) (now : K) (l : List (Delta K)) : Option (List (List Call × Delta K)) :=
  l.mapM fun d => if clock && d.alive then some (d.execute master rank now) else none

/-- `DiagnosticManager::execute`: diagnostic.cpp 202-220 -/
def Manager.execute (M : Manager K) (t : ℤ) (now : K) : Outcome K :=
  if (!M.usePhysicalTime && !M.timecounter) || (M.usePhysicalTime && !M.physicalTime) then .exception
  else
    match executeIntervals M.timecounter M.master M.rank t M.intervals with
    | none => .ub
    | some calls =>
        match executeDeltas M.physicalTime M.master M.rank now M.deltas with
        | none => .ub
        | some l => .ok calls (l.map Prod.fst) { M with deltas := l.map Prod.snd }

/-- `DiagnosticManager::adjustDeltaT`: diagnostic.cpp 223-235; `none`: undefined behaviour -/
def Manager.adjustDeltaT (M : Manager K) (now dt : K) : Option K :=
  M.deltas.foldlM (fun (adjusted : K) d =>
    if M.physicalTime && d.alive then
      let left := d.nextOutput - now
      some (if 0 < left then min adjusted left else adjusted)
    else none) dt

end Schnek.Diagnostic
