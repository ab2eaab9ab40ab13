import Verif.Model.Storage

/-!
# Model of the grid checking policies (src/grid/gridcheck.hpp)
-/

namespace Schnek.Check

variable {n : ℕ}

/-- `GridNoArgCheck::check`: src/grid/gridcheck.hpp 94-99. -/
def noArg (pos _low _high : Idx n) : Idx n := pos

/-- `GridAssertCheck::check`: src/grid/gridcheck.hpp 101-114. `none` is a failed `assert`
(the program aborts). -/
def assertCheck (pos low high : Idx n) : Option (Idx n) :=
  (List.finRange n).foldlM
    (fun p i => if p i ≥ low i then (if p i ≤ high i then some p else none) else none) pos

/-- The static members of `GridDebugCheck`: src/grid/gridcheck.hpp 67-70, 117-124. -/
structure DebugState (n : ℕ) where
  /-- `errorFlag` -/
  errorFlag : Bool
  /-- `errorInfo` -/
  errorInfo : ℤ
  /-- `offending` -/
  offending : Idx n

/-- one round of the loop of `GridDebugCheck::check`: src/grid/gridcheck.hpp 134-151. -/
def debugStep (pos low high : Idx n) (st : Idx n × DebugState n) (i : Fin n) :
    Idx n × DebugState n :=
  let st1 := if st.1 i < low i then
      (Function.update st.1 i (low i), (⟨true, -(i.1 : ℤ), pos⟩ : DebugState n))
    else st
  if st1.1 i > high i then
    (Function.update st1.1 i (high i), (⟨true, (i.1 : ℤ), pos⟩ : DebugState n))
  else st1

/-- `GridDebugCheck::check`: src/grid/gridcheck.hpp 126-153 (without the log output). -/
def debugCheck (pos low high : Idx n) (s : DebugState n) : Idx n × DebugState n :=
  (List.finRange n).foldl (debugStep pos low high) (pos, s)

end Schnek.Check
