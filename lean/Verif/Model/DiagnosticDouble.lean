import Verif.Model.Binary64
import Verif.Model.Diagnostic

/-!
# Diagnostics at physical times, in `double`

`src/diagnostic/diagnostic.cpp`. In `Model/Diagnostic.lean` times are exact; here each operation is rounded. `none` is a result that is not finite.
-/

namespace Schnek.Diagnostic

/-- `DeltaTimeDiagnostic::execute`: diagnostic.cpp 131-146 -/
def Delta.executeDouble (d : Delta ℚ) (master : Bool) (rank : ℤ) (now : ℚ) : Option (List Call × Delta ℚ) :=
  if d.single && !master then some ([], d)
  else
    let first : List Call := if 0 = now ∧ d.append = true then [.open d.fname] else []
    if d.nextOutput ≤ now then do
      let next ← Binary64.add d.nextOutput d.deltaTime
      some (first ++ output d.toSettings rank d.count, { d with nextOutput := next, count := d.count + 1 })
    else some (first, d)

/-- `DiagnosticManager::adjustDeltaT`: diagnostic.cpp 223-235. -/
def adjustDouble (l : List (Delta ℚ)) (now dt : ℚ) : Option ℚ :=
  l.foldlM (fun (adjusted : ℚ) d => do
    let left ← Binary64.sub d.nextOutput now
    some (if 0 < left then min adjusted left else adjusted)) dt

end Schnek.Diagnostic
