import Verif.Model.FileDiagnostic
import Verif.Spec.Diagnostic

/-!
# Text files written by diagnostics
-/

namespace Schnek.Spec

open Schnek.Diagnostic

/-- What a diagnostic does is given by the calls it makes, each with the text of the field at that time. How many characters go to the file
at once is left open. -/
def IsRunOf (l : List Action) (calls : List (Call × List Char)) : Prop := l.map (fun a => (a.call, a.text)) = calls

/-- The calls an interval diagnostic makes when it is executed at some steps, with the text of the field at each step; `none`: undefined
behaviour. -/
def intervalCalls (d : Interval) (master : Bool) (rank : ℤ) (steps : List (ℤ × List Char)) : Option (List (Call × List Char)) :=
  (steps.mapM fun p => (d.execute master rank p.1).map fun calls => calls.map fun c => (c, p.2)).map List.flatten

/-- The outputs that are due: for each the name of the file and the text. -/
def outputsDue (d : Interval) (rank : ℤ) (steps : List (ℤ × List Char)) : List (List Char × List Char) :=
  (steps.filter fun p => Due d.interval p.1).map fun p => (parsedFileName d.fname rank p.1, p.2)

variable {K : Type} [Field K] [LinearOrder K]

/-- The calls a physical time diagnostic makes when it is executed at some times, for each time, with the text of the field. -/
def deltaCalls (d : Delta K) (master : Bool) (rank : ℤ) : List (K × List Char) → List (List (Call × List Char))
  | [] => []
  | (now, text) :: l => (d.execute master rank now).1.map (fun c => (c, text)) :: deltaCalls (d.execute master rank now).2 master rank l

/-- The texts of the executions that write. -/
def textsWritten (calls : List (List (Call × List Char))) : List (List Char) :=
  calls.filterMap fun cs => (cs.find? fun c => c.1 = .write).map Prod.snd

/-- The files after some texts have been written, each to its own file or over what was there before. -/
def written (D : Disk) : List (List Char × List Char) → Disk
  | [] => D
  | (name, text) :: l => written (Function.update D name (some text)) l

end Schnek.Spec
