import Verif.Model.Files
import Verif.Spec.Blocks

/-!
# Several files read with the same parser
-/

namespace Schnek.Spec

open Schnek.Deck

variable {F W : Type}

/-- The state before the first statement of a file, if the files `previous` have been read before with the same parser, whether they were
accepted or not. -/
def Program.beginNext (P : Program F W) (previous : List (List (Stmt F))) : DeckState F W :=
  previous.foldl (fun D file => (D.readFile P.host file).2.again P.host) P.begin

/-- The state after some statements of that file, or at the first error in them. -/
def Program.afterNext (P : Program F W) (previous : List (List (Stmt F))) (deck : List (Stmt F)) : DeckState F W :=
  ((P.beginNext previous).run P.host deck).2

end Schnek.Spec
