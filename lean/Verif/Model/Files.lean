import Verif.Model.Blocks

/-!
# Model of reading several files with the same parser

`src/parser/parser.cpp`, `src/parser/parser.hpp`

The variables belong to the `Parser`, and so does the position in the blocks of the file; the tree of blocks is made anew by each call of
`parse`.
-/

namespace Schnek.Deck.DeckState

variable {F W : Type}

/-- The statements of a file and the end of `Parser::parse`: parser.cpp 83-101. The state is what is left in the parser when `parse` returns
(`true`) or throws an exception (`false`). If a variable depends on itself, then an assertion fails, `parse` does not return to the program,
and the state is of no importance. -/
def readFile (H : Host F W) (D : DeckState F W) (deck : List (Stmt F)) : Bool × DeckState F W :=
  match D.run H deck with
  | (true, D') =>
    match D'.finish H with
    | some D'' => (true, D'')
    | none => (false, D')
  | (false, D') => (false, D')

/-- The beginning of `Parser::parse` for a further file: parser.cpp 64-81. The context of the root block is the current block of the storage,
wherever the files before have left it. -/
def again (H : Host F W) (D : DeckState F W) : DeckState F W :=
  match D.store.blocks[0]? with
  | some B => enterBlock H { D with tree := BlockTree.empty } B.name B.className
  | none => { D with tree := BlockTree.empty }

end Schnek.Deck.DeckState
