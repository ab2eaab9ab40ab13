import Verif.Model.Lemon
import Verif.Spec.DeckGrammar

/-!
# Items of the states of the parser

For every state of the parser, the positions in rules it stands for, with the tokens that may follow the rule. This is not part of the
model: it is found by a closure computation outside of Lean and checked here against the tables.
-/

namespace Schnek.Lemma.Lemon

open Schnek.Lemon Schnek.Spec
open Scanner (Kind)

/-- number of a nonterminal in the tables -/
def ntCode : NT → ℕ
  | .deck => 23
  | .statementlist => 24
  | .statement => 25
  | .typedecl => 26
  | .decllist => 27
  | .assignment => 28
  | .startblock => 29
  | .declaration => 30
  | .expression => 31
  | .signedTerm => 32
  | .unsignedExpr => 33
  | .term => 34
  | .power => 35
  | .atomic => 36
  | .signedAtomic => 37
  | .exprList => 38
  | .value => 39

/-- number of a symbol in the tables -/
def symCode : Sym → ℕ
  | .t k => k.code
  | .n N => ntCode N
  | .error => 22

/-- an item: rule, position and the tokens that may follow -/
structure Item where
  rule : ℕ
  pos : ℕ
  la : List ℕ

/-- items of the states -/
def items : List (List Item) := [
  [⟨0, 0, [0]⟩, ⟨1, 0, [0, 7, 9, 10, 19, 20, 21, 22]⟩, ⟨2, 0, [0, 7, 9, 10, 19, 20, 21, 22]⟩,
   ⟨3, 0, [0, 7, 9, 10, 19, 20, 21, 22]⟩, ⟨4, 0, [0, 7, 9, 10, 19, 20, 21, 22]⟩, ⟨5, 0, [0, 7, 9, 10, 19, 20, 21, 22]⟩,
   ⟨6, 0, [0, 7, 9, 10, 19, 20, 21, 22]⟩, ⟨7, 0, [0, 7, 9, 10, 19, 20, 21, 22]⟩, ⟨8, 0, [0, 7, 9, 10, 19, 20, 21, 22]⟩,
   ⟨45, 0, [10, 22]⟩, ⟨46, 0, [10, 22]⟩, ⟨47, 0, [10, 22]⟩, ⟨16, 0, [6]⟩, ⟨9, 0, [0, 7, 9, 10, 19, 20, 21, 22]⟩,
   ⟨10, 0, [0, 7, 9, 10, 19, 20, 21, 22]⟩],
  [⟨35, 2, [1, 2, 3, 4, 5, 6, 12, 15]⟩, ⟨36, 2, [1, 2, 3, 4, 5, 6, 12, 15]⟩, ⟨38, 0, [12, 15]⟩, ⟨39, 0, [12, 15]⟩,
   ⟨17, 0, [12, 15]⟩, ⟨18, 0, [12, 15]⟩, ⟨19, 0, [12, 15]⟩, ⟨23, 0, [1, 2, 12, 15]⟩, ⟨24, 0, [1, 2, 12, 15]⟩,
   ⟨25, 0, [1, 2, 12, 15]⟩, ⟨26, 0, [1, 2, 12, 15]⟩, ⟨27, 0, [1, 2, 12, 15]⟩, ⟨28, 0, [1, 2, 12, 15]⟩,
   ⟨29, 0, [1, 2, 3, 4, 12, 15]⟩, ⟨30, 0, [1, 2, 3, 4, 12, 15]⟩, ⟨34, 0, [1, 2, 3, 4, 5, 12, 15]⟩,
   ⟨35, 0, [1, 2, 3, 4, 5, 12, 15]⟩, ⟨36, 0, [1, 2, 3, 4, 5, 12, 15]⟩, ⟨37, 0, [1, 2, 3, 4, 5, 12, 15]⟩,
   ⟨40, 0, [1, 2, 3, 4, 5, 12, 15]⟩, ⟨41, 0, [1, 2, 3, 4, 5, 12, 15]⟩, ⟨42, 0, [1, 2, 3, 4, 5, 12, 15]⟩,
   ⟨43, 0, [1, 2, 3, 4, 5, 12, 15]⟩, ⟨44, 0, [1, 2, 3, 4, 5, 12, 15]⟩],
  [⟨38, 2, [12, 15]⟩, ⟨17, 0, [12, 15]⟩, ⟨18, 0, [12, 15]⟩, ⟨19, 0, [12, 15]⟩, ⟨23, 0, [1, 2, 12, 15]⟩, ⟨24, 0, [1, 2, 12, 15]⟩,
   ⟨25, 0, [1, 2, 12, 15]⟩, ⟨26, 0, [1, 2, 12, 15]⟩, ⟨27, 0, [1, 2, 12, 15]⟩, ⟨28, 0, [1, 2, 12, 15]⟩,
   ⟨29, 0, [1, 2, 3, 4, 12, 15]⟩, ⟨30, 0, [1, 2, 3, 4, 12, 15]⟩, ⟨34, 0, [1, 2, 3, 4, 5, 12, 15]⟩,
   ⟨35, 0, [1, 2, 3, 4, 5, 12, 15]⟩, ⟨36, 0, [1, 2, 3, 4, 5, 12, 15]⟩, ⟨37, 0, [1, 2, 3, 4, 5, 12, 15]⟩,
   ⟨40, 0, [1, 2, 3, 4, 5, 12, 15]⟩, ⟨41, 0, [1, 2, 3, 4, 5, 12, 15]⟩, ⟨42, 0, [1, 2, 3, 4, 5, 12, 15]⟩,
   ⟨43, 0, [1, 2, 3, 4, 5, 12, 15]⟩, ⟨44, 0, [1, 2, 3, 4, 5, 12, 15]⟩],
  [⟨16, 2, [6, 12]⟩, ⟨17, 0, [6, 12]⟩, ⟨18, 0, [6, 12]⟩, ⟨19, 0, [6, 12]⟩, ⟨23, 0, [1, 2, 6, 12]⟩, ⟨24, 0, [1, 2, 6, 12]⟩,
   ⟨25, 0, [1, 2, 6, 12]⟩, ⟨26, 0, [1, 2, 6, 12]⟩, ⟨27, 0, [1, 2, 6, 12]⟩, ⟨28, 0, [1, 2, 6, 12]⟩, ⟨29, 0, [1, 2, 3, 4, 6, 12]⟩,
   ⟨30, 0, [1, 2, 3, 4, 6, 12]⟩, ⟨34, 0, [1, 2, 3, 4, 5, 6, 12]⟩, ⟨35, 0, [1, 2, 3, 4, 5, 6, 12]⟩,
   ⟨36, 0, [1, 2, 3, 4, 5, 6, 12]⟩, ⟨37, 0, [1, 2, 3, 4, 5, 6, 12]⟩, ⟨40, 0, [1, 2, 3, 4, 5, 6, 12]⟩,
   ⟨41, 0, [1, 2, 3, 4, 5, 6, 12]⟩, ⟨42, 0, [1, 2, 3, 4, 5, 6, 12]⟩, ⟨43, 0, [1, 2, 3, 4, 5, 6, 12]⟩,
   ⟨44, 0, [1, 2, 3, 4, 5, 6, 12]⟩],
  [⟨34, 1, [1, 2, 3, 4, 5, 6, 12, 15]⟩, ⟨17, 0, [15]⟩, ⟨18, 0, [15]⟩, ⟨19, 0, [15]⟩, ⟨23, 0, [1, 2, 15]⟩, ⟨24, 0, [1, 2, 15]⟩,
   ⟨25, 0, [1, 2, 15]⟩, ⟨26, 0, [1, 2, 15]⟩, ⟨27, 0, [1, 2, 15]⟩, ⟨28, 0, [1, 2, 15]⟩, ⟨29, 0, [1, 2, 3, 4, 15]⟩,
   ⟨30, 0, [1, 2, 3, 4, 15]⟩, ⟨34, 0, [1, 2, 3, 4, 5, 15]⟩, ⟨35, 0, [1, 2, 3, 4, 5, 15]⟩, ⟨36, 0, [1, 2, 3, 4, 5, 15]⟩,
   ⟨37, 0, [1, 2, 3, 4, 5, 15]⟩, ⟨40, 0, [1, 2, 3, 4, 5, 15]⟩, ⟨41, 0, [1, 2, 3, 4, 5, 15]⟩, ⟨42, 0, [1, 2, 3, 4, 5, 15]⟩,
   ⟨43, 0, [1, 2, 3, 4, 5, 15]⟩, ⟨44, 0, [1, 2, 3, 4, 5, 15]⟩],
  [⟨0, 1, [0]⟩, ⟨1, 1, [0, 7, 9, 10, 19, 20, 21, 22]⟩, ⟨3, 0, [0, 7, 9, 10, 19, 20, 21, 22]⟩,
   ⟨4, 0, [0, 7, 9, 10, 19, 20, 21, 22]⟩, ⟨5, 0, [0, 7, 9, 10, 19, 20, 21, 22]⟩, ⟨6, 0, [0, 7, 9, 10, 19, 20, 21, 22]⟩,
   ⟨7, 0, [0, 7, 9, 10, 19, 20, 21, 22]⟩, ⟨8, 0, [0, 7, 9, 10, 19, 20, 21, 22]⟩, ⟨45, 0, [10, 22]⟩, ⟨46, 0, [10, 22]⟩,
   ⟨47, 0, [10, 22]⟩, ⟨16, 0, [6]⟩, ⟨9, 0, [0, 7, 9, 10, 19, 20, 21, 22]⟩, ⟨10, 0, [0, 7, 9, 10, 19, 20, 21, 22]⟩],
  [⟨20, 2, [6, 12, 15]⟩, ⟨20, 0, [6, 12, 15]⟩, ⟨21, 0, [6, 12, 15]⟩, ⟨22, 0, [6, 12, 15]⟩, ⟨26, 0, [1, 2, 6, 12, 15]⟩,
   ⟨27, 0, [1, 2, 6, 12, 15]⟩, ⟨28, 0, [1, 2, 6, 12, 15]⟩, ⟨29, 0, [1, 2, 3, 4, 6, 12, 15]⟩, ⟨30, 0, [1, 2, 3, 4, 6, 12, 15]⟩,
   ⟨34, 0, [1, 2, 3, 4, 5, 6, 12, 15]⟩, ⟨35, 0, [1, 2, 3, 4, 5, 6, 12, 15]⟩, ⟨36, 0, [1, 2, 3, 4, 5, 6, 12, 15]⟩,
   ⟨37, 0, [1, 2, 3, 4, 5, 6, 12, 15]⟩, ⟨40, 0, [1, 2, 3, 4, 5, 6, 12, 15]⟩, ⟨41, 0, [1, 2, 3, 4, 5, 6, 12, 15]⟩,
   ⟨42, 0, [1, 2, 3, 4, 5, 6, 12, 15]⟩, ⟨43, 0, [1, 2, 3, 4, 5, 6, 12, 15]⟩, ⟨44, 0, [1, 2, 3, 4, 5, 6, 12, 15]⟩],
  [⟨21, 2, [6, 12, 15]⟩, ⟨20, 0, [6, 12, 15]⟩, ⟨21, 0, [6, 12, 15]⟩, ⟨22, 0, [6, 12, 15]⟩, ⟨26, 0, [1, 2, 6, 12, 15]⟩,
   ⟨27, 0, [1, 2, 6, 12, 15]⟩, ⟨28, 0, [1, 2, 6, 12, 15]⟩, ⟨29, 0, [1, 2, 3, 4, 6, 12, 15]⟩, ⟨30, 0, [1, 2, 3, 4, 6, 12, 15]⟩,
   ⟨34, 0, [1, 2, 3, 4, 5, 6, 12, 15]⟩, ⟨35, 0, [1, 2, 3, 4, 5, 6, 12, 15]⟩, ⟨36, 0, [1, 2, 3, 4, 5, 6, 12, 15]⟩,
   ⟨37, 0, [1, 2, 3, 4, 5, 6, 12, 15]⟩, ⟨40, 0, [1, 2, 3, 4, 5, 6, 12, 15]⟩, ⟨41, 0, [1, 2, 3, 4, 5, 6, 12, 15]⟩,
   ⟨42, 0, [1, 2, 3, 4, 5, 6, 12, 15]⟩, ⟨43, 0, [1, 2, 3, 4, 5, 6, 12, 15]⟩, ⟨44, 0, [1, 2, 3, 4, 5, 6, 12, 15]⟩],
  [⟨18, 2, [6, 12, 15]⟩, ⟨20, 0, [6, 12, 15]⟩, ⟨21, 0, [6, 12, 15]⟩, ⟨22, 0, [6, 12, 15]⟩, ⟨26, 0, [1, 2, 6, 12, 15]⟩,
   ⟨27, 0, [1, 2, 6, 12, 15]⟩, ⟨28, 0, [1, 2, 6, 12, 15]⟩, ⟨29, 0, [1, 2, 3, 4, 6, 12, 15]⟩, ⟨30, 0, [1, 2, 3, 4, 6, 12, 15]⟩,
   ⟨34, 0, [1, 2, 3, 4, 5, 6, 12, 15]⟩, ⟨35, 0, [1, 2, 3, 4, 5, 6, 12, 15]⟩, ⟨36, 0, [1, 2, 3, 4, 5, 6, 12, 15]⟩,
   ⟨37, 0, [1, 2, 3, 4, 5, 6, 12, 15]⟩, ⟨40, 0, [1, 2, 3, 4, 5, 6, 12, 15]⟩, ⟨41, 0, [1, 2, 3, 4, 5, 6, 12, 15]⟩,
   ⟨42, 0, [1, 2, 3, 4, 5, 6, 12, 15]⟩, ⟨43, 0, [1, 2, 3, 4, 5, 6, 12, 15]⟩, ⟨44, 0, [1, 2, 3, 4, 5, 6, 12, 15]⟩],
  [⟨17, 2, [6, 12, 15]⟩, ⟨20, 0, [6, 12, 15]⟩, ⟨21, 0, [6, 12, 15]⟩, ⟨22, 0, [6, 12, 15]⟩, ⟨26, 0, [1, 2, 6, 12, 15]⟩,
   ⟨27, 0, [1, 2, 6, 12, 15]⟩, ⟨28, 0, [1, 2, 6, 12, 15]⟩, ⟨29, 0, [1, 2, 3, 4, 6, 12, 15]⟩, ⟨30, 0, [1, 2, 3, 4, 6, 12, 15]⟩,
   ⟨34, 0, [1, 2, 3, 4, 5, 6, 12, 15]⟩, ⟨35, 0, [1, 2, 3, 4, 5, 6, 12, 15]⟩, ⟨36, 0, [1, 2, 3, 4, 5, 6, 12, 15]⟩,
   ⟨37, 0, [1, 2, 3, 4, 5, 6, 12, 15]⟩, ⟨40, 0, [1, 2, 3, 4, 5, 6, 12, 15]⟩, ⟨41, 0, [1, 2, 3, 4, 5, 6, 12, 15]⟩,
   ⟨42, 0, [1, 2, 3, 4, 5, 6, 12, 15]⟩, ⟨43, 0, [1, 2, 3, 4, 5, 6, 12, 15]⟩, ⟨44, 0, [1, 2, 3, 4, 5, 6, 12, 15]⟩],
  [⟨27, 2, [1, 2, 6, 12, 15]⟩, ⟨26, 0, [1, 2, 6, 12, 15]⟩, ⟨27, 0, [1, 2, 6, 12, 15]⟩, ⟨28, 0, [1, 2, 6, 12, 15]⟩,
   ⟨29, 0, [1, 2, 3, 4, 6, 12, 15]⟩, ⟨30, 0, [1, 2, 3, 4, 6, 12, 15]⟩, ⟨34, 0, [1, 2, 3, 4, 5, 6, 12, 15]⟩,
   ⟨35, 0, [1, 2, 3, 4, 5, 6, 12, 15]⟩, ⟨36, 0, [1, 2, 3, 4, 5, 6, 12, 15]⟩, ⟨37, 0, [1, 2, 3, 4, 5, 6, 12, 15]⟩,
   ⟨40, 0, [1, 2, 3, 4, 5, 6, 12, 15]⟩, ⟨41, 0, [1, 2, 3, 4, 5, 6, 12, 15]⟩, ⟨42, 0, [1, 2, 3, 4, 5, 6, 12, 15]⟩,
   ⟨43, 0, [1, 2, 3, 4, 5, 6, 12, 15]⟩, ⟨44, 0, [1, 2, 3, 4, 5, 6, 12, 15]⟩],
  [⟨26, 2, [1, 2, 6, 12, 15]⟩, ⟨26, 0, [1, 2, 6, 12, 15]⟩, ⟨27, 0, [1, 2, 6, 12, 15]⟩, ⟨28, 0, [1, 2, 6, 12, 15]⟩,
   ⟨29, 0, [1, 2, 3, 4, 6, 12, 15]⟩, ⟨30, 0, [1, 2, 3, 4, 6, 12, 15]⟩, ⟨34, 0, [1, 2, 3, 4, 5, 6, 12, 15]⟩,
   ⟨35, 0, [1, 2, 3, 4, 5, 6, 12, 15]⟩, ⟨36, 0, [1, 2, 3, 4, 5, 6, 12, 15]⟩, ⟨37, 0, [1, 2, 3, 4, 5, 6, 12, 15]⟩,
   ⟨40, 0, [1, 2, 3, 4, 5, 6, 12, 15]⟩, ⟨41, 0, [1, 2, 3, 4, 5, 6, 12, 15]⟩, ⟨42, 0, [1, 2, 3, 4, 5, 6, 12, 15]⟩,
   ⟨43, 0, [1, 2, 3, 4, 5, 6, 12, 15]⟩, ⟨44, 0, [1, 2, 3, 4, 5, 6, 12, 15]⟩],
  [⟨24, 1, [1, 2, 6, 12, 15]⟩, ⟨26, 0, [1, 2, 6, 12, 15]⟩, ⟨27, 0, [1, 2, 6, 12, 15]⟩, ⟨28, 0, [1, 2, 6, 12, 15]⟩,
   ⟨29, 0, [1, 2, 3, 4, 6, 12, 15]⟩, ⟨30, 0, [1, 2, 3, 4, 6, 12, 15]⟩, ⟨34, 0, [1, 2, 3, 4, 5, 6, 12, 15]⟩,
   ⟨35, 0, [1, 2, 3, 4, 5, 6, 12, 15]⟩, ⟨36, 0, [1, 2, 3, 4, 5, 6, 12, 15]⟩, ⟨37, 0, [1, 2, 3, 4, 5, 6, 12, 15]⟩,
   ⟨40, 0, [1, 2, 3, 4, 5, 6, 12, 15]⟩, ⟨41, 0, [1, 2, 3, 4, 5, 6, 12, 15]⟩, ⟨42, 0, [1, 2, 3, 4, 5, 6, 12, 15]⟩,
   ⟨43, 0, [1, 2, 3, 4, 5, 6, 12, 15]⟩, ⟨44, 0, [1, 2, 3, 4, 5, 6, 12, 15]⟩],
  [⟨23, 1, [1, 2, 6, 12, 15]⟩, ⟨26, 0, [1, 2, 6, 12, 15]⟩, ⟨27, 0, [1, 2, 6, 12, 15]⟩, ⟨28, 0, [1, 2, 6, 12, 15]⟩,
   ⟨29, 0, [1, 2, 3, 4, 6, 12, 15]⟩, ⟨30, 0, [1, 2, 3, 4, 6, 12, 15]⟩, ⟨34, 0, [1, 2, 3, 4, 5, 6, 12, 15]⟩,
   ⟨35, 0, [1, 2, 3, 4, 5, 6, 12, 15]⟩, ⟨36, 0, [1, 2, 3, 4, 5, 6, 12, 15]⟩, ⟨37, 0, [1, 2, 3, 4, 5, 6, 12, 15]⟩,
   ⟨40, 0, [1, 2, 3, 4, 5, 6, 12, 15]⟩, ⟨41, 0, [1, 2, 3, 4, 5, 6, 12, 15]⟩, ⟨42, 0, [1, 2, 3, 4, 5, 6, 12, 15]⟩,
   ⟨43, 0, [1, 2, 3, 4, 5, 6, 12, 15]⟩, ⟨44, 0, [1, 2, 3, 4, 5, 6, 12, 15]⟩],
  [⟨3, 1, [0, 7, 9, 10, 19, 20, 21, 22]⟩, ⟨11, 0, [6, 12]⟩, ⟨12, 0, [6, 12]⟩, ⟨13, 0, [6, 12]⟩, ⟨14, 0, [6, 12]⟩,
   ⟨15, 0, [6, 12]⟩, ⟨16, 0, [6, 12]⟩],
  [⟨29, 2, [1, 2, 3, 4, 6, 12, 15]⟩, ⟨31, 0, [1, 2, 3, 4, 6, 12, 15]⟩, ⟨32, 0, [1, 2, 3, 4, 6, 12, 15]⟩,
   ⟨33, 0, [1, 2, 3, 4, 6, 12, 15]⟩, ⟨34, 0, [1, 2, 3, 4, 6, 12, 15]⟩, ⟨35, 0, [1, 2, 3, 4, 6, 12, 15]⟩,
   ⟨36, 0, [1, 2, 3, 4, 6, 12, 15]⟩, ⟨37, 0, [1, 2, 3, 4, 6, 12, 15]⟩, ⟨40, 0, [1, 2, 3, 4, 6, 12, 15]⟩,
   ⟨41, 0, [1, 2, 3, 4, 6, 12, 15]⟩, ⟨42, 0, [1, 2, 3, 4, 6, 12, 15]⟩, ⟨43, 0, [1, 2, 3, 4, 6, 12, 15]⟩,
   ⟨44, 0, [1, 2, 3, 4, 6, 12, 15]⟩],
  [⟨11, 2, [6, 12]⟩, ⟨13, 0, [6, 12]⟩, ⟨14, 0, [6, 12]⟩, ⟨15, 0, [6, 12]⟩, ⟨16, 0, [6, 12]⟩],
  [⟨31, 1, [1, 2, 3, 4, 6, 12, 15]⟩, ⟨34, 0, [1, 2, 3, 4, 6, 12, 15]⟩, ⟨35, 0, [1, 2, 3, 4, 6, 12, 15]⟩,
   ⟨36, 0, [1, 2, 3, 4, 6, 12, 15]⟩, ⟨37, 0, [1, 2, 3, 4, 6, 12, 15]⟩, ⟨40, 0, [1, 2, 3, 4, 6, 12, 15]⟩,
   ⟨41, 0, [1, 2, 3, 4, 6, 12, 15]⟩, ⟨42, 0, [1, 2, 3, 4, 6, 12, 15]⟩, ⟨43, 0, [1, 2, 3, 4, 6, 12, 15]⟩,
   ⟨44, 0, [1, 2, 3, 4, 6, 12, 15]⟩],
  [⟨32, 1, [1, 2, 3, 4, 6, 12, 15]⟩, ⟨34, 0, [1, 2, 3, 4, 6, 12, 15]⟩, ⟨35, 0, [1, 2, 3, 4, 6, 12, 15]⟩,
   ⟨36, 0, [1, 2, 3, 4, 6, 12, 15]⟩, ⟨37, 0, [1, 2, 3, 4, 6, 12, 15]⟩, ⟨40, 0, [1, 2, 3, 4, 6, 12, 15]⟩,
   ⟨41, 0, [1, 2, 3, 4, 6, 12, 15]⟩, ⟨42, 0, [1, 2, 3, 4, 6, 12, 15]⟩, ⟨43, 0, [1, 2, 3, 4, 6, 12, 15]⟩,
   ⟨44, 0, [1, 2, 3, 4, 6, 12, 15]⟩],
  [⟨16, 1, [6]⟩, ⟨9, 1, [0, 7, 9, 10, 19, 20, 21, 22]⟩, ⟨10, 1, [0, 7, 9, 10, 19, 20, 21, 22]⟩],
  [⟨3, 2, [0, 7, 9, 10, 19, 20, 21, 22]⟩, ⟨11, 1, [6, 12]⟩],
  [⟨26, 1, [1, 2, 6, 12, 15]⟩, ⟨27, 1, [1, 2, 6, 12, 15]⟩, ⟨28, 1, [1, 2, 6, 12, 15]⟩],
  [⟨35, 3, [1, 2, 3, 4, 5, 6, 12, 15]⟩, ⟨38, 1, [12, 15]⟩],
  [⟨20, 1, [6, 12, 15]⟩, ⟨21, 1, [6, 12, 15]⟩, ⟨22, 1, [6, 12, 15]⟩],
  [⟨17, 1, [6, 12, 15]⟩, ⟨18, 1, [6, 12, 15]⟩, ⟨19, 1, [6, 12, 15]⟩],
  [⟨34, 2, [1, 2, 3, 4, 5, 6, 12, 15]⟩],
  [⟨4, 1, [0, 7, 9, 10, 19, 20, 21, 22]⟩],
  [⟨5, 1, [0, 7, 9, 10, 19, 20, 21, 22]⟩],
  [⟨5, 2, [0, 7, 9, 10, 19, 20, 21, 22]⟩],
  [⟨9, 2, [0, 7, 9, 10, 19, 20, 21, 22]⟩],
  [⟨13, 1, [6, 12]⟩, ⟨16, 1, [6, 12]⟩],
  [⟨29, 1, [1, 2, 3, 4, 6, 12, 15]⟩, ⟨30, 1, [1, 2, 3, 4, 6, 12, 15]⟩],
  [⟨35, 1, [1, 2, 3, 4, 5, 6, 12, 15]⟩, ⟨36, 1, [1, 2, 3, 4, 5, 6, 12, 15]⟩, ⟨41, 1, [1, 2, 3, 4, 5, 6, 12, 15]⟩],
  [⟨5, 3, [0, 7, 9, 10, 19, 20, 21, 22]⟩],
  [⟨6, 1, [0, 7, 9, 10, 19, 20, 21, 22]⟩],
  [⟨7, 1, [0, 7, 9, 10, 19, 20, 21, 22]⟩],
  [],
  [⟨9, 3, [0, 7, 9, 10, 19, 20, 21, 22]⟩],
  [⟨10, 2, [0, 7, 9, 10, 19, 20, 21, 22]⟩],
  [⟨45, 1, [10, 22]⟩],
  [⟨46, 1, [10, 22]⟩],
  [⟨47, 1, [10, 22]⟩],
  [⟨2, 1, [0, 7, 9, 10, 19, 20, 21, 22]⟩],
  [⟨1, 2, [0, 7, 9, 10, 19, 20, 21, 22]⟩],
  [⟨3, 3, [0, 7, 9, 10, 19, 20, 21, 22]⟩],
  [⟨11, 3, [6, 12]⟩],
  [⟨16, 3, [6, 12]⟩],
  [⟨17, 3, [6, 12, 15]⟩],
  [⟨20, 3, [6, 12, 15]⟩],
  [⟨26, 3, [1, 2, 6, 12, 15]⟩],
  [⟨29, 3, [1, 2, 3, 4, 6, 12, 15]⟩],
  [⟨31, 2, [1, 2, 3, 4, 6, 12, 15]⟩],
  [⟨23, 2, [1, 2, 6, 12, 15]⟩],
  [⟨24, 2, [1, 2, 6, 12, 15]⟩],
  [⟨37, 1, [1, 2, 3, 4, 5, 6, 12, 15]⟩],
  [⟨40, 1, [1, 2, 3, 4, 5, 6, 12, 15]⟩],
  [⟨42, 1, [1, 2, 3, 4, 5, 6, 12, 15]⟩],
  [⟨43, 1, [1, 2, 3, 4, 5, 6, 12, 15]⟩],
  [⟨44, 1, [1, 2, 3, 4, 5, 6, 12, 15]⟩],
  [⟨25, 1, [1, 2, 6, 12, 15]⟩],
  [⟨35, 4, [1, 2, 3, 4, 5, 6, 12, 15]⟩],
  [⟨38, 3, [12, 15]⟩],
  [⟨36, 3, [1, 2, 3, 4, 5, 6, 12, 15]⟩],
  [⟨39, 1, [12, 15]⟩],
  [⟨34, 3, [1, 2, 3, 4, 5, 6, 12, 15]⟩],
  [⟨32, 2, [1, 2, 3, 4, 6, 12, 15]⟩],
  [⟨33, 1, [1, 2, 3, 4, 6, 12, 15]⟩],
  [⟨27, 3, [1, 2, 6, 12, 15]⟩],
  [⟨21, 3, [6, 12, 15]⟩],
  [⟨18, 3, [6, 12, 15]⟩],
  [⟨14, 1, [6, 12]⟩],
  [],
  [⟨12, 1, [6, 12]⟩],
  [⟨4, 2, [0, 7, 9, 10, 19, 20, 21, 22]⟩]]

/-- the first tokens of what a nonterminal generates -/
def firstOf : List (List ℕ) := [
  [7, 9, 10, 19, 20, 21, 22],
  [7, 9, 10, 19, 20, 21, 22],
  [7, 9, 10, 19, 20, 21, 22],
  [19, 20, 21],
  [10, 22],
  [10],
  [10],
  [10, 22],
  [1, 2, 8, 10, 14, 16, 17, 18],
  [1, 2, 8, 10, 14, 16, 17, 18],
  [8, 10, 14, 16, 17, 18],
  [8, 10, 14, 16, 17, 18],
  [8, 10, 14, 16, 17, 18],
  [8, 10, 14, 16, 17, 18],
  [1, 2, 8, 10, 14, 16, 17, 18],
  [1, 2, 8, 10, 14, 16, 17, 18],
  [8, 10, 16, 17, 18]]

/-- the first tokens of what a symbol generates -/
def first (X : ℕ) : List ℕ := if X < 23 then [X] else firstOf.getD (X - 23) []

/-- right hand side of a rule -/
def rhsC (r : ℕ) : List ℕ := ((rules[r]?).map fun p => p.2.map symCode).getD []

/-- left hand side of a rule -/
def lhsC (r : ℕ) : ℕ := ((rules[r]?).map fun p => ntCode p.1).getD 0

/-- the state has this item with this token -/
def has (s r p a : ℕ) : Bool := (items.getD s []).any fun i => i.rule == r && i.pos == p && i.la.contains a

/-- the state has this item -/
def core (s r p : ℕ) : Bool := (items.getD s []).any fun i => i.rule == r && i.pos == p

/-- the next state -/
def goto (s X : ℕ) : ℕ := if X < 22 then findShift s X else findReduce s X

/-- what has to hold for an item of a state -/
def itemOk (s : ℕ) (i : Item) : Bool :=
  match (rhsC i.rule)[i.pos]? with
  | none => i.la.all fun a => findShift s a == nState + i.rule
  | some X =>
    X == 22 ||
    (decide (goto s X < nState) && (i.la.all fun a => has (goto s X) i.rule (i.pos + 1) a) &&
      (decide (X < 23) || (List.range 48).all fun r => lhsC r != X ||
        (match (rhsC i.rule)[i.pos + 1]? with
          | none => i.la
          | some Y => first Y).all fun b => has s r 0 b))

/-- all items are closed under reading symbols -/
def complete : Bool := (List.range nState).all fun s => (items.getD s []).all (itemOk s)

/-- states that are entered -/
def live (s : ℕ) : Bool := decide (s < nState) && s != 36 && s != 71

/-- a transition comes from an item -/
def gotoOk (s X : ℕ) : Bool :=
  decide (nState ≤ goto s X) ||
  (live (goto s X) && goto s X != 0 &&
    (items.getD (goto s X) []).all fun i => i.pos == 0 || (rhsC i.rule)[i.pos - 1]? == some X && core s i.rule (i.pos - 1))

/-- a reduction comes from an item -/
def reduceOk (s a : ℕ) : Bool :=
  let x := findShift s a
  if x < nState then a != 0
  else if x < nState + nRule then core s (x - nState) (rhsC (x - nState)).length && (x != nState || a == 0)
  else x == errorAction

/-- a reduction can be finished -/
def startOk (s r : ℕ) : Bool :=
  !core s r 0 || (if r = 0 then s == 0 && findReduce s (lhsC r) == acceptAction else decide (findReduce s (lhsC r) < nState))

/-- everything comes from items -/
def sound : Bool := (List.range nState).all fun s => !live s ||
  (((List.range 40).all fun X => X == 22 || gotoOk s X) && ((List.range 22).all (reduceOk s)) && ((List.range 48).all (startOk s)))

/-- an item at the beginning of a rule comes from an item before -/
def parentOk (l : List Item) (n : ℕ) : Bool :=
  match l[n]? with
  | none => true
  | some i => i.pos != 0 || i.rule == 0 ||
      (List.range n).any fun m => match l[m]? with
        | none => false
        | some j => (rhsC j.rule)[j.pos]? == some (lhsC i.rule)

/-- every state has an item, and every item comes from somewhere -/
def viable : Bool := (List.range nState).all fun s => !live s ||
  ((match (items.getD s [])[0]? with
    | none => false
    | some i => i.rule != 8 && i.rule != 15) && (List.range (items.getD s []).length).all (parentOk (items.getD s [])))

/-- the first tokens are closed under the rules -/
def firstOk : Bool := (List.range 48).all fun r => (first ((rhsC r).headD 0)).all fun a => (first (lhsC r)).contains a

/-- the table of the rules is that of the grammar -/
def infoOk : Bool := yyRuleInfo == (List.range 48).map fun r => (lhsC r, (rhsC r).length)

/-- weights of symbols such that every reduction loses weight -/
def weight (X : ℕ) : ℕ :=
  if X < 23 then 20 else [1, 2, 3, 5, 2, 4, 4, 3, 5, 6, 7, 8, 9, 11, 10, 4, 12].getD (X - 23) 0

/-- every reduction loses weight -/
def weightOk : Bool := (List.range 48).all fun r => decide (weight (lhsC r) < ((rhsC r).map weight).sum)

theorem complete_true : complete = true := by decide +kernel

theorem sound_true : sound = true := by decide +kernel

theorem viable_true : viable = true := by decide +kernel

theorem firstOk_true : firstOk = true := by decide +kernel

theorem infoOk_true : infoOk = true := by decide +kernel

theorem weightOk_true : weightOk = true := by decide +kernel

end Schnek.Lemma.Lemon
