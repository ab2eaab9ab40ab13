import Verif.Model.Blocks
import Verif.Model.Diagnostic

/-!
# Diagnostics are blocks of the setup file

`src/diagnostic/diagnostic.hpp`, `src/diagnostic/diagnostic.cpp`, `src/diagnostic/diagnostic.t`

What diagnostics do with their parameters is in Diagnostic.lean and FileDiagnostic.lean.
-/

namespace Schnek.Deck

open Diagnostic

variable {F W : Type}

/-- the parameter `file` of diagnostics, the member is empty before: diagnostic.cpp 37, 45 -/
def fileParam : ParamSpec F := ⟨"file", .str "", none, false, false, by simp⟩

/-- the parameter `append` of diagnostics: diagnostic.cpp 37, 46 -/
def appendParam : ParamSpec F := ⟨"append", .int 0, some (.int 0), false, false, by simp [Val.ty]⟩

/-- the parameter `interval` of interval diagnostics: diagnostic.cpp 97, 119 -/
def intervalParam : ParamSpec F := ⟨"interval", .int 100, some (.int 100), false, false, by simp [Val.ty]⟩

/-- the parameter `deltaTime` of physical time diagnostics: diagnostic.cpp 126, 160 -/
def deltaTimeParam (O : FloatOps F) : ParamSpec F := ⟨"deltaTime", .float (O.ofInt 1), some (.float (O.ofInt 1)), false, false, by simp [Val.ty]⟩

/-- the parameter `delay` of physical time diagnostics, whose member is `nextOutput`: diagnostic.cpp 126, 161 -/
def delayParam (O : FloatOps F) : ParamSpec F := ⟨"delay", .float (O.ofInt 0), some (.float (O.ofInt 0)), false, false, by simp [Val.ty]⟩

/-- `DiagnosticInterface::initParameters`: diagnostic.cpp 41-47 -/
def interfaceParams : List (ParamSpec F) := [fileParam, appendParam]

/-- `IntervalDiagnostic::initParameters`: diagnostic.cpp 116-120 -/
def intervalParams : List (ParamSpec F) := interfaceParams ++ [intervalParam]

/-- `DeltaTimeDiagnostic::initParameters`: diagnostic.cpp 157-162 -/
def deltaParams (O : FloatOps F) : List (ParamSpec F) := interfaceParams ++ [deltaTimeParam O, delayParam O]

/-- the parameter `field` of diagnostics: diagnostic.t 46 -/
def fieldParam : ParamSpec F := ⟨"field", .str "", none, false, false, by simp⟩

/-- `SimpleDiagnostic::initParameters`: diagnostic.t 42-47; `base` is the base class -/
def simpleParams (base : List (ParamSpec F)) : List (ParamSpec F) := base ++ [fieldParam]

/-- the member of the object for block `k` whose address was passed to `addParameter` with this name: blockparameters.hpp 99, 101 -/
def member (D : DeckState F W) (k : ℕ) (name : String) : Option (Val F) :=
  D.tree.blocks[k]?.bind fun B => (find B.params name).bind fun p => p.target.map D.ext

/-- an interval diagnostic that is block `k`: diagnostic.hpp 47-86, `appending`: diagnostic.cpp 49-52; `single` is what `singleOut()` returns -/
def intervalOf (single : Bool) (D : DeckState F W) (k : ℕ) : Option Interval :=
  match member D k "file", member D k "append", member D k "interval" with
  | some (.str f), some (.int a), some (.int i) => some ⟨⟨f.toList, a ≠ 0, single, true⟩, i⟩
  | _, _, _ => none

/-- a physical time diagnostic that is block `k`, before it is executed: diagnostic.hpp 88-102, constructor: diagnostic.cpp 126-129 -/
def deltaOf (single : Bool) (D : DeckState F W) (k : ℕ) : Option (Delta F) :=
  match member D k "file", member D k "append", member D k "deltaTime", member D k "delay" with
  | some (.str f), some (.int a), some (.float dt), some (.float delay) => some ⟨⟨f.toList, a ≠ 0, single, true⟩, dt, delay, 0⟩
  | _, _, _, _ => none

/-- `SimpleDiagnostic::init` of a diagnostic that is not derived: the field it holds. `data` are the fields that blocks have registered. `none`: an
exception. For `PointerType = std::shared_ptr<Type>`, the default. diagnostic.t 49-54, diagnostic.hpp 137, block.hpp 189-196 -/
def fieldOf {α : Type} (data : ℕ → List String → Option α) (D : DeckState F W) (k : ℕ) : Option α :=
  match member D k "field" with
  | some (.str n) => D.tree.retrieveValue data k (splitName '.' n)
  | _ => none

/-- the class of the block `k` -/
def classOf (D : DeckState F W) (k : ℕ) : Option String :=
  D.tree.blocks[k]?.bind fun B => D.store.blocks[B.context]?.map BlockVars.className

/-- The manager has a pointer to each diagnostic, in the order in which they were made, that is in the order of the file: diagnostic.cpp 97-100,
126-129. `kind` tells which classes are interval diagnostics (`some true`) and which physical time diagnostics (`some false`). (A second file
that is read adds to the diagnostics of the first; one file is modelled.) -/
def managerOf (kind : String → Option Bool) (single : ℕ → Bool) (M : Manager F) (D : DeckState F W) : Manager F :=
  { M with
    intervals := (List.range D.tree.blocks.length).filterMap fun k =>
      if (classOf D k).bind kind = some true then intervalOf (single k) D k else none
    deltas := (List.range D.tree.blocks.length).filterMap fun k =>
      if (classOf D k).bind kind = some false then deltaOf (single k) D k else none }

end Schnek.Deck
