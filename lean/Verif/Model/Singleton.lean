import Mathlib.Logic.Function.Basic
import Mathlib.Data.List.Basic
import Mathlib.Data.Int.Notation
import Mathlib.Data.Nat.Notation

/-!
# Model of `schnek::Singleton` and `schnek::Unique` in programs with several threads

`src/util/singleton.hpp`, `src/util/unique.hpp`. The threads are numbered and each performs any number of calls. A step is a single read
or write of the static variable, so that all interleavings are histories. (Without synchronisation the C++ standard promises even less.)
-/

namespace Schnek

namespace Singleton

/-- where a thread is in `instance()` -/
inductive Pc
  | /-- not in the function -/ idle
  | /-- it is about to call `CreationPolicy<TYPE>::create()` -/ create
  | /-- it is about to assign the new object to `pInstance` -/ assign (object : ℕ)
  | /-- it is about to return `*pInstance` -/ load
deriving DecidableEq

/-- `pInstance`, how many objects have been created (they are numbered in this order), where the threads are, and what the calls have
returned, the last one first: singleton.hpp 109-112 -/
structure Memory where
  ptr : Option ℕ
  made : ℕ
  pc : ℕ → Pc
  results : List (ℕ × ℕ)

/-- at the start of the program: singleton.hpp 115-119 -/
def start : Memory := ⟨none, 0, fun _ => .idle, []⟩

/-- one step of thread `t` in `instance()`: singleton.hpp 89-96, with `CreateUsingNew::create` 48-51. `none`: a null pointer is
dereferenced. -/
def step (m : Memory) (t : ℕ) : Option Memory :=
  match m.pc t with
  | .idle => some { m with pc := Function.update m.pc t (if m.ptr = none then .create else .load) }
  | .create => some { m with made := m.made + 1, pc := Function.update m.pc t (.assign m.made) }
  | .assign a => some { m with ptr := some a, pc := Function.update m.pc t .load }
  | .load => m.ptr.map fun a => { m with pc := Function.update m.pc t .idle, results := (t, a) :: m.results }

/-- the threads take turns in this order -/
def run (m : Memory) (turns : List ℕ) : Option Memory := turns.foldlM step m

end Singleton

namespace UniqueThreads

/-- `runningId`, what each thread has read, if it is in the constructor, and the ids of the objects, the last one first:
unique.hpp 39-40 -/
structure Memory where
  runningId : ℤ
  read : ℕ → Option ℤ
  ids : List ℤ

/-- at the start of the program: unique.hpp 46-47 -/
def start : Memory := ⟨0, fun _ => none, []⟩

/-- one step of thread `t` in the constructor, `Id(runningId++)`: unique.hpp 42 -/
def step (m : Memory) (t : ℕ) : Memory :=
  match m.read t with
  | none => { m with read := Function.update m.read t (some m.runningId) }
  | some i => ⟨i + 1, Function.update m.read t none, i :: m.ids⟩

/-- the threads take turns in this order -/
def run (m : Memory) (turns : List ℕ) : Memory := turns.foldl step m

end UniqueThreads

end Schnek
