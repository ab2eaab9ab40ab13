import Verif.Model.Range
import Mathlib.Logic.Function.Basic

/-!
# The life of `MPICartSubdivision` objects

`src/grid/mpisubdivision.hpp`, `src/grid/mpisubdivision.t`: the buffers `sendarr[i]`, `recvarr[i]` and the communicator `comm` that an
object creates in `init` and frees in its destructor. The class declares no copy constructor and no assignment operator: the
implicit ones copy the pointers.
-/

namespace Schnek.Lifetime

/-- The members that refer to something that must be freed: mpisubdivision.hpp 63, 78, 79. -/
inductive Slot (n : ℕ)
  | send (i : Fin n)
  | recv (i : Fin n)
  | comm
deriving DecidableEq

/-- What has been created: by the `init` call number `call`, for this member. -/
structure Resource (n : ℕ) where
  call : ℕ
  slot : Slot n
deriving DecidableEq

/-- A subdivision object: `none` is the null pointer, and the communicator 0. -/
structure Obj (n : ℕ) where
  ptr : Slot n → Option (Resource n)

/-- all objects of a process, at addresses chosen by the program -/
structure Heap (n : ℕ) where
  objs : ℕ → Option (Obj n)
  /-- created and not freed -/
  live : Resource n → Bool
  /-- the number of calls of `init` so far -/
  calls : ℕ

/-- what a program does with an object -/
inductive Op (n : ℕ)
  /-- constructor -/
  | construct (a : ℕ)
  /-- `a.init(low, high, delta)` -/
  | init (a : ℕ)
  /-- the implicit copy constructor -/
  | copy (a b : ℕ)
  /-- the implicit assignment `a = b` -/
  | assign (a b : ℕ)
  /-- `a.exchange(grid, dim)`, `a.accumulate(grid, dim)` -/
  | exchange (a : ℕ) (dim : Fin n)
  /-- destructor -/
  | destroy (a : ℕ)

/-- what can go wrong -/
inductive Err
  /-- an object that does not exist or has not been initialised is used, or an object is constructed in the place of another -/
  | invalid
  /-- something that has been freed is used -/
  | dangling
  /-- something is freed again -/
  | doubleFree
deriving DecidableEq

variable {n : ℕ}

/-- before the first object is constructed -/
def Heap.empty : Heap n := ⟨fun _ => none, fun _ => false, 0⟩

/-- the members in the order in which the destructor frees them: mpisubdivision.t 144-149 -/
def slots (n : ℕ) : List (Slot n) := (List.finRange n).flatMap (fun i => [.send i, .recv i]) ++ [.comm]

/-- `if (ptr!=0) delete[] ptr`, `if (comm!=0) MPI_Comm_free(&comm)`: mpisubdivision.t 146-149 -/
def free (live : Resource n → Bool) : Option (Resource n) → Except Err (Resource n → Bool)
  | none => .ok live
  | some k => if live k then .ok (Function.update live k false) else .error .doubleFree

/-- one operation -/
def step (h : Heap n) : Op n → Except Err (Heap n)
  -- mpisubdivision.t 55-62
  | .construct a =>
    match h.objs a with
    | some _ => .error .invalid
    | none => .ok { h with objs := Function.update h.objs a (some ⟨fun _ => none⟩) }
  -- mpisubdivision.t 88, 122-133: the pointers are overwritten without looking at them
  | .init a =>
    match h.objs a with
    | none => .error .invalid
    | some _ =>
      .ok ⟨Function.update h.objs a (some ⟨fun s => some ⟨h.calls, s⟩⟩), fun k => if k.call = h.calls then true else h.live k,
        h.calls + 1⟩
  | .copy a b =>
    match h.objs a, h.objs b with
    | none, some ob => .ok { h with objs := Function.update h.objs a (some ob) }
    | _, _ => .error .invalid
  | .assign a b =>
    match h.objs a, h.objs b with
    | some _, some ob => .ok { h with objs := Function.update h.objs a (some ob) }
    | _, _ => .error .invalid
  -- mpisubdivision.t 165-166, 188-190, 222-224, 257-258
  | .exchange a dim =>
    match h.objs a with
    | none => .error .invalid
    | some ob =>
      match ob.ptr (.send dim), ob.ptr (.recv dim), ob.ptr .comm with
      | some s, some r, some c => if h.live s && h.live r && h.live c then .ok h else .error .dangling
      | _, _, _ => .error .invalid
  -- mpisubdivision.t 141-150
  | .destroy a =>
    match h.objs a with
    | none => .error .invalid
    | some ob =>
      ((slots n).foldlM (fun l s => free l (ob.ptr s)) h.live).map fun l => { h with objs := Function.update h.objs a none, live := l }

end Schnek.Lifetime
