import Verif.Model.Allocation

/-!
# Model of `resize` when memory runs out

`new T[size]` may throw `std::bad_alloc`, or the constructor of an element may throw.
-/

namespace Schnek.Alloc

open Schnek

variable {n : ℕ}

/-- `a.resize(r)` when `new T[...]` throws: `deleteData` has been carried out, `data->ptr` is NULL, the members that `resizeImpl` and `newData`
assign before the allocation have their new values, and `data->update` is not called. With the lazy policy `bufSize` already has the value of the
buffer that could not be allocated, and `size` is 0. If no memory is to be allocated nothing can throw (`invalid`):
single-array-allocation.hpp 336-369, 445-492. The running average and variance are not stored. -/
def failResize (lazy : Bool) (h : Heap n) (a : ℕ) (r : Range (n + 1)) (shrink : Bool) (slack : ℕ) : Except Err (Heap n) :=
  match h.objs a with
  | none => .error .invalid
  | some oa =>
    match h.recs oa.data with
    | none => .error .deadRec
    | some rec =>
      let newSize := (Storage.size r).val
      if mustRealloc lazy newSize oa.bufSize shrink then
        match freeBuf h rec.ptr with
        | .error e => .error e
        | .ok h1 => .ok ((h1.setRec oa.data (some { rec with ptr := none })).setObj a
            (some ⟨oa.data, if lazy then 0 else newSize, r, if lazy then allocSize lazy newSize slack else oa.bufSize, oa.fast⟩))
      else .error .invalid

/-- an operation that is carried out, or a `resize` that throws -/
inductive Event (n : ℕ)
  /-- the operation is carried out -/
  | done (op : Op n)
  /-- `a.resize(r)` throws -/
  | fails (a : ℕ) (r : Range (n + 1)) (shrink : Bool) (slack : ℕ)

/-- One operation or failure. The client catches the exception. -/
def stepEvent (o : Order) (lazy : Bool) (h : Heap n) : Event n → Except Err (Heap n)
  | .done op => step o lazy h op
  | .fails a r shrink slack => failResize lazy h a r shrink slack

/-- a history with failures -/
def runEvents (o : Order) (lazy : Bool) (h : Heap n) (l : List (Event n)) : Except Err (Heap n) :=
  l.foldlM (stepEvent o lazy) h

end Schnek.Alloc
