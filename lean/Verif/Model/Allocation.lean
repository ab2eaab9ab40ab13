import Verif.Model.Storage

/-!
# Model of the allocation policies: several grid objects sharing data

`SingleArrayInstantAllocation`, `SingleArrayLazyAllocation`
(src/grid/gridstorage/single-array-allocation.hpp) together with `data_fast` of the storage
classes (src/grid/gridstorage/single-array-storage-base.hpp).

The state is the heap: grid objects (named by their address), share records
(`SingleArrayAllocationData`, held by `shared_ptr`) and buffers (`new T[...]`).

Simplification: `SingleArrayLazyAllocation` declares its indices with `size_t` (single-array-allocation.hpp 184-192), the storage classes with
`int`, and `Array` has no conversion between them, so that `resize` of a grid with the lazy policy does not compile. The model is the
policy with the same index type as the storage classes.
-/

namespace Schnek.Alloc

open Schnek

/-- A grid object: the members `data`, `size`, `range`, `bufSize` (only used by the lazy policy) of
the allocation policy (single-array-allocation.hpp 112-122, 207-232) and `data_fast` of the storage
(single-array-storage-base.hpp 114, 213), a pointer given by its base (`none` = NULL) and an offset.
`dims` is determined by `range` (always assigned together). The running average and variance are
not stored; the decisions made with them are oracles, see `Op.resize`. -/
structure Obj (n : ℕ) where
  /-- the share record `data` points to -/
  data : ℕ
  /-- `size` -/
  size : ℕ
  /-- `range` -/
  range : Range (n + 1)
  /-- `bufSize` -/
  bufSize : ℕ
  /-- `data_fast` -/
  fast : Option ℕ × Word

/-- `SingleArrayAllocationData` (single-array-allocation.hpp 57-84) and the control block of the
`shared_ptr` that holds it. `use_count` is the length of `holders`. -/
structure Rec where
  /-- `ptr`, a buffer or NULL -/
  ptr : Option ℕ
  /-- the keys of `updaters` (addresses of grid objects; the callback with key `x` calls
  `updateSizeInfo` of the object at address `x`) -/
  updaters : List ℕ
  /-- the objects that hold a `shared_ptr` to this record -/
  holders : List ℕ

/-- state of a buffer -/
inductive Buf
  /-- not yet allocated -/
  | unused
  /-- allocated with this number of elements -/
  | live (cap : ℕ)
  /-- deleted -/
  | freed
deriving DecidableEq

/-- The whole state. -/
structure Heap (n : ℕ) where
  /-- live grid objects -/
  objs : ℕ → Option (Obj n)
  /-- live share records -/
  recs : ℕ → Option Rec
  /-- buffers -/
  bufs : ℕ → Buf
  /-- next record id -/
  nextRec : ℕ
  /-- next buffer id -/
  nextBuf : ℕ

/-- Outcomes other than a new state. -/
inductive Err
  /-- the client used an object that is not alive, or constructed at the address of a live one -/
  | invalid
  /-- `delete[]` of something that is not an allocated buffer -/
  | doubleFree
  /-- a registered callback of a destroyed object was called -/
  | deadCallback
  /-- access to a share record that has been deleted -/
  | deadRec
deriving DecidableEq

/-- Operations of the client on grids. Addresses are chosen by the environment, so they may be
reused after an object has been destroyed. -/
inductive Op (n : ℕ)
  /-- default constructor at address `a` -/
  | construct (a : ℕ)
  /-- copy constructor: new object at `a`, copy of `b` -/
  | copy (a b : ℕ)
  /-- `a = b` -/
  | assign (a b : ℕ)
  /-- `a.resize(r)`. `shrink` and `slack` are the outcomes of the floating point statistics of the
  lazy policy: `shrink` is the condition `newSize + 32*sqrt(avgVar) < bufSize && bufSize > 100`,
  `slack` is `(size_t)(4*sqrt(avgVar))`. They are arbitrary. -/
  | resize (a : ℕ) (r : Range (n + 1)) (shrink : Bool) (slack : ℕ)
  /-- destructor -/
  | destroy (a : ℕ)

variable {n : ℕ}

/-- empty heap -/
def Heap.empty : Heap n := ⟨fun _ => none, fun _ => none, fun _ => .unused, 0, 0⟩

/-- offset of `data_fast` from `data->ptr`: `updateDataFast`,
single-array-storage-base.hpp 388-397, 482-491. -/
def fastOff (o : Order) (r : Range (n + 1)) : Word :=
  match o with
  | .c => Storage.fastC (Storage.dims r) r.lo
  | .fortran => Storage.fastF (Storage.dims r) r.lo

/-- `get`'s offset relative to `data_fast`: single-array-storage-base.hpp 336-355, 437-456. -/
def posOff (o : Order) (r : Range (n + 1)) (p : Idx (n + 1)) : Word :=
  match o with
  | .c => Storage.posC (Storage.dims r) p
  | .fortran => Storage.posF (Storage.dims r) p

/-- overwrite the object at address `a` -/
def Heap.setObj (h : Heap n) (a : ℕ) (v : Option (Obj n)) : Heap n :=
  { h with objs := Function.update h.objs a v }

/-- overwrite record `d` -/
def Heap.setRec (h : Heap n) (d : ℕ) (v : Option Rec) : Heap n :=
  { h with recs := Function.update h.recs d v }

/-- overwrite the state of buffer `b` -/
def Heap.setBuf (h : Heap n) (b : ℕ) (v : Buf) : Heap n :=
  { h with bufs := Function.update h.bufs b v }

/-- `delete[] ptr` -/
def freeBuf (h : Heap n) : Option ℕ → Except Err (Heap n)
  | none => .ok h
  | some b =>
    match h.bufs b with
    | .live _ => .ok (h.setBuf b .freed)
    | _ => .error .doubleFree

/-- Release of one `shared_ptr` to record `d` held by object `a`; the destructor
`~SingleArrayAllocationData` (single-array-allocation.hpp 67-69) runs when it was the last one. -/
def release (h : Heap n) (a d : ℕ) : Except Err (Heap n) :=
  match h.recs d with
  | none => .error .deadRec
  | some rec =>
    if rec.holders.erase a = [] then
      freeBuf (h.setRec d none) rec.ptr
    else
      .ok (h.setRec d (some { rec with holders := rec.holders.erase a }))

/-- `updaters[key] = ...` on a `std::map`: single-array-allocation.hpp 71-73. -/
def addKey (l : List ℕ) (a : ℕ) : List ℕ := if a ∈ l then l else a :: l

/-- `updateSizeInfo` followed by `updateDataFast` of the object at address `x`:
single-array-allocation.hpp 320-333, 426-442, single-array-storage-base.hpp 388-397. -/
def callback (o : Order) (r : Range (n + 1)) (bs : ℕ) (h : Heap n) (x : ℕ) :
    Except Err (Heap n) :=
  match h.objs x with
  | none => .error .deadCallback
  | some ob =>
    match h.recs ob.data with
    | none => .error .deadRec
    | some rec =>
      .ok (h.setObj x (some ⟨ob.data, (Storage.size r).val, r, bs, (rec.ptr, fastOff o r)⟩))

/-- `data->update(sizeInfo)`: single-array-allocation.hpp 79-83. -/
def updateAll (o : Order) (r : Range (n + 1)) (bs : ℕ) (h : Heap n) (l : List ℕ) :
    Except Err (Heap n) := l.foldlM (callback o r bs) h

/-- `resizeImpl`'s decision to reallocate: always for the instant policy
(single-array-allocation.hpp 336-341), by size and statistics for the lazy one (460). -/
def mustRealloc (lazy : Bool) (newSize bufSize : ℕ) (shrink : Bool) : Bool :=
  !lazy || decide (newSize > bufSize) || shrink

/-- number of elements allocated by `newData`: exactly the size for the instant policy
(single-array-allocation.hpp 355-369), with slack for the lazy one (483-492). -/
def allocSize (lazy : Bool) (newSize slack : ℕ) : ℕ :=
  if lazy then (if newSize + slack = 0 then 10 else newSize + slack) else newSize

/-- `deleteData` and `newData`: free the buffer of record `d` and allocate a new one of `cap`
elements (single-array-allocation.hpp 344-369, 470-492). -/
def realloc (h : Heap n) (d : ℕ) (rec : Rec) (cap : ℕ) : Except Err (Heap n) :=
  match freeBuf h rec.ptr with
  | .error e => .error e
  | .ok h1 =>
    let h2 := (h1.setRec d (some { rec with ptr := some h1.nextBuf })).setBuf h1.nextBuf (.live cap)
    .ok { h2 with nextBuf := h1.nextBuf + 1 }

/-- `resizeImpl`: single-array-allocation.hpp 336-341, 445-467. -/
def resizeImpl (o : Order) (lazy : Bool) (h : Heap n) (a : ℕ) (oa : Obj n) (rec : Rec)
    (r : Range (n + 1)) (shrink : Bool) (slack : ℕ) : Except Err (Heap n) :=
  let newSize := (Storage.size r).val
  if mustRealloc lazy newSize oa.bufSize shrink then
    let cap := allocSize lazy newSize slack
    match realloc h oa.data rec cap with
    | .error e => .error e
    | .ok h1 =>
      updateAll o r cap (h1.setObj a (some ⟨oa.data, newSize, r, cap, oa.fast⟩)) rec.updaters
  else
    updateAll o r oa.bufSize (h.setObj a (some ⟨oa.data, newSize, r, oa.bufSize, oa.fast⟩))
      rec.updaters

/-- One operation. `lazy` selects the allocation policy. -/
def step (o : Order) (lazy : Bool) (h : Heap n) : Op n → Except Err (Heap n)
  -- default constructors, single-array-allocation.hpp 283-287, 376-385; Range() is 0..0
  | .construct a =>
    match h.objs a with
    | some _ => .error .invalid
    | none =>
      let h1 := (h.setObj a (some ⟨h.nextRec, 0, Range.default0 _, 0, (none, 0)⟩)).setRec
        h.nextRec (some ⟨none, [a], [a]⟩)
      .ok { h1 with nextRec := h.nextRec + 1 }
  -- copy constructors, single-array-allocation.hpp 290-294, 388-399,
  -- single-array-storage-base.hpp 309-314
  | .copy a b =>
    match h.objs a, h.objs b with
    | none, some ob =>
      match h.recs ob.data with
      | none => .error .deadRec
      | some rec =>
        .ok ((h.setObj a (some ob)).setRec ob.data
          (some ⟨rec.ptr, addKey rec.updaters a, a :: rec.holders⟩))
    | _, _ => .error .invalid
  -- assignment operators, single-array-allocation.hpp 297-305, 402-410 (`bufSize` is not copied);
  -- the storage classes' operator= is defaulted and copies `data_fast`
  | .assign a b =>
    match h.objs a, h.objs b with
    | some oa, some ob =>
      match h.recs ob.data with
      | none => .error .deadRec
      | some rec =>
        if oa.data = ob.data then
          .ok ((h.setObj a (some { ob with bufSize := oa.bufSize })).setRec ob.data
            (some ⟨rec.ptr, addKey rec.updaters a, rec.holders⟩))
        else
          release ((h.setObj a (some { ob with bufSize := oa.bufSize })).setRec ob.data
            (some ⟨rec.ptr, addKey rec.updaters a, a :: rec.holders⟩)) a oa.data
    | _, _ => .error .invalid
  -- resize, single-array-storage-base.hpp 358-374
  | .resize a r shrink slack =>
    match h.objs a with
    | none => .error .invalid
    | some oa =>
      match h.recs oa.data with
      | none => .error .deadRec
      | some rec => resizeImpl o lazy h a oa rec r shrink slack
  -- destructors, single-array-allocation.hpp 308-311, 413-417
  | .destroy a =>
    match h.objs a with
    | none => .error .invalid
    | some oa =>
      match h.recs oa.data with
      | none => .error .deadRec
      | some rec =>
        release ((h.setObj a none).setRec oa.data
          (some ⟨rec.ptr, rec.updaters.erase a, rec.holders⟩)) a oa.data

/-- a history of operations -/
def run (o : Order) (lazy : Bool) (h : Heap n) (ops : List (Op n)) : Except Err (Heap n) :=
  ops.foldlM (step o lazy) h

/-- The element accessed by `x.get(p)`: buffer and element number; `none` if `x` is not alive or the
access is undefined behaviour (NULL or deleted buffer, or outside of the allocated elements). -/
def access (o : Order) (h : Heap n) (x : ℕ) (p : Idx (n + 1)) : Option (ℕ × ℕ) :=
  match h.objs x with
  | none => none
  | some ob =>
    match ob.fast.1 with
    | none => none
    | some b =>
      match h.bufs b with
      | .live cap =>
        let k := (ob.fast.2 + posOff o ob.range p).val
        if k < cap then some (b, k) else none
      | _ => none

/-- `x` and `y` are alive and hold the same share record. -/
def Shares (h : Heap n) (x y : ℕ) : Prop :=
  ∃ ox oy, h.objs x = some ox ∧ h.objs y = some oy ∧ ox.data = oy.data

end Schnek.Alloc
