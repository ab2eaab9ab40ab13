import Mathlib.Data.List.Basic
import Mathlib.Logic.Function.Basic

/-!
# Model of `HdfAttributes`

`src/diagnostic/hdfdiagnostic.hpp` 80-112, `hdfdiagnostic.t` 34-51, 295-323, `hdfdiagnostic.cpp` 43-83, 110-112

The attributes of a dataset are variables of the program. `V` stands for the values of variables, `Ty` for the types of HDF5. All attributes are
written by process 0 (hdfdiagnostic.t 297-302); the other processes do nothing.
-/

namespace Schnek.Hdf

variable {V Ty : Type}

/-- `HdfAttributes::Info`: hdfdiagnostic.hpp 83-87. `buffer` is the address of a variable, or of the first of `dims` elements of an
array; the next elements follow it. -/
structure AttrInfo (Ty : Type) where
  type : Ty
  dims : ℕ
  buffer : ℕ

/-- `std::map<std::string, pInfo>`: hdfdiagnostic.hpp 90. The order of the elements is of no importance, HDF5 finds attributes by name. -/
abbrev Attributes (Ty : Type) := List (String × AttrInfo Ty)

/-- an attribute in a file: name, type and values -/
abbrev WrittenAttr (V Ty : Type) := String × Ty × List V

/-- The variables of the program, the objects of type `HdfAttributes`, for each stream the object `attributes` points to (hdfdiagnostic.hpp
131), and the attributes of the datasets written so far. -/
structure AttrWorld (V Ty : Type) where
  /-- `none`: there is no variable at this address (any more) -/
  mem : ℕ → Option V
  /-- An object lives as long as there is a pointer to it; it is never used afterwards, so that it does not matter that it is gone. -/
  objects : List (Attributes Ty)
  /-- `none`: there is no such stream -/
  streams : ℕ → Option ℕ
  written : List (List (WrittenAttr V Ty))

/-- What a program does. -/
inductive AttrCall (V Ty : Type)
  /-- a variable is made, or it is assigned to -/
  | store (address : ℕ) (v : V)
  /-- the life of a variable ends -/
  | destroy (address : ℕ)
  /-- `std::make_shared<HdfAttributes>()` -/
  | make
  /-- `object->set(name, &variable, dims)` or `object->set(name, variable)`, for a variable of the type `type` -/
  | set (object : ℕ) (name : String) (type : Ty) (address dims : ℕ)
  /-- a stream is made -/
  | stream (s : ℕ)
  /-- a stream is made as a copy of `s'`, or `s'` is assigned to it -/
  | copy (s s' : ℕ)
  /-- `s.setAttributes(object)` -/
  | setAttributes (s object : ℕ)
  /-- `s.writeGrid(g)` -/
  | write (s : ℕ)

/-- before the first call -/
def AttrWorld.start : AttrWorld V Ty := ⟨fun _ => none, [], fun _ => none, []⟩

/-- `HdfAttributes::set`, both versions: hdfdiagnostic.t 34-51 -/
def Attributes.set (l : Attributes Ty) (name : String) (type : Ty) (address dims : ℕ) : Attributes Ty :=
  l.filter (fun p => p.1 ≠ name) ++ [(name, ⟨type, dims, address⟩)]

/-- `H5Awrite` reads the values from the memory: hdfdiagnostic.t 314; `none`: a variable is read that does not exist -/
def AttrInfo.read (mem : ℕ → Option V) (info : AttrInfo Ty) : Option (List V) :=
  (List.range info.dims).mapM fun i => mem (info.buffer + i)

/-- the loop over the attributes: hdfdiagnostic.t 305-322 -/
def Attributes.write (mem : ℕ → Option V) (l : Attributes Ty) : Option (List (WrittenAttr V Ty)) :=
  l.mapM fun p => (p.2.read mem).map fun vs => (p.1, p.2.type, vs)

/-- one call; `none`: undefined behaviour. Constructors and assignment of streams: hdfdiagnostic.cpp 43-83, `setAttributes`:
hdfdiagnostic.cpp 110-112 -/
def AttrWorld.call (w : AttrWorld V Ty) : AttrCall V Ty → Option (AttrWorld V Ty)
  | .store a v => some { w with mem := Function.update w.mem a (some v) }
  | .destroy a => some { w with mem := Function.update w.mem a none }
  | .make => some { w with objects := w.objects ++ [[]] }
  | .set o name type a k =>
    if o < w.objects.length then some { w with objects := w.objects.modify o fun l => l.set name type a k } else none
  | .stream s => some { w with streams := Function.update w.streams s (some w.objects.length), objects := w.objects ++ [[]] }
  | .copy s s' => (w.streams s').map fun o => { w with streams := Function.update w.streams s (some o) }
  | .setAttributes s o =>
    if (w.streams s).isSome ∧ o < w.objects.length then some { w with streams := Function.update w.streams s (some o) } else none
  | .write s =>
    (w.streams s).bind fun o => w.objects[o]?.bind fun l => (l.write w.mem).map fun r => { w with written := w.written ++ [r] }

/-- a sequence of calls -/
def AttrWorld.run (calls : List (AttrCall V Ty)) : Option (AttrWorld V Ty) := calls.foldlM AttrWorld.call .start

/-- the calls made by `HDFGridDiagnostic::write`, unless `getAttributes` is replaced: `getAttributes` makes a new object (with number
`next`), hdfdiagnostic.hpp 269-271, hdfdiagnostic.t 393-399 -/
def defaultWrite (s next : ℕ) : List (AttrCall V Ty) := [.make, .setAttributes s next, .write s]

end Schnek.Hdf
