import Verif.Model.Expression
import Verif.Model.Deck
import Mathlib.Data.List.Basic

/-!
# Model of the registries for functions and block classes

`src/variables/function_expression.hpp`, `src/variables/function_expression.cpp`, `src/variables/blockclasses.hpp`,
`src/variables/blockclasses.cpp`

A registry holds a `shared_ptr` to a map. Registries are numbered in the order in which they are made. That the map is destroyed when the
last registry is, is not modelled: registries are never destroyed.
-/

namespace Schnek.Deck

/-- All the registries of a program: the maps in memory, and for each registry the map its pointer `funcs` (function_expression.hpp
226-227) or `classDescriptors` (blockclasses.hpp 106-107) points to. -/
structure Shared (V : Type) where
  maps : List (List (String × V))
  handles : List ℕ

namespace Shared

variable {V : Type}

/-- no registry -/
def empty : Shared V := ⟨[], []⟩

/-- the constructor makes a new map: function_expression.hpp 230, blockclasses.hpp 111 -/
def new (S : Shared V) : Shared V := ⟨S.maps ++ [[]], S.handles ++ [S.maps.length]⟩

/-- the copy constructor copies the pointer: function_expression.hpp 231, blockclasses.hpp 112-113; `none`: there is no such registry -/
def copy (S : Shared V) (h : ℕ) : Option (Shared V) := S.handles[h]?.map fun m => ⟨S.maps, S.handles ++ [m]⟩

/-- `(*map)[name] = v`: function_expression.hpp 237, blockclasses.cpp 58; `none`: there is no such registry -/
def set (S : Shared V) (h : ℕ) (name : String) (v : V) : Option (Shared V) :=
  S.handles[h]?.map fun m => ⟨S.maps.modify m fun f => f.filter (fun q => q.1 ≠ name) ++ [(name, v)], S.handles⟩

/-- `map->count(name)` and `(*map)[name]`: function_expression.hpp 242-243, blockclasses.cpp 64-67, 72-75 -/
def lookup (S : Shared V) (h : ℕ) (name : String) : Option V :=
  S.handles[h]?.bind fun m => S.maps[m]?.bind fun f => (f.find? fun q => q.1 = name).map Prod.snd

end Shared

/-! ## functions -/

/-- what a program does with `FunctionRegistry` -/
inductive FuncOp (F W : Type)
  | new
  | copy (h : ℕ)
  | register (h : ℕ) (name : String) (f : Func F W)

/-- `FunctionRegistry()`, `FunctionRegistry(const FunctionRegistry&)`, `registerFunction`: function_expression.hpp 230-238 -/
def FuncOp.run {F W : Type} (S : Shared (Func F W)) : FuncOp F W → Option (Shared (Func F W))
  | .new => some S.new
  | .copy h => S.copy h
  | .register h name f => S.set h name f

/-- a program that works with function registries -/
def runFuncs {F W : Type} (ops : List (FuncOp F W)) : Option (Shared (Func F W)) := ops.foldlM FuncOp.run .empty

/-! ## the functions that come with the library -/

/-- the functions of the C++ library and of Boost that are registered; they are not modelled further -/
structure MathLib (F : Type) where
  cos : F → F
  sin : F → F
  tan : F → F
  acos : F → F
  asin : F → F
  atan : F → F
  atan2 : F → F → F
  cosh : F → F
  sinh : F → F
  tanh : F → F
  exp : F → F
  ldexp : F → ℤ → F
  log : F → F
  log10 : F → F
  pow : F → F → F
  sqrt : F → F
  ceil : F → F
  fabs : F → F
  floor : F → F
  fmod : F → F → F
  tgamma : F → F
  lgamma : F → F
  digamma : F → F
  cyl_bessel_j : ℤ → F → F
  cyl_neumann : ℤ → F → F
  /-- `a < b` -/
  lt : F → F → Bool
  /-- `2.0` -/
  two : F

section

variable {F W : Type}

/-- a function `double (*)(double)` -/
def unaryFunc (g : F → F) : Func F W where
  params := [.float]
  result := .float
  updateAlways := false
  call _ args := match args with
    | [.float x] => some (.float (g x))
    | _ => none
  pure _ _ _ _ := rfl
  typed w args v h := by
    split at h
    · cases h; rfl
    · cases h

/-- a function `double (*)(double, double)` -/
def binaryFunc (g : F → F → F) : Func F W where
  params := [.float, .float]
  result := .float
  updateAlways := false
  call _ args := match args with
    | [.float x, .float y] => some (.float (g x y))
    | _ => none
  pure _ _ _ _ := rfl
  typed w args v h := by
    split at h
    · cases h; rfl
    · cases h

/-- a function `double (*)(double, int)` -/
def floatIntFunc (g : F → ℤ → F) : Func F W where
  params := [.float, .int]
  result := .float
  updateAlways := false
  call _ args := match args with
    | [.float x, .int y] => some (.float (g x y))
    | _ => none
  pure _ _ _ _ := rfl
  typed w args v h := by
    split at h
    · cases h; rfl
    · cases h

/-- a function `double (*)(int, double)` -/
def intFloatFunc (g : ℤ → F → F) : Func F W where
  params := [.int, .float]
  result := .float
  updateAlways := false
  call _ args := match args with
    | [.int x, .float y] => some (.float (g x y))
    | _ => none
  pure _ _ _ _ := rfl
  typed w args v h := by
    split at h
    · cases h; rfl
    · cases h

/-- a function `double (*)(int, int)` -/
def intIntFunc (g : ℤ → ℤ → F) : Func F W where
  params := [.int, .int]
  result := .float
  updateAlways := false
  call _ args := match args with
    | [.int x, .int y] => some (.float (g x y))
    | _ => none
  pure _ _ _ _ := rfl
  typed w args v h := by
    split at h
    · cases h; rfl
    · cases h

/-- a function `double (*)(double, double, double)` -/
def ternaryFunc (g : F → F → F → F) : Func F W where
  params := [.float, .float, .float]
  result := .float
  updateAlways := false
  call _ args := match args with
    | [.float x, .float y, .float z] => some (.float (g x y z))
    | _ => none
  pure _ _ _ _ := rfl
  typed w args v h := by
    split at h
    · cases h; rfl
    · cases h

variable (O : FloatOps F) (L : MathLib F)

/-- `internal::min`, that is `std::min`: function_expression.cpp 39 -/
def internalMin (a b : F) : F := if L.lt b a then b else a

/-- `internal::max`, that is `std::max`: function_expression.cpp 40 -/
def internalMax (a b : F) : F := if L.lt a b then b else a

/-- `internal::minI`: function_expression.cpp 41; the result is converted to `double` -/
def internalMinI (a b : ℤ) : F := O.ofInt (if b < a then b else a)

/-- `internal::maxI`: function_expression.cpp 42; the result is converted to `double` -/
def internalMaxI (a b : ℤ) : F := O.ofInt (if a < b then b else a)

/-- `internal::normal`: function_expression.cpp 43-47 -/
def internalNormal (x sigma m : F) : F :=
  let y := O.div (O.sub x m) sigma
  L.exp (O.div (O.mul (O.neg y) y) L.two)

/-- `registerCMath`: function_expression.cpp 53-84 -/
def cMathFunctions : List (String × Func F W) :=
  [("cos", unaryFunc L.cos),
   ("sin", unaryFunc L.sin),
   ("tan", unaryFunc L.tan),
   ("acos", unaryFunc L.acos),
   ("asin", unaryFunc L.asin),
   ("atan", unaryFunc L.atan),
   ("atan2", binaryFunc L.atan2),
   ("cosh", unaryFunc L.cosh),
   ("sinh", unaryFunc L.sinh),
   ("tanh", unaryFunc L.tanh),
   ("exp", unaryFunc L.exp),
   ("ldexp", floatIntFunc L.ldexp),
   ("log", unaryFunc L.log),
   ("log10", unaryFunc L.log10),
   ("pow", binaryFunc L.pow),
   ("sqrt", unaryFunc L.sqrt),
   ("ceil", unaryFunc L.ceil),
   ("fabs", unaryFunc L.fabs),
   ("floor", unaryFunc L.floor),
   ("fmod", binaryFunc L.fmod)]

/-- `registerUtilityFunctions`: function_expression.cpp 86-92 -/
def utilityFunctions : List (String × Func F W) :=
  [("min", binaryFunc (internalMin L)),
   ("max", binaryFunc (internalMax L)),
   ("minI", intIntFunc (internalMinI O)),
   ("maxI", intIntFunc (internalMaxI O))]

/-- `registerSpecialFunctions`: function_expression.cpp 95-105 -/
def specialFunctions : List (String × Func F W) :=
  [("gamma", unaryFunc L.tgamma),
   ("lgamma", unaryFunc L.lgamma),
   ("digamma", unaryFunc L.digamma),
   ("besselj", intFloatFunc L.cyl_bessel_j),
   ("bessely", intFloatFunc L.cyl_neumann),
   ("normal", ternaryFunc (internalNormal O L))]

/-- the calls of `registerFunction` for a list of functions -/
def registerList (h : ℕ) (l : List (String × Func F W)) : List (FuncOp F W) := l.map fun p => .register h p.1 p.2

/-- `registerAllFunctions`: function_expression.cpp 108-113 -/
def registerAllFunctions (h : ℕ) : List (FuncOp F W) :=
  registerList h (cMathFunctions L) ++ registerList h (utilityFunctions O L) ++ registerList h (specialFunctions O L)

end

/-! ## block classes -/

/-- `BlockClassDescriptor`: blockclasses.hpp 66-99; `B` stands for the C++ classes blocks can have -/
structure Descriptor (B : Type) where
  allowedChildren : List String
  factory : Option B

/-- The block classes of a program: registries, descriptors in memory, and the references to descriptors `registerBlock` and `get`
have returned, in the order of the calls. -/
structure Classes (B : Type) where
  shared : Shared ℕ
  descriptors : List (Descriptor B)
  refs : List ℕ

/-- what a program does with `BlockClasses`; `r` is the number of a reference -/
inductive ClassOp (B : Type)
  | new
  | copy (h : ℕ)
  | registerBlock (h : ℕ) (name : String)
  | get (h : ℕ) (name : String)
  | addChild (r : ℕ) (child : String)
  | setClass (r : ℕ) (b : B)

namespace Classes

variable {B : Type}

/-- no registry -/
def empty : Classes B := ⟨.empty, [], []⟩

/-- A descriptor is destroyed when it is not in a map any more: the map has the only `shared_ptr`. -/
def alive (C : Classes B) (d : ℕ) : Bool := C.shared.maps.any fun f => f.any fun q => q.2 == d

/-- `registerBlock`: blockclasses.cpp 55-60 -/
def registerBlock (C : Classes B) (h : ℕ) (name : String) : Option (Classes B) :=
  (C.shared.set h name C.descriptors.length).map fun S => ⟨S, C.descriptors ++ [⟨[], none⟩], C.refs ++ [C.descriptors.length]⟩

/-- `get`: blockclasses.cpp 62-68 -/
def get (C : Classes B) (h : ℕ) (name : String) : Option (Classes B) :=
  match C.shared.lookup h name with
  | none => C.registerBlock h name
  | some d => some { C with refs := C.refs ++ [d] }

/-- a member function of a descriptor; `none`: the descriptor does not exist any more (undefined behaviour) -/
def modifyRef (C : Classes B) (r : ℕ) (f : Descriptor B → Descriptor B) : Option (Classes B) :=
  C.refs[r]?.bind fun d => if C.alive d then some { C with descriptors := C.descriptors.modify d f } else none

/-- constructor, copy constructor, `registerBlock`, `get`; `addChildren` and its `operator()`: blockclasses.cpp 31-47; `setClass`:
blockclasses.hpp 90-94 -/
def run (C : Classes B) : ClassOp B → Option (Classes B)
  | .new => some { C with shared := C.shared.new }
  | .copy h => (C.shared.copy h).map fun S => { C with shared := S }
  | .registerBlock h name => C.registerBlock h name
  | .get h name => C.get h name
  | .addChild r child => C.modifyRef r fun d => { d with allowedChildren := d.allowedChildren ++ [child] }
  | .setClass r b => C.modifyRef r fun d => { d with factory := some b }

/-- the descriptor of a class -/
def find (C : Classes B) (h : ℕ) (name : String) : Option (Descriptor B) :=
  (C.shared.lookup h name).bind fun d => C.descriptors[d]?

/-- `hasChild`: blockclasses.cpp 70-77; `none` is `BlockNotFoundException` -/
def hasChild (C : Classes B) (h : ℕ) (parent child : String) : Option Bool :=
  (C.find h parent).map fun d => d.allowedChildren.contains child

end Classes

/-- a program that works with block classes -/
def runClasses {B : Type} (ops : List (ClassOp B)) : Option (Classes B) := ops.foldlM Classes.run .empty

end Schnek.Deck
