import Verif.Model.Registry
import Mathlib.Logic.Relation

/-!
# Registries for functions and block classes
-/

namespace Schnek.Spec

open Schnek.Deck

/-- Registry `k` has been made as a copy of registry `h`, or both of copies of each other, or of copies of the same registry, and so on.
The list tells for each registry in the order in which they are made what it is a copy of. -/
def Related (origins : List (Option ℕ)) : ℕ → ℕ → Prop := Relation.EqvGen fun h k => origins[k]? = some (some h)

/-! ## functions -/

/-- For each function registry that is made, what it is a copy of. -/
def funcOrigins {F W : Type} (ops : List (FuncOp F W)) : List (Option ℕ) :=
  ops.filterMap fun
    | .new => some none
    | .copy h => some (some h)
    | _ => none

/-- The registry a call is made for. -/
def funcHandle {F W : Type} : FuncOp F W → Option ℕ
  | .new => none
  | .copy h => some h
  | .register h _ _ => some h

/-- `f` has been registered last under that name, in registry `h` or a related one. -/
def LastRegistered {F W : Type} (ops : List (FuncOp F W)) (h : ℕ) (name : String) (f : Func F W) : Prop :=
  ∃ before k after, ops = before ++ .register k name f :: after ∧ Related (funcOrigins ops) h k ∧
    ∀ k' g, .register k' name g ∈ after → ¬ Related (funcOrigins ops) h k'

/-- The functions `registerCMath` is documented to register. -/
def documentedCMath : List String :=
  ["cos", "sin", "tan", "acos", "asin", "atan", "atan2", "cosh", "sinh", "tanh", "exp", "ldexp", "log", "log10", "pow", "sqrt", "ceil",
    "fabs", "floor", "fmod"]

/-- The functions `registerUtilityFunctions` is documented to register. -/
def documentedUtility : List String := ["min", "max", "minI", "maxI"]

/-- The functions `registerSpecialFunctions` is documented to register. -/
def documentedSpecial : List String := ["gamma", "lgamma", "digamma", "besselj", "bessely", "normal"]

/-- What the standard functions should return: name, arguments, result. -/
inductive Returns {F : Type} (O : FloatOps F) (L : MathLib F) : String → List (Val F) → F → Prop
  | cos (x : F) : Returns O L "cos" [.float x] (L.cos x)
  | sin (x : F) : Returns O L "sin" [.float x] (L.sin x)
  | tan (x : F) : Returns O L "tan" [.float x] (L.tan x)
  | acos (x : F) : Returns O L "acos" [.float x] (L.acos x)
  | asin (x : F) : Returns O L "asin" [.float x] (L.asin x)
  | atan (x : F) : Returns O L "atan" [.float x] (L.atan x)
  | atan2 (y x : F) : Returns O L "atan2" [.float y, .float x] (L.atan2 y x)
  | cosh (x : F) : Returns O L "cosh" [.float x] (L.cosh x)
  | sinh (x : F) : Returns O L "sinh" [.float x] (L.sinh x)
  | tanh (x : F) : Returns O L "tanh" [.float x] (L.tanh x)
  | exp (x : F) : Returns O L "exp" [.float x] (L.exp x)
  | ldexp (x : F) (i : ℤ) : Returns O L "ldexp" [.float x, .int i] (L.ldexp x i)
  | log (x : F) : Returns O L "log" [.float x] (L.log x)
  | log10 (x : F) : Returns O L "log10" [.float x] (L.log10 x)
  | pow (x y : F) : Returns O L "pow" [.float x, .float y] (L.pow x y)
  | sqrt (x : F) : Returns O L "sqrt" [.float x] (L.sqrt x)
  | ceil (x : F) : Returns O L "ceil" [.float x] (L.ceil x)
  | fabs (x : F) : Returns O L "fabs" [.float x] (L.fabs x)
  | floor (x : F) : Returns O L "floor" [.float x] (L.floor x)
  | fmod (x y : F) : Returns O L "fmod" [.float x, .float y] (L.fmod x y)
  | minLeft (x y : F) (h : L.lt x y = true) : Returns O L "min" [.float x, .float y] x
  | minRight (x y : F) (h : L.lt y x = true) : Returns O L "min" [.float x, .float y] y
  | minSame (x : F) : Returns O L "min" [.float x, .float x] x
  | maxLeft (x y : F) (h : L.lt y x = true) : Returns O L "max" [.float x, .float y] x
  | maxRight (x y : F) (h : L.lt x y = true) : Returns O L "max" [.float x, .float y] y
  | maxSame (x : F) : Returns O L "max" [.float x, .float x] x
  | minI (i j : ℤ) : Returns O L "minI" [.int i, .int j] (O.ofInt (min i j))
  | maxI (i j : ℤ) : Returns O L "maxI" [.int i, .int j] (O.ofInt (max i j))
  | gamma (x : F) : Returns O L "gamma" [.float x] (L.tgamma x)
  | lgamma (x : F) : Returns O L "lgamma" [.float x] (L.lgamma x)
  | digamma (x : F) : Returns O L "digamma" [.float x] (L.digamma x)
  | besselj (i : ℤ) (x : F) : Returns O L "besselj" [.int i, .float x] (L.cyl_bessel_j i x)
  | bessely (i : ℤ) (x : F) : Returns O L "bessely" [.int i, .float x] (L.cyl_neumann i x)
  | normal (x sigma m y : F) (h : y = O.div (O.sub x m) sigma) :
      Returns O L "normal" [.float x, .float sigma, .float m] (L.exp (O.div (O.mul (O.neg y) y) L.two))

/-! ## block classes -/

/-- For each registry of block classes that is made, what it is a copy of. -/
def classOrigins {B : Type} (ops : List (ClassOp B)) : List (Option ℕ) :=
  ops.filterMap fun
    | .new => some none
    | .copy h => some (some h)
    | _ => none

/-- The number of references that have been returned. -/
def references {B : Type} (ops : List (ClassOp B)) : ℕ :=
  ops.countP fun
    | .registerBlock _ _ => true
    | .get _ _ => true
    | _ => false

/-- Reference `r` has been returned by `registerBlock` or `get` for that class, by registry `h` or a related one, and since then the
class has not been registered again. -/
def RefersTo {B : Type} (ops : List (ClassOp B)) (h : ℕ) (name : String) (r : ℕ) : Prop :=
  ∃ before k after, (ops = before ++ .registerBlock k name :: after ∨ ops = before ++ .get k name :: after) ∧
    references before = r ∧ Related (classOrigins ops) h k ∧
    ∀ k', .registerBlock k' name ∈ after → ¬ Related (classOrigins ops) h k'

/-- `b` has been set last as the C++ class, with a reference to the block class. -/
def LastSet {B : Type} (ops : List (ClassOp B)) (h : ℕ) (name : String) (b : B) : Prop :=
  ∃ before r after, ops = before ++ .setClass r b :: after ∧ RefersTo ops h name r ∧
    ∀ r' b', .setClass r' b' ∈ after → ¬ RefersTo ops h name r'

/-- A call uses a registry and a reference that exist. -/
def Usable {B : Type} (before : List (ClassOp B)) : ClassOp B → Prop
  | .new => True
  | .copy h => h < (classOrigins before).length
  | .registerBlock h _ => h < (classOrigins before).length
  | .get h _ => h < (classOrigins before).length
  | .addChild r _ => r < references before
  | .setClass r _ => r < references before

/-- A program uses registries and references that exist, and does not register a block class that is known already. -/
def RegistersOnce {B : Type} (ops : List (ClassOp B)) : Prop :=
  ∀ before op after, ops = before ++ op :: after → Usable before op ∧
    ∀ h name, op = .registerBlock h name → ∀ k, Related (classOrigins ops) h k →
      .registerBlock k name ∉ before ∧ .get k name ∉ before

end Schnek.Spec
