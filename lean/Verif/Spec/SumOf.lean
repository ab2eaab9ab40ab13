import Mathlib.Data.Multiset.AddSub

/-!
# Sums in an unknown order
-/

namespace Schnek.Spec

variable {T : Type}

/-- `SumOf M a`: the value `a` is computed by adding up the values of `M`, each of them once, with `+` in some order and with brackets in
some places. Nothing is known about `+`. -/
inductive SumOf [Add T] : Multiset T → T → Prop
  | single (a : T) : SumOf {a} a
  | add {M N : Multiset T} {a b : T} : SumOf M a → SumOf N b → SumOf (M + N) (a + b)

end Schnek.Spec
