import Mathlib.Data.Nat.Sqrt
import Mathlib.Data.List.FinRange
import Mathlib.Logic.Function.Basic
import Mathlib.Data.List.OfFn

/-!
# Model of `schnek::equalFactors`

`src/util/factor.cpp`. `int` is ℕ (the process count is positive; overflow not modelled). The `double` arithmetic used to
compare layouts is a parameter (`FloatOps`), so that statements which do not depend on it hold for every rounding.
-/

namespace Schnek.Factor

/-- The floating point operations used by `distribute`. -/
structure FloatOps (K : Type) where
  /-- `double(a)/double(b)` -/
  ratio : ℕ → ℤ → K
  /-- `x *= f` with an integer `f` -/
  scale : K → ℕ → K
  /-- `0` -/
  zero : K
  /-- `+` -/
  add : K → K → K
  /-- `<` -/
  lt : K → K → Bool

/-- The inner loop of `makePrimes`: `for (; prod<=max; prod += i) isprime[prod] = false`, factor.cpp 89-92, at most `fuel`
rounds. It is called with `i ≥ 2`, so that `max` rounds are always enough (`Lemma.Factor.mark_spec`). -/
def mark (max i : ℕ) : (fuel : ℕ) → (prod : ℕ) → (isprime : ℕ → Bool) → ℕ → Bool
  | 0, _, isprime => isprime
  | fuel + 1, prod, isprime =>
    if prod ≤ max then mark max i fuel (prod + i) (Function.update isprime prod false) else isprime

/-- one round of the loop over `i` of `makePrimes`: factor.cpp 85-93 -/
def sieveStep (max : ℕ) (st : (ℕ → Bool) × List ℕ) (i : ℕ) : (ℕ → Bool) × List ℕ :=
  if st.1 i then (mark max i max (2 * i) st.1, st.2 ++ [i]) else st

/-- `makePrimes(primes, max)`: factor.cpp 79-95. The vector `isprime` is a function; all accesses are at `2..max`. -/
def makePrimes (max : ℕ) : List ℕ :=
  ((List.range' 2 (max - 1)).foldl (sieveStep max) (fun _ => true, [])).2

/-- `factorize(number, primes, factors)`: factor.cpp 97-114. The recursion is bounded by `fuel`; `none` means that the
recursion is deeper than `fuel`. -/
def factorize (primes : List ℕ) : (fuel : ℕ) → (number : ℕ) → Option (List ℕ)
  | 0, number => if number = 1 then some [] else none
  | fuel + 1, number =>
    if number = 1 then some []
    else
      match primes.find? (fun p => number % p == 0) with
      | some p => (factorize primes fuel (number / p)).map (p :: ·)
      | none => some [number]

section

variable {K : Type} (F : FloatOps K) {n : ℕ}

/-- `std::for_each(dfactors.begin(), dfactors.end(), calcsum<double>()).result()`: factor.cpp 147, algohelper.hpp 32-43. -/
def calcsum (d : Fin n → K) : K := (List.finRange n).foldl (fun s i => F.add s (d i)) F.zero

/-- the loop that searches the smallest `dfactors[i]`: factor.cpp 131-142. State: `imin`, `facmin`. -/
def argmin (d : Fin (n + 1) → K) : Fin (n + 1) :=
  ((List.finRange (n + 1)).foldl
    (fun (st : Fin (n + 1) × K) i => if i = 0 ∨ F.lt (d i) st.2 then (i, d i) else st) (0, F.zero)).1

/-- `distribute(factors, allfact, weights)`: factor.cpp 116-171; returns the new `factors` and the returned sum.
`allfact` is `f :: rest`. `factors` and `weights` both have `n+1 ≥ 1` entries (for fewer weights than factors the C++ code
reads outside of the vector). -/
def distribute (weights : Fin (n + 1) → ℤ) : (f : ℕ) → (rest : List ℕ) → (Fin (n + 1) → ℕ) → (Fin (n + 1) → ℕ) × K
  | f, [], factors =>
    let dfactors := fun i => F.ratio (factors i) (weights i)
    let imin := argmin F dfactors
    (Function.update factors imin (factors imin * f),
      calcsum F (Function.update dfactors imin (F.scale (dfactors imin) f)))
  | f, g :: rest, factors =>
    let first := distribute weights g rest (Function.update factors 0 (factors 0 * f))
    (List.finRange n).foldl
      (fun (best : (Fin (n + 1) → ℕ) × K) (i : Fin n) =>
        let t := distribute weights g rest (Function.update factors i.succ (factors i.succ * f))
        if F.lt t.2 best.2 then t else best) first

/-- `equalFactors(number, nfact, factors, weights)` with `nfact = n+1`: factor.cpp 49-77. `int(floor(sqrt(number)))` is the
exact integer square root (IEEE `sqrt` is correctly rounded and `int` arguments are exact, see `Props.C123_sqrt`). -/
def equalFactors (number : ℕ) (weights : Fin (n + 1) → ℤ) : Option (Fin (n + 1) → ℕ) :=
  let primes := makePrimes (Nat.sqrt number)
  (factorize primes number number).map fun allfact =>
    match allfact with
    | [] => fun _ => 1
    | p :: rest =>
      let factors : Fin (n + 1) → ℕ := Function.update (fun _ => 1) 0 p
      match rest with
      | [] => factors
      | f :: rest => (distribute F weights f rest factors).1

end

end Schnek.Factor
