import Verif.Lemma.Factor
import Mathlib.Data.List.Prime
import Mathlib.Data.Rat.Defs
import Mathlib.Algebra.Order.Field.Rat
import Mathlib.Algebra.BigOperators.Ring.Finset
import Mathlib.Algebra.BigOperators.Associated
import Mathlib.Tactic.FinCases
import Mathlib.Tactic.NormNum
import Mathlib.Tactic.NormNum.Prime

/-!
# C20, C21, C22: choice of the process layout
-/

namespace Schnek.Props

open Schnek.Factor Schnek.Lemma.Factor

open Function (update update_self update_of_ne)

variable {K : Type} {n : ℕ}

/-- **C21** The factorisation used by `equalFactors` terminates (recursion depth at most `number`) and yields only prime
numbers, in non-decreasing order, whose product is `number`. -/
theorem C21_prime_factorisation (number : ℕ) (h : 1 ≤ number) :
    ∃ l, factorize (makePrimes (Nat.sqrt number)) number number = some l ∧
      (∀ p ∈ l, p.Prime) ∧ l.prod = number ∧ l.Pairwise (· ≤ ·) :=
  factorize_spec number number number h le_rfl (by omega)

/-- **C21** The sieve yields exactly the primes up to its argument, in increasing order. -/
theorem C21_sieve (max : ℕ) :
    (∀ q, q ∈ makePrimes max ↔ q.Prime ∧ q ≤ max) ∧ (makePrimes max).Pairwise (· < ·) := makePrimes_spec max

example : ∃ number : ℕ, 1 ≤ number ∧ ¬ number.Prime := ⟨12, by norm_num, by norm_num⟩

/-- **C20** For every process count and every box, and whatever the floating point arithmetic does (any rounding, infinities,
NaN), `equalFactors` terminates with factors that are at least 1 and have the process count as their product. -/
theorem C20_product (F : FloatOps K) (number : ℕ) (h : 1 ≤ number) (w : Fin (n + 1) → ℤ) :
    ∃ k : Fin (n + 1) → ℕ, equalFactors F number w = some k ∧ ∏ i, k i = number ∧ ∀ i, 1 ≤ k i := by
  obtain ⟨l, e, l1, l2, -⟩ := C21_prime_factorisation number h
  have hpos : ∀ k : Fin (n + 1) → ℕ, ∏ i, k i = number → ∀ i, 1 ≤ k i := by
    intro k hk i
    by_contra hc
    have : k i = 0 := by omega
    rw [Finset.prod_eq_zero (Finset.mem_univ i) this] at hk
    omega
  suffices hs : ∃ k : Fin (n + 1) → ℕ, equalFactors F number w = some k ∧ ∏ i, k i = number by
    obtain ⟨k, e, hk⟩ := hs
    exact ⟨k, e, hk, hpos k hk⟩
  simp only [equalFactors, e, Option.map_some]
  refine ⟨_, rfl, ?_⟩
  have hfirst : ∀ p : ℕ, ∏ i, update (fun _ : Fin (n + 1) => 1) 0 p i = p := fun p => by
    rw [Finset.prod_update_of_mem (Finset.mem_univ _)]; simp
  match l, l2 with
  | [], l2 => simpa using l2
  | [p], l2 => simpa [hfirst] using l2
  | p :: f :: rest, l2 =>
    simp only [distribute_prod, hfirst]
    rw [← l2, List.prod_cons, List.prod_cons]

/-- `double` as exact rational numbers -/
def exactOps : FloatOps ℚ where
  ratio a b := (a : ℚ) / (b : ℚ)
  scale x f := x * (f : ℚ)
  zero := 0
  add := (· + ·)
  lt a b := decide (a < b)

/-- the cost of a layout: the sum of (number of processes)/(width) over the dimensions -/
def layoutCost (w : Fin n → ℤ) (k : Fin n → ℕ) : ℚ := ∑ i, (k i : ℚ) / (w i : ℚ)

/-- **C22 (finding: violated)** The layout returned is not the best one: two processes on a 10 × 1000 box are stacked along
the short side (2,1), although (1,2) costs half as much. -/
theorem C22_violated_first_factor :
    equalFactors exactOps 2 (![10, 1000] : Fin 2 → ℤ) = some ![2, 1] ∧
    layoutCost ![10, 1000] ![1, 2] < layoutCost ![10, 1000] ![2, 1] ∧ ∏ i, (![1, 2] : Fin 2 → ℕ) i = 2 := by
  refine ⟨?_, ?_, by decide⟩
  · rw [equalFactors, show Nat.sqrt 2 = 1 from (Nat.eq_sqrt.mpr (by decide)).symm]; decide
  simp only [layoutCost, Fin.sum_univ_two]
  norm_num

private theorem calcsum_eq (d : Fin n → ℚ) : calcsum exactOps d = ∑ i, d i := by
  have : ∀ (l : List (Fin n)) (s : ℚ), l.foldl (fun s i => exactOps.add s (d i)) s = s + (l.map d).sum := by
    intro l
    induction l with
    | nil => simp
    | cons a l ih =>
      intro s
      rw [List.foldl_cons, ih, List.map_cons, List.sum_cons]
      simp only [exactOps]; ring
  rw [calcsum, this]
  simp only [exactOps, zero_add]
  rw [← List.ofFn_eq_map, List.sum_ofFn]

theorem argmin_le (d : Fin (n + 1) → ℚ) (j : Fin (n + 1)) : d (argmin exactOps d) ≤ d j := by
  have key : ∀ (l : List (Fin n)) (i : Fin (n + 1)), (∀ j, j ∈ l.map Fin.succ ∨ d i ≤ d j) →
      ∀ j, d ((l.map Fin.succ).foldl
        (fun (st : Fin (n + 1) × ℚ) i => if i = 0 ∨ exactOps.lt (d i) st.2 then (i, d i) else st) (i, d i)).1 ≤ d j := by
    intro l
    induction l with
    | nil => intro i h j; simpa using h j
    | cons a l ih =>
      intro i h
      rw [List.map_cons, List.foldl_cons]
      by_cases hc : d a.succ < d i
      · rw [if_pos (Or.inr (by simpa [exactOps] using hc))]
        refine ih a.succ fun j => ?_
        rcases h j with h' | h'
        · rw [List.map_cons, List.mem_cons] at h'
          rcases h' with rfl | h'
          · exact Or.inr le_rfl
          · exact Or.inl h'
        · exact Or.inr (hc.le.trans h')
      · rw [if_neg (by simpa [exactOps, Fin.succ_ne_zero] using hc)]
        refine ih i fun j => ?_
        rcases h j with h' | h'
        · rw [List.map_cons, List.mem_cons] at h'
          rcases h' with rfl | h'
          · exact Or.inr (not_lt.mp hc)
          · exact Or.inl h'
        · exact Or.inr h'
  rw [argmin, List.finRange_succ, List.foldl_cons, if_pos (Or.inl rfl)]
  refine key (List.finRange n) 0 (fun j => ?_) j
  refine Fin.cases (Or.inr le_rfl) (fun i => Or.inl ?_) j
  simp

theorem cost_mul (w : Fin (n + 1) → ℤ) (k : Fin (n + 1) → ℕ) (i : Fin (n + 1)) (f : ℕ) :
    layoutCost w (update k i (k i * f)) = layoutCost w k + ((f : ℚ) - 1) * ((k i : ℚ) / (w i : ℚ)) := by
  simp only [layoutCost]
  rw [← Finset.add_sum_erase _ _ (Finset.mem_univ i), ← Finset.add_sum_erase _ (fun j => (k j : ℚ) / (w j : ℚ))
    (Finset.mem_univ i), update_self]
  rw [Finset.sum_congr rfl (fun j hj => by rw [update_of_ne (Finset.ne_of_mem_erase hj)])]
  push_cast
  ring

theorem split_prime (m : Fin (n + 1) → ℕ) (f r : ℕ) (hf : f.Prime) (hm : ∏ i, m i = f * r) :
    ∃ i m', m = update m' i (m' i * f) ∧ ∏ j, m' j = r := by
  have hd : f ∣ ∏ i, m i := ⟨r, hm⟩
  obtain ⟨i, -, t, ht⟩ := (Prime.dvd_finsetProd_iff (Nat.prime_iff.mp hf) _).mp hd
  refine ⟨i, update m i t, ?_, ?_⟩
  · funext j
    by_cases hj : j = i
    · subst hj; simp [ht, mul_comm]
    · simp [hj]
  · have h2 : ∏ j, update (update m i t) i (update m i t i * f) j = (∏ j, update m i t j) * f := prod_update_mul _ _ _
    have h3 : update (update m i t) i (update m i t i * f) = m := by
      funext j
      by_cases hj : j = i
      · subst hj; simp [ht, mul_comm]
      · simp [hj]
    rw [h3, hm] at h2
    exact (Nat.eq_of_mul_eq_mul_left hf.pos (by rw [h2]; ring)).symm

private theorem distribute_best (w : Fin (n + 1) → ℤ) : ∀ (rest : List ℕ) (f : ℕ) (k : Fin (n + 1) → ℕ),
    f.Prime → (∀ p ∈ rest, p.Prime) →
    (distribute exactOps w f rest k).2 = layoutCost w (distribute exactOps w f rest k).1 ∧
    ∀ m : Fin (n + 1) → ℕ, ∏ i, m i = f * rest.prod →
      (distribute exactOps w f rest k).2 ≤ layoutCost w (fun i => k i * m i)
  | [], f, k, hf, _ => by
    simp only [distribute]
    have e : calcsum exactOps (update (fun i => exactOps.ratio (k i) (w i))
        (argmin exactOps fun i => exactOps.ratio (k i) (w i))
        (exactOps.scale (exactOps.ratio (k (argmin exactOps fun i => exactOps.ratio (k i) (w i)))
          (w (argmin exactOps fun i => exactOps.ratio (k i) (w i)))) f)) =
        layoutCost w (update k (argmin exactOps fun i => exactOps.ratio (k i) (w i))
          (k (argmin exactOps fun i => exactOps.ratio (k i) (w i)) * f)) := by
      rw [calcsum_eq, layoutCost]
      refine Finset.sum_congr rfl fun j _ => ?_
      by_cases hj : j = argmin exactOps fun i => exactOps.ratio (k i) (w i)
      · rw [hj, update_self, update_self]; simp only [exactOps]; push_cast; ring
      · rw [update_of_ne hj, update_of_ne hj]; rfl
    rw [e]
    refine ⟨rfl, fun m hm => ?_⟩
    obtain ⟨i, m', rfl, hm'⟩ := split_prime m f _ hf hm
    simp only [List.prod_nil] at hm'
    have hone : ∀ j, m' j = 1 := fun j => by
      have : m' j ∣ 1 := hm' ▸ Finset.dvd_prod_of_mem m' (Finset.mem_univ j)
      exact Nat.dvd_one.mp this
    have hk : (fun j => k j * update m' i (m' i * f) j) = update k i (k i * f) := by
      funext j
      by_cases hj : j = i
      · subst hj; simp [hone]
      · simp [hj, hone]
    rw [hk, cost_mul, cost_mul]
    have h1 := argmin_le (fun i => exactOps.ratio (k i) (w i)) i
    have h2 : (1 : ℚ) ≤ (f : ℚ) := by exact_mod_cast hf.one_lt.le
    have := mul_le_mul_of_nonneg_left h1 (sub_nonneg.mpr h2)
    simp only [exactOps] at this ⊢
    linarith
  | g :: rest, f, k, hf, hr => by
    have hg := hr g List.mem_cons_self
    have hr' : ∀ p ∈ rest, p.Prime := fun p hp => hr p (List.mem_cons_of_mem _ hp)
    have ih := fun i => distribute_best w rest g (update k i (k i * f)) hg hr'
    simp only [distribute]
    -- the loop keeps the best of the candidates seen so far
    have gen : ∀ (l : List (Fin n)) (b : (Fin (n + 1) → ℕ) × ℚ), b.2 = layoutCost w b.1 →
        let res := l.foldl (fun (best : (Fin (n + 1) → ℕ) × ℚ) (i : Fin n) =>
          let t := distribute exactOps w g rest (update k i.succ (k i.succ * f))
          if exactOps.lt t.2 best.2 then t else best) b
        res.2 = layoutCost w res.1 ∧ res.2 ≤ b.2 ∧
          ∀ i ∈ l, res.2 ≤ (distribute exactOps w g rest (update k i.succ (k i.succ * f))).2 := by
      intro l
      induction l with
      | nil => intro b hb; exact ⟨hb, le_rfl, by simp⟩
      | cons i l ihl =>
        intro b hb
        rw [List.foldl_cons]
        simp only
        by_cases hc : (distribute exactOps w g rest (update k i.succ (k i.succ * f))).2 < b.2
        · rw [if_pos (by simpa [exactOps] using hc)]
          obtain ⟨a1, a2, a3⟩ := ihl _ (ih i.succ).1
          refine ⟨a1, a2.trans hc.le, fun j hj => ?_⟩
          rcases List.mem_cons.mp hj with rfl | hj
          · exact a2
          · exact a3 j hj
        · rw [if_neg (by simpa [exactOps] using hc)]
          obtain ⟨a1, a2, a3⟩ := ihl b hb
          refine ⟨a1, a2, fun j hj => ?_⟩
          rcases List.mem_cons.mp hj with rfl | hj
          · exact a2.trans (not_lt.mp hc)
          · exact a3 j hj
    obtain ⟨r1, r2, r3⟩ := gen (List.finRange n) _ (ih 0).1
    refine ⟨r1, fun m hm => ?_⟩
    obtain ⟨i, m', rfl, hm'⟩ := split_prime m f _ hf hm
    rw [List.prod_cons] at hm'
    have hk : (fun j => k j * update m' i (m' i * f) j) = fun j => update k i (k i * f) j * m' j := by
      funext j
      by_cases hj : j = i
      · subst hj; simp; ring
      · simp [hj]
    rw [hk]
    refine le_trans ?_ ((ih i).2 m' hm')
    refine Fin.cases r2 (fun i => r3 i (List.mem_finRange i)) i

/-- **C22, what holds instead** (with exact arithmetic) Among all layouts in which the number of processes along dimension 0 is
a multiple of the smallest prime factor of the process count, the returned one has the smallest cost. Missing from C22: layouts
in which the smallest prime factor does not go to dimension 0 are not considered. -/
theorem C22_best_with_first_factor_partial (number : ℕ) (h : 2 ≤ number) (w : Fin (n + 1) → ℤ) (k : Fin (n + 1) → ℕ)
    (hk : equalFactors exactOps number w = some k) (k' : Fin (n + 1) → ℕ) (hprod : ∏ i, k' i = number)
    (hfirst : number.minFac ∣ k' 0) : layoutCost w k ≤ layoutCost w k' := by
  obtain ⟨l, e, l1, l2, l3⟩ := C21_prime_factorisation number (by omega)
  simp only [equalFactors, e, Option.map_some, Option.some.injEq] at hk
  match l, l1, l2, l3, hk with
  | [], _, l2, _, _ => simp at l2; omega
  | p :: rest, l1, l2, l3, hk =>
    have hp := l1 p List.mem_cons_self
    have hmin : number.minFac = p := by
      refine le_antisymm (Nat.minFac_le_of_dvd hp.two_le ⟨rest.prod, by rw [← l2, List.prod_cons]⟩) ?_
      have hm := Nat.minFac_prime (show number ≠ 1 by omega)
      have hd : number.minFac ∣ (p :: rest).prod := l2 ▸ Nat.minFac_dvd number
      obtain ⟨q, hq, hdq⟩ := (Prime.dvd_prod_iff (Nat.prime_iff.mp hm)).mp hd
      have hqe : number.minFac = q := (Nat.prime_dvd_prime_iff_eq hm (l1 q hq)).mp hdq
      rw [hqe]
      rcases List.mem_cons.mp hq with rfl | hq
      · exact le_rfl
      · exact (List.pairwise_cons.mp l3).1 q hq
    obtain ⟨t, ht⟩ := hfirst
    rw [hmin] at ht
    -- k' = (p,1,1,...) times m
    let m : Fin (n + 1) → ℕ := update k' 0 t
    have hk' : (fun i => update (fun _ : Fin (n + 1) => 1) 0 p i * m i) = k' := by
      funext i
      by_cases hi : i = 0
      · subst hi; simp [m, ht]
      · simp [m, hi]
    have hm : ∏ i, m i = rest.prod := by
      have h1 : ∏ i, (update (fun _ : Fin (n + 1) => 1) 0 p i * m i) = number := by
        rw [← hprod]; exact Finset.prod_congr rfl fun i _ => congrFun hk' i
      rw [Finset.prod_mul_distrib, Finset.prod_update_of_mem (Finset.mem_univ _)] at h1
      simp only [Finset.prod_const_one, mul_one] at h1
      rw [← l2, List.prod_cons] at h1
      exact Nat.eq_of_mul_eq_mul_left hp.pos h1
    match rest, l1, hm, hk with
    | [], _, hm, hk =>
      simp only at hk
      have hone : ∀ i, m i = 1 := fun i => by
        have : m i ∣ 1 := by
          have := Finset.dvd_prod_of_mem m (Finset.mem_univ i)
          rwa [hm, List.prod_nil] at this
        exact Nat.dvd_one.mp this
      rw [← hk, ← hk']
      simp only [hone, mul_one]
      exact le_rfl
    | f :: rest, l1, hm, hk =>
      simp only at hk
      obtain ⟨b1, b2⟩ := distribute_best w rest f (update (fun _ : Fin (n + 1) => 1) 0 p)
        (l1 f (by simp)) (fun q hq => l1 q (by simp [hq]))
      rw [← hk, ← b1, ← hk']
      exact b2 m hm

/-- non-vacuity: 12 processes on a 10 × 1000 box; the competitor (4,3) has an even number of processes along dimension 0 -/
example : (∃ k, equalFactors exactOps 12 (![10, 1000] : Fin 2 → ℤ) = some k) ∧
    ∏ i, (![4, 3] : Fin 2 → ℕ) i = 12 ∧ Nat.minFac 12 ∣ (![4, 3] : Fin 2 → ℕ) 0 := by
  refine ⟨?_, by decide, by norm_num⟩
  obtain ⟨k, hk, -⟩ := C20_product exactOps 12 (by norm_num) (![10, 1000] : Fin 2 → ℤ)
  exact ⟨k, hk⟩

end Schnek.Props
