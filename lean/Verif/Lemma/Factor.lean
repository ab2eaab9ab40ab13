import Verif.Model.Factor
import Mathlib.Data.Nat.Prime.Basic
import Mathlib.Algebra.BigOperators.Fin
import Mathlib.Tactic.Linarith
import Mathlib.Tactic.Ring

/-!
# Lemmas about the sieve and the factorisation
-/

namespace Schnek.Lemma.Factor

open Schnek.Factor Function

theorem mark_spec (max i : ℕ) (hi : 0 < i) (x : ℕ) : ∀ (fuel prod : ℕ) (s : ℕ → Bool), max < prod + fuel →
    (mark max i fuel prod s x = false ↔ s x = false ∨ (∃ t, x = prod + i * t) ∧ x ≤ max)
  | 0, prod, s, hf => by
    rw [mark]
    constructor
    · exact Or.inl
    · rintro (h' | ⟨⟨t, rfl⟩, h'⟩)
      · exact h'
      · omega
  | fuel + 1, prod, s, hf => by
    rw [mark]
    by_cases h : prod ≤ max
    · rw [if_pos h, mark_spec max i hi x fuel _ _ (by omega)]
      by_cases hx : x = prod
      · subst hx
        simp only [update_self, true_or, true_iff]
        exact Or.inr ⟨⟨0, by simp⟩, h⟩
      · rw [update_of_ne hx]
        refine or_congr_right (and_congr_left fun _ => ?_)
        constructor
        · rintro ⟨t, rfl⟩; exact ⟨t + 1, by ring⟩
        · rintro ⟨t, ht⟩
          cases t with
          | zero => simp at ht; exact absurd ht hx
          | succ t => exact ⟨t, by rw [ht]; ring⟩
    · rw [if_neg h]
      constructor
      · exact Or.inl
      · rintro (h' | ⟨⟨t, rfl⟩, h'⟩)
        · exact h'
        · omega

/-- state of the sieve before round `2 + k` -/
theorem sieve_spec (max : ℕ) : ∀ k, k + 1 ≤ max →
    let st := (List.range' 2 k).foldl (sieveStep max) (fun _ => true, [])
    (∀ x, 2 ≤ x → x ≤ max → (st.1 x = false ↔ ∃ q, q.Prime ∧ q < 2 + k ∧ q ∣ x ∧ q < x)) ∧
    (∀ q, q ∈ st.2 ↔ q.Prime ∧ q < 2 + k) ∧ st.2.Pairwise (· < ·)
  | 0, _ => by
    refine ⟨fun x _ _ => ⟨fun h => by simp at h, ?_⟩, fun q => ⟨fun h => by simp at h, ?_⟩, by simp⟩
    · rintro ⟨q, hq, h, -⟩; have := hq.two_le; omega
    · rintro ⟨hq, h⟩; have := hq.two_le; omega
  | k + 1, hk => by
    obtain ⟨h1, h2, h3⟩ := sieve_spec max k (by omega)
    rw [List.range'_concat, List.foldl_append]
    simp only [List.foldl_cons, List.foldl_nil, Nat.one_mul]
    generalize (List.range' 2 k).foldl (sieveStep max) (fun _ => true, []) = st at *
    have hprime : st.1 (2 + k) = true ↔ (2 + k).Prime := by
      rw [← Bool.not_eq_false, h1 (2 + k) (by omega) (by omega)]
      constructor
      · intro h
        by_contra hp
        have hm := Nat.minFac_prime (show 2 + k ≠ 1 by omega)
        have hlt : (2 + k).minFac < 2 + k := by
          rcases (Nat.minFac_le (show 0 < 2 + k by omega)).lt_or_eq with h' | h'
          · exact h'
          · exact absurd (h' ▸ hm) hp
        exact h ⟨_, hm, hlt, Nat.minFac_dvd _, hlt⟩
      · rintro hp ⟨q, hq, hlt, hd, -⟩
        rcases (Nat.dvd_prime hp).mp hd with rfl | rfl
        · exact absurd hq Nat.not_prime_one
        · omega
    unfold sieveStep
    by_cases hp : (2 + k).Prime
    · rw [if_pos (hprime.mpr hp)]
      refine ⟨fun x hx hxm => ?_, fun q => ?_, ?_⟩
      · rw [mark_spec max _ (by omega) x _ _ _ (by omega), h1 x hx hxm]
        constructor
        · rintro (⟨q, hq, hlt, hd, hqx⟩ | ⟨⟨t, rfl⟩, -⟩)
          · exact ⟨q, hq, by omega, hd, hqx⟩
          · exact ⟨2 + k, hp, by omega, ⟨2 + t, by ring⟩, by nlinarith [Nat.zero_le t]⟩
        · rintro ⟨q, hq, hlt, hd, hqx⟩
          by_cases hqk : q < 2 + k
          · exact Or.inl ⟨q, hq, hqk, hd, hqx⟩
          · have : q = 2 + k := by omega
            subst this
            obtain ⟨t, rfl⟩ := hd
            refine Or.inr ⟨⟨t - 2, ?_⟩, hxm⟩
            have ht : 2 ≤ t := by
              by_contra hc
              have : t = 0 ∨ t = 1 := by omega
              rcases this with rfl | rfl <;> omega
            obtain ⟨u, rfl⟩ := Nat.exists_eq_add_of_le ht
            simp only [Nat.add_sub_cancel_left]
            ring
      · rw [List.mem_append, List.mem_singleton, h2]
        constructor
        · rintro (⟨a, b⟩ | rfl)
          · exact ⟨a, by omega⟩
          · exact ⟨hp, by omega⟩
        · rintro ⟨a, b⟩
          by_cases hqk : q < 2 + k
          · exact Or.inl ⟨a, hqk⟩
          · exact Or.inr (by omega)
      · rw [List.pairwise_append]
        refine ⟨h3, by simp, fun a ha b hb => ?_⟩
        rw [List.mem_singleton] at hb
        subst hb
        exact ((h2 a).mp ha).2
    · rw [if_neg (fun h => hp (hprime.mp h))]
      refine ⟨fun x hx hxm => ?_, fun q => ?_, h3⟩
      · rw [h1 x hx hxm]
        constructor
        · rintro ⟨q, hq, hlt, hd, hqx⟩; exact ⟨q, hq, by omega, hd, hqx⟩
        · rintro ⟨q, hq, hlt, hd, hqx⟩
          refine ⟨q, hq, ?_, hd, hqx⟩
          have : q ≠ 2 + k := fun h => hp (h ▸ hq)
          omega
      · rw [h2]
        constructor
        · rintro ⟨a, b⟩; exact ⟨a, by omega⟩
        · rintro ⟨a, b⟩
          have : q ≠ 2 + k := fun h => hp (h ▸ a)
          exact ⟨a, by omega⟩

theorem makePrimes_spec (max : ℕ) :
    (∀ q, q ∈ makePrimes max ↔ q.Prime ∧ q ≤ max) ∧ (makePrimes max).Pairwise (· < ·) := by
  unfold makePrimes
  rcases Nat.lt_or_ge max 2 with h | h
  · have : max - 1 = 0 := by omega
    rw [this]
    refine ⟨fun q => ⟨fun h => by simp at h, ?_⟩, by simp⟩
    rintro ⟨hq, h'⟩
    have := hq.two_le; omega
  · obtain ⟨-, h2, h3⟩ := sieve_spec max (max - 1) (by omega)
    refine ⟨fun q => ?_, h3⟩
    rw [h2]
    exact and_congr_right fun _ => by omega

theorem find?_sorted {l : List ℕ} (hl : l.Pairwise (· < ·)) {P : ℕ → Bool} {p : ℕ} (h : l.find? P = some p) :
    p ∈ l ∧ P p = true ∧ ∀ q ∈ l, P q = true → p ≤ q := by
  refine ⟨List.mem_of_find?_eq_some h, List.find?_some h, fun q hq hP => ?_⟩
  induction l with
  | nil => simp at h
  | cons a l ih =>
    rw [List.pairwise_cons] at hl
    rw [List.find?_cons] at h
    cases ha : P a with
    | true =>
      rw [ha] at h
      cases h
      rcases List.mem_cons.mp hq with rfl | hq
      · exact le_rfl
      · exact (hl.1 q hq).le
    | false =>
      rw [ha] at h
      rcases List.mem_cons.mp hq with rfl | hq
      · rw [ha] at hP; cases hP
      · exact ih hl.2 h hq

theorem factorize_spec (N : ℕ) : ∀ (fuel number : ℕ), 1 ≤ number → number ≤ N → number ≤ fuel + 1 →
    ∃ l, factorize (makePrimes (Nat.sqrt N)) fuel number = some l ∧ (∀ p ∈ l, p.Prime) ∧ l.prod = number ∧
      l.Pairwise (· ≤ ·)
  | 0, number, h1, _, h3 => by
    have : number = 1 := by omega
    subst this
    exact ⟨[], by simp [factorize], by simp, by simp, by simp⟩
  | fuel + 1, number, h1, h2, h3 => by
    obtain ⟨m1, m2⟩ := makePrimes_spec (Nat.sqrt N)
    rw [factorize]
    by_cases hn : number = 1
    · rw [if_pos hn]; exact ⟨[], rfl, by simp, by simp [hn], by simp⟩
    · rw [if_neg hn]
      cases hf : (makePrimes (Nat.sqrt N)).find? (fun p => number % p == 0) with
      | some p =>
        obtain ⟨f1, f2, f3⟩ := find?_sorted m2 hf
        have hp := ((m1 p).mp f1).1
        have hd : p ∣ number := Nat.dvd_of_mod_eq_zero (by simpa using f2)
        have hlt : number / p < number := Nat.div_lt_self h1 hp.one_lt
        obtain ⟨l, e, l1, l2, l3⟩ := factorize_spec N fuel (number / p)
          (Nat.div_pos (Nat.le_of_dvd h1 hd) hp.pos) (by omega) (by omega)
        refine ⟨p :: l, by simp [e], ?_, ?_, ?_⟩
        · intro q hq
          rcases List.mem_cons.mp hq with rfl | hq
          · exact hp
          · exact l1 q hq
        · rw [List.prod_cons, l2, Nat.mul_div_cancel' hd]
        · rw [List.pairwise_cons]
          refine ⟨fun q hq => ?_, l3⟩
          have hqd : q ∣ number := (List.dvd_prod hq).trans (l2 ▸ Nat.div_dvd_of_dvd hd)
          by_contra hlt'
          have hqm : q ∈ makePrimes (Nat.sqrt N) := (m1 q).mpr ⟨l1 q hq, by have := ((m1 p).mp f1).2; omega⟩
          have := f3 q hqm (by simpa using Nat.mod_eq_zero_of_dvd hqd)
          omega
      | none =>
        rw [List.find?_eq_none] at hf
        have hprime : number.Prime := by
          by_contra hp
          have hm := Nat.minFac_prime hn
          have hsq := Nat.minFac_sq_le_self h1 hp
          have : number.minFac ≤ Nat.sqrt N := by
            rw [Nat.le_sqrt]
            calc number.minFac * number.minFac = number.minFac ^ 2 := by ring
              _ ≤ number := hsq
              _ ≤ N := h2
          exact hf _ ((m1 _).mpr ⟨hm, this⟩) (by simpa using Nat.mod_eq_zero_of_dvd (Nat.minFac_dvd number))
        exact ⟨[number], rfl, by simpa using hprime, by simp, by simp⟩

section

variable {K : Type} (F : FloatOps K) {n : ℕ}

theorem prod_update_mul (f : Fin (n + 1) → ℕ) (i : Fin (n + 1)) (m : ℕ) :
    ∏ j, update f i (f i * m) j = (∏ j, f j) * m := by
  rw [Finset.prod_update_of_mem (Finset.mem_univ i), mul_right_comm, ← Finset.prod_eq_mul_prod_sdiff_singleton_of_mem (Finset.mem_univ i)]

theorem distribute_prod (w : Fin (n + 1) → ℤ) : ∀ (rest : List ℕ) (f : ℕ) (factors : Fin (n + 1) → ℕ),
    ∏ i, (distribute F w f rest factors).1 i = (∏ i, factors i) * (f * rest.prod)
  | [], f, factors => by
    simp only [distribute, List.prod_nil, mul_one]
    exact prod_update_mul _ _ _
  | g :: rest, f, factors => by
    simp only [distribute]
    have key : ∀ i, ∏ j, (distribute F w g rest (update factors i (factors i * f))).1 j =
        (∏ i, factors i) * (f * (g :: rest).prod) := fun i => by
      rw [distribute_prod w rest, prod_update_mul, List.prod_cons]; ring
    have gen : ∀ (l : List (Fin n)) (b : (Fin (n + 1) → ℕ) × K), ∏ j, b.1 j = (∏ i, factors i) * (f * (g :: rest).prod) →
        ∏ j, (l.foldl (fun (best : (Fin (n + 1) → ℕ) × K) (i : Fin n) =>
          let t := distribute F w g rest (update factors i.succ (factors i.succ * f))
          if F.lt t.2 best.2 then t else best) b).1 j = (∏ i, factors i) * (f * (g :: rest).prod) := by
      intro l
      induction l with
      | nil => intro b hb; exact hb
      | cons i l ih =>
        intro b hb
        rw [List.foldl_cons]
        refine ih _ ?_
        simp only
        split
        · exact key _
        · exact hb
    exact gen _ _ (key 0)

end

end Schnek.Lemma.Factor
