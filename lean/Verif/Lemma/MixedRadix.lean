import Verif.Spec.Range
import Mathlib.Tactic.Linarith
import Mathlib.Tactic.Ring
import Mathlib.Tactic.Positivity
import Mathlib.Logic.Function.Basic

/-!
# Mixed radix numbers: helper lemmas for iteration order and storage order
-/

namespace Schnek.Lemma

open Schnek.Spec

variable {n : ℕ}

/-- value of the first `k` digits `p i - lo i` in the mixed radix system with radices `extent` -/
def pre (lo hi p : Fin n → ℤ) : (k : ℕ) → k ≤ n → ℤ
  | 0, _ => 0
  | k + 1, h => pre lo hi p k (Nat.le_of_succ_le h) * extent lo hi ⟨k, h⟩ + (p ⟨k, h⟩ - lo ⟨k, h⟩)

/-- product of the first `k` extents -/
def vol (lo hi : Fin n → ℤ) : (k : ℕ) → k ≤ n → ℤ
  | 0, _ => 1
  | k + 1, h => vol lo hi k (Nat.le_of_succ_le h) * extent lo hi ⟨k, h⟩

/-- the first `k` components are in the box -/
def InBoxK (lo hi p : Fin n → ℤ) (k : ℕ) : Prop := ∀ i : Fin n, i.1 < k → lo i ≤ p i ∧ p i ≤ hi i

theorem InBoxK.mono {lo hi p : Fin n → ℤ} {k m : ℕ} (h : InBoxK lo hi p m) (hk : k ≤ m) :
    InBoxK lo hi p k := fun i hi => h i (lt_of_lt_of_le hi hk)

theorem inBoxK_of_inBox {lo hi p : Fin n → ℤ} (h : InBox lo hi p) (k : ℕ) : InBoxK lo hi p k :=
  fun i _ => h i

theorem inBox_of_inBoxK {lo hi p : Fin n → ℤ} (h : InBoxK lo hi p n) : InBox lo hi p :=
  fun i => h i i.2

theorem pre_congr {lo hi p q : Fin n → ℤ} :
    ∀ (k : ℕ) (hk : k ≤ n), (∀ i : Fin n, i.1 < k → p i = q i) → pre lo hi p k hk = pre lo hi q k hk
  | 0, _, _ => rfl
  | k + 1, hk, h => by
    simp only [pre]
    rw [pre_congr k (Nat.le_of_succ_le hk) (fun i hi => h i (by omega)), h ⟨k, hk⟩ (by simp)]

theorem pre_bounds {lo hi p : Fin n → ℤ} :
    ∀ (k : ℕ) (hk : k ≤ n), InBoxK lo hi p k → 0 ≤ pre lo hi p k hk ∧ pre lo hi p k hk < vol lo hi k hk
  | 0, _, _ => by simp [pre, vol]
  | k + 1, hk, h => by
    have ih := pre_bounds k (Nat.le_of_succ_le hk) (h.mono (Nat.le_succ k))
    have hb := h ⟨k, hk⟩ (by simp)
    simp only [pre, vol]
    set A := pre lo hi p k (Nat.le_of_succ_le hk)
    set V := vol lo hi k (Nat.le_of_succ_le hk)
    have hE : extent lo hi ⟨k, hk⟩ = hi ⟨k, hk⟩ - lo ⟨k, hk⟩ + 1 := rfl
    have hE' : 1 ≤ extent lo hi ⟨k, hk⟩ := by rw [hE]; omega
    constructor
    · have := mul_nonneg ih.1 (by linarith : (0:ℤ) ≤ extent lo hi ⟨k, hk⟩)
      omega
    · have h1 : (A + 1) * extent lo hi ⟨k, hk⟩ ≤ V * extent lo hi ⟨k, hk⟩ :=
        mul_le_mul_of_nonneg_right (by omega) (by linarith)
      have h2 : (A + 1) * extent lo hi ⟨k, hk⟩ = A * extent lo hi ⟨k, hk⟩ + extent lo hi ⟨k, hk⟩ := by
        ring
      omega

theorem vol_pos {lo hi p : Fin n → ℤ} (k : ℕ) (hk : k ≤ n) (h : InBoxK lo hi p k) :
    0 < vol lo hi k hk := by
  have := pre_bounds k hk h
  omega

theorem pre_lt_of_lexLt {lo hi p q : Fin n → ℤ} :
    ∀ (m : ℕ) (hm : m ≤ n), InBoxK lo hi p m → InBoxK lo hi q m →
      (∃ k : Fin n, k.1 < m ∧ (∀ j : Fin n, j < k → p j = q j) ∧ p k < q k) →
      pre lo hi p m hm < pre lo hi q m hm
  | 0, _, _, _, ⟨k, hk, _⟩ => by omega
  | m + 1, hm, hp, hq, ⟨k, hk, heq, hlt⟩ => by
    simp only [pre]
    have hbp := hp ⟨m, hm⟩ (by simp)
    have hbq := hq ⟨m, hm⟩ (by simp)
    have hE : extent lo hi ⟨m, hm⟩ = hi ⟨m, hm⟩ - lo ⟨m, hm⟩ + 1 := rfl
    rcases Nat.lt_succ_iff_lt_or_eq.mp hk with hk | hk
    · have ih := pre_lt_of_lexLt m (Nat.le_of_succ_le hm) (hp.mono (Nat.le_succ m))
        (hq.mono (Nat.le_succ m)) ⟨k, hk, heq, hlt⟩
      set A := pre lo hi p m (Nat.le_of_succ_le hm)
      set B := pre lo hi q m (Nat.le_of_succ_le hm)
      have h1 : (A + 1) * extent lo hi ⟨m, hm⟩ ≤ B * extent lo hi ⟨m, hm⟩ :=
        mul_le_mul_of_nonneg_right (by omega) (by omega)
      have h2 : (A + 1) * extent lo hi ⟨m, hm⟩ = A * extent lo hi ⟨m, hm⟩ + extent lo hi ⟨m, hm⟩ := by
        ring
      omega
    · have hkm : k = ⟨m, hm⟩ := Fin.ext hk
      subst hkm
      rw [pre_congr m (Nat.le_of_succ_le hm) (fun i hi => heq i (by simpa [Fin.lt_def] using hi))]
      omega

theorem lexLt_pre {lo hi p q : Fin n → ℤ} (hp : InBox lo hi p) (hq : InBox lo hi q)
    (h : LexLt p q) : pre lo hi p n le_rfl < pre lo hi q n le_rfl := by
  obtain ⟨k, h1, h2⟩ := h
  exact pre_lt_of_lexLt n le_rfl (inBoxK_of_inBox hp n) (inBoxK_of_inBox hq n) ⟨k, k.2, h1, h2⟩

theorem lexLt_trichotomy (p q : Fin n → ℤ) : LexLt p q ∨ p = q ∨ LexLt q p := by
  by_cases h : p = q
  · exact Or.inr (Or.inl h)
  · have hne : ∃ k : ℕ, ∃ hk : k < n, p ⟨k, hk⟩ ≠ q ⟨k, hk⟩ := by
      by_contra hc
      push Not at hc
      exact h (funext fun i => hc i i.2)
    classical
    obtain ⟨hk, hpq⟩ := Nat.find_spec hne
    have hmin : ∀ j : Fin n, j < ⟨Nat.find hne, hk⟩ → p j = q j := by
      intro j hj
      by_contra hc
      exact Nat.find_min hne (by simpa [Fin.lt_def] using hj) ⟨j.2, hc⟩
    rcases lt_or_gt_of_ne hpq with h1 | h1
    · exact Or.inl ⟨_, hmin, h1⟩
    · exact Or.inr (Or.inr ⟨_, fun j hj => (hmin j hj).symm, h1⟩)

theorem lexLt_irrefl (p : Fin n → ℤ) : ¬ LexLt p p := fun ⟨_, _, h⟩ => lt_irrefl _ h

theorem lexLt_iff_pre {lo hi p q : Fin n → ℤ} (hp : InBox lo hi p) (hq : InBox lo hi q) :
    LexLt p q ↔ pre lo hi p n le_rfl < pre lo hi q n le_rfl := by
  refine ⟨lexLt_pre hp hq, fun h => ?_⟩
  rcases lexLt_trichotomy p q with h1 | h1 | h1
  · exact h1
  · subst h1; exact absurd h (lt_irrefl _)
  · exact absurd (lexLt_pre hq hp h1) (by omega)

theorem pre_injective {lo hi p q : Fin n → ℤ} (hp : InBox lo hi p) (hq : InBox lo hi q)
    (h : pre lo hi p n le_rfl = pre lo hi q n le_rfl) : p = q := by
  rcases lexLt_trichotomy p q with h1 | h1 | h1
  · have := lexLt_pre hp hq h1; omega
  · exact h1
  · have := lexLt_pre hq hp h1; omega

theorem pre_surjective {lo hi : Fin n → ℤ} (base : Fin n → ℤ) :
    ∀ (k : ℕ) (hk : k ≤ n) (a : ℤ), (∀ i : Fin n, i.1 < k → lo i ≤ hi i) → 0 ≤ a →
      a < vol lo hi k hk →
      ∃ p, InBoxK lo hi p k ∧ pre lo hi p k hk = a ∧ ∀ i : Fin n, k ≤ i.1 → p i = base i
  | 0, _, a, _, h0, h1 => by
    refine ⟨base, fun i hi => absurd hi (by omega), ?_, fun _ _ => rfl⟩
    simp only [vol] at h1
    simp only [pre]; omega
  | k + 1, hk, a, hne, h0, h1 => by
    simp only [vol] at h1
    have hE : extent lo hi ⟨k, hk⟩ = hi ⟨k, hk⟩ - lo ⟨k, hk⟩ + 1 := rfl
    have hb := hne ⟨k, hk⟩ (by simp)
    set E := extent lo hi ⟨k, hk⟩ with hEdef
    have hEpos : 0 < E := by omega
    have hm0 := Int.emod_nonneg a (ne_of_gt hEpos)
    have hm1 := Int.emod_lt_of_pos a hEpos
    have hdm := Int.mul_ediv_add_emod a E
    have hd0 : 0 ≤ a / E := Int.ediv_nonneg h0 hEpos.le
    have hd1 : a / E < vol lo hi k (Nat.le_of_succ_le hk) :=
      Int.ediv_lt_of_lt_mul hEpos h1
    obtain ⟨p, hp1, hp2, hp3⟩ := pre_surjective base k (Nat.le_of_succ_le hk) (a / E)
      (fun i hi => hne i (by omega)) hd0 hd1
    refine ⟨Function.update p ⟨k, hk⟩ (lo ⟨k, hk⟩ + a % E), ?_, ?_, ?_⟩
    · intro i hik
      by_cases hi : i = ⟨k, hk⟩
      · subst hi; simp only [Function.update_self]; omega
      · rw [Function.update_of_ne hi]
        refine hp1 i ?_
        have : i.1 ≠ k := fun hc => hi (Fin.ext hc)
        omega
    · simp only [pre]
      rw [pre_congr (q := p) k (Nat.le_of_succ_le hk), hp2, Function.update_self, ← hEdef]
      · rw [mul_comm]; omega
      · intro i hi
        rw [Function.update_of_ne]
        intro hc; rw [hc] at hi; simp at hi
    · intro i hi
      rw [Function.update_of_ne]
      · exact hp3 i (by omega)
      · intro hc; rw [hc] at hi; simp at hi

/-- reversal of the dimensions turns the colexicographic order into the lexicographic one -/
theorem colexLt_iff_rev (p q : Fin n → ℤ) :
    ColexLt p q ↔ LexLt (fun i => p i.rev) (fun i => q i.rev) := by
  constructor
  · rintro ⟨k, h1, h2⟩
    refine ⟨k.rev, fun j hj => h1 _ ?_, by simpa using h2⟩
    rw [← Fin.rev_lt_rev]; simpa using hj
  · rintro ⟨k, h1, h2⟩
    refine ⟨k.rev, fun j hj => ?_, h2⟩
    have := h1 j.rev (by rw [← Fin.rev_lt_rev]; simpa using hj)
    simpa using this

theorem inBox_rev_iff (lo hi p : Fin n → ℤ) :
    InBox (fun i => lo i.rev) (fun i => hi i.rev) (fun i => p i.rev) ↔ InBox lo hi p :=
  ⟨fun h i => by simpa using h i.rev, fun h i => h i.rev⟩

theorem rev_injective {p q : Fin n → ℤ} (h : (fun i => p (Fin.rev i)) = fun i => q i.rev) : p = q := by
  funext i
  simpa using congrFun h i.rev

end Schnek.Lemma
