import Verif.Model.Misc
import Verif.Props.Dependencies
import Mathlib.Algebra.Order.Field.Basic
import Mathlib.Tactic.Linarith
import Mathlib.Tactic.Positivity
import Mathlib.Tactic.NormNum
import Mathlib.Tactic.FieldSimp

/-!
# Unique ids, random numbers

C51, C52
-/

namespace Schnek.Props

open Deck Misc

section

variable {F W : Type}

/-- Where the identity of each variable comes from: the number of the call that created it. A copy and the target of an assignment
take over the identity. `h` is only asked which assignments throw. -/
inductive Origins : List (Call F W) → List ℕ → Prop
  | nil : Origins [] []
  | ofValue {l o} (v i r) : Origins l o → Origins (l ++ [.ofValue v i r]) (o ++ [l.length])
  | ofExpr {l o} (e i r) : Origins l o → Origins (l ++ [.ofExpr e i r]) (o ++ [l.length])
  | copy {l o} (k) (hk : k < o.length) : Origins l o → Origins (l ++ [.copy k]) (o ++ [o[k]])
  | copyNone {l o} (k) (hk : o.length ≤ k) : Origins l o → Origins (l ++ [.copy k]) o
  | assign {l o} (k j) (a b : Variable F W) (hk : k < o.length) (hj : j < o.length) (ha : (Heap.run l).vars[k]? = some a)
      (hb : (Heap.run l).vars[j]? = some b) (ht : a.ty = b.ty) (hr : a.readOnly = false) :
      Origins l o → Origins (l ++ [.assign k j]) (o.set k o[j])
  | assignThrows {l o} (k j) (a b : Variable F W) (ha : (Heap.run l).vars[k]? = some a) (hb : (Heap.run l).vars[j]? = some b)
      (ht : a.ty ≠ b.ty ∨ a.readOnly = true) : Origins l o → Origins (l ++ [.assign k j]) o
  | assignNone {l o} (k j) (hkj : o.length ≤ k ∨ o.length ≤ j) : Origins l o → Origins (l ++ [.assign k j]) o

private theorem run_concat (l : List (Call F W)) (c : Call F W) : Heap.run (l ++ [c]) = (Heap.run l).step c := by
  simp [Heap.run]

/-- The invariant: a table from calls to ids. -/
private theorem origins_inv {l : List (Call F W)} {o : List ℕ} (h : Origins l o) :
    ∃ f : ℕ → ℤ, (∀ x, x < l.length → ∀ y, y < l.length → x ∈ o → y ∈ o → f x = f y → x = y) ∧ (∀ x ∈ o, f x < (Heap.run l).counter) ∧
      (∀ x ∈ o, x < l.length) ∧ (Heap.run l).vars.map Variable.id = o.map f := by
  have fresh : ∀ {l : List (Call F W)} {o : List ℕ} (c : Call F W) (v : ℤ → Variable F W) (hv : ∀ i, (v i).id = i)
      (hc : (Heap.run (l ++ [c])) = ⟨(Heap.run l).vars ++ [v (Heap.run l).counter], (Heap.run l).counter + 1⟩)
      (ih : ∃ f : ℕ → ℤ, (∀ x, x < l.length → ∀ y, y < l.length → x ∈ o → y ∈ o → f x = f y → x = y) ∧
        (∀ x ∈ o, f x < (Heap.run l).counter) ∧ (∀ x ∈ o, x < l.length) ∧ (Heap.run l).vars.map Variable.id = o.map f),
      ∃ f : ℕ → ℤ, (∀ x, x < (l ++ [c]).length → ∀ y, y < (l ++ [c]).length → x ∈ o ++ [l.length] → y ∈ o ++ [l.length] → f x = f y → x = y) ∧
        (∀ x ∈ o ++ [l.length], f x < (Heap.run (l ++ [c])).counter) ∧ (∀ x ∈ o ++ [l.length], x < (l ++ [c]).length) ∧
        (Heap.run (l ++ [c])).vars.map Variable.id = (o ++ [l.length]).map f := by
    intro l o c v hv hc ⟨f, h1, h2, h3, h4⟩
    have hne : ∀ x ∈ o, x ≠ l.length := fun x hx => (h3 x hx).ne
    refine ⟨fun x => if x = l.length then (Heap.run l).counter else f x, ?_, ?_, ?_, ?_⟩
    · intro x hx y hy hxo hyo hxy
      simp only at hxy
      rcases List.mem_append.mp hxo with hx1 | hx1 <;> rcases List.mem_append.mp hyo with hy1 | hy1
      · rw [if_neg (hne x hx1), if_neg (hne y hy1)] at hxy
        exact h1 x (h3 x hx1) y (h3 y hy1) hx1 hy1 hxy
      · rw [if_neg (hne x hx1), if_pos (by simpa using hy1)] at hxy
        exact absurd hxy (h2 x hx1).ne
      · rw [if_pos (by simpa using hx1), if_neg (hne y hy1)] at hxy
        exact absurd hxy (h2 y hy1).ne'
      · rw [List.mem_singleton.mp hx1, List.mem_singleton.mp hy1]
    · intro x hx
      rw [hc]
      simp only
      by_cases hxl : x = l.length
      · rw [if_pos hxl]; omega
      · rw [if_neg hxl]
        have := h2 x (by simpa [hxl] using hx)
        omega
    · intro x hx
      rw [List.length_append, List.length_singleton]
      rcases List.mem_append.mp hx with hx | hx
      · have := h3 x hx; omega
      · rw [List.mem_singleton.mp hx]; omega
    · rw [hc]
      simp only [List.map_append, List.map_cons, List.map_nil, hv, h4, if_true]
      congr 1
      exact List.map_congr_left fun x hx => (if_neg (hne x hx)).symm
  induction h with
  | nil => exact ⟨fun _ => 0, by simp, by simp, by simp, by simp [Heap.run, Heap.initial]⟩
  | ofValue v i r _ ih => exact fresh _ (fun id => .ofValue v i r id) (fun _ => rfl) (by rw [run_concat]; rfl) ih
  | ofExpr e i r _ ih => exact fresh _ (fun id => .ofExpr e i r id) (fun _ => rfl) (by rw [run_concat]; rfl) ih
  | @copy l o k hk _ ih =>
    obtain ⟨f, h1, h2, h3, h4⟩ := ih
    have hlen : (Heap.run l).vars.length = o.length := by simpa using congrArg List.length h4
    have hmem : ∀ x ∈ o ++ [o[k]], x ∈ o := fun x hx => by
      rcases List.mem_append.mp hx with hx | hx
      · exact hx
      · rw [List.mem_singleton.mp hx]; exact List.getElem_mem hk
    have hrun : Heap.run (l ++ [.copy k]) = ⟨(Heap.run l).vars ++ [(Heap.run l).vars[k]'(by omega)], (Heap.run l).counter⟩ := by
      rw [run_concat]
      simp only [Heap.step]
      rw [List.getElem?_eq_getElem (show k < (Heap.run l).vars.length by omega)]
    have hid : ((Heap.run l).vars[k]'(by omega)).id = f o[k] := by
      have := congrArg (fun l => l[k]?) h4
      simpa [List.getElem?_eq_getElem, hk, hlen] using this
    refine ⟨f, fun x _ y _ hx hy hxy => h1 x (h3 x (hmem x hx)) y (h3 y (hmem y hy)) (hmem x hx) (hmem y hy) hxy, fun x hx => ?_,
      fun x hx => ?_, ?_⟩
    · rw [hrun]; exact h2 x (hmem x hx)
    · have := h3 x (hmem x hx); rw [List.length_append]; omega
    · rw [hrun]; simp [h4, hid]
  | @copyNone l o k hk _ ih =>
    obtain ⟨f, h1, h2, h3, h4⟩ := ih
    have hlen : (Heap.run l).vars.length = o.length := by simpa using congrArg List.length h4
    have hrun : Heap.run (l ++ [.copy k]) = Heap.run l := by
      rw [run_concat]; simp only [Heap.step]; rw [List.getElem?_eq_none (by omega)]
    exact ⟨f, fun x _ y _ hx hy hxy => h1 x (h3 x hx) y (h3 y hy) hx hy hxy, by rw [hrun]; exact h2,
      fun x hx => by have := h3 x hx; rw [List.length_append]; omega, by rw [hrun]; exact h4⟩
  | @assign l o k j a b hk hj ha hb ht hr _ ih =>
    obtain ⟨f, h1, h2, h3, h4⟩ := ih
    have hlen : (Heap.run l).vars.length = o.length := by simpa using congrArg List.length h4
    have hmem : ∀ x ∈ o.set k o[j], x ∈ o := fun x hx => by
      rcases List.mem_or_eq_of_mem_set hx with hx | hx
      · exact hx
      · rw [hx]; exact List.getElem_mem hj
    obtain ⟨a', ha', hid⟩ : ∃ a', a.assign b = some a' ∧ a'.id = b.id := by simp [Variable.assign, ht, hr]
    have hrun : Heap.run (l ++ [.assign k j]) = ⟨(Heap.run l).vars.set k a', (Heap.run l).counter⟩ := by
      rw [run_concat]; simp only [Heap.step]; rw [ha, hb]; simp only [ha']
    have hb' : b.id = f o[j] := by
      have := congrArg (fun l => l[j]?) h4
      simpa [hb, hj] using this
    refine ⟨f, fun x _ y _ hx hy hxy => h1 x (h3 x (hmem x hx)) y (h3 y (hmem y hy)) (hmem x hx) (hmem y hy) hxy, fun x hx => ?_,
      fun x hx => ?_, ?_⟩
    · rw [hrun]; exact h2 x (hmem x hx)
    · have := h3 x (hmem x hx); rw [List.length_append]; omega
    · rw [hrun]; simp [List.map_set, h4, hid, hb']
  | @assignThrows l o k j a b ha hb ht _ ih =>
    obtain ⟨f, h1, h2, h3, h4⟩ := ih
    have hrun : Heap.run (l ++ [.assign k j]) = Heap.run l := by
      rw [run_concat]
      simp only [Heap.step, ha, hb]
      have : a.assign b = none := by
        rcases ht with ht | ht <;> simp [Variable.assign, ht]
      rw [this]
    exact ⟨f, fun x _ y _ hx hy hxy => h1 x (h3 x hx) y (h3 y hy) hx hy hxy, by rw [hrun]; exact h2,
      fun x hx => by have := h3 x hx; rw [List.length_append]; omega, by rw [hrun]; exact h4⟩
  | @assignNone l o k j hkj _ ih =>
    obtain ⟨f, h1, h2, h3, h4⟩ := ih
    have hlen : (Heap.run l).vars.length = o.length := by simpa using congrArg List.length h4
    have hrun : Heap.run (l ++ [.assign k j]) = Heap.run l := by
      rw [run_concat]
      simp only [Heap.step]
      rcases hkj with h | h
      · rw [List.getElem?_eq_none (l := (Heap.run l).vars) (i := k) (by omega)]
      · rw [List.getElem?_eq_none (l := (Heap.run l).vars) (i := j) (by omega)]
        cases (Heap.run l).vars[k]? <;> rfl
    exact ⟨f, fun x _ y _ hx hy hxy => h1 x (h3 x hx) y (h3 y hy) hx hy hxy, by rw [hrun]; exact h2,
      fun x hx => by have := h3 x hx; rw [List.length_append]; omega, by rw [hrun]; exact h4⟩

/-- **C51** Whatever a program does with variables: each variable has an origin, the call of a constructor from a value or an
expression, which copies and targets of assignments take over. Two variables have the same id if and only if they have the same
origin. -/
theorem C51_variable_ids (l : List (Call F W)) :
    ∃ o, Origins l o ∧ o.length = (Heap.run l).vars.length ∧
      ∀ (i j : ℕ) (a b : Variable F W), (Heap.run l).vars[i]? = some a → (Heap.run l).vars[j]? = some b → (a.id = b.id ↔ o[i]? = o[j]?) := by
  have hex : ∃ o, Origins l o := by
    induction l using List.reverseRecOn with
    | nil => exact ⟨[], .nil⟩
    | append_singleton l c ih =>
      obtain ⟨o, ho⟩ := ih
      obtain ⟨f, _, _, _, h4⟩ := origins_inv ho
      have hlen : (Heap.run l).vars.length = o.length := by simpa using congrArg List.length h4
      cases c with
      | ofValue v i r => exact ⟨_, .ofValue v i r ho⟩
      | ofExpr e i r => exact ⟨_, .ofExpr e i r ho⟩
      | copy k =>
        by_cases hk : k < o.length
        · exact ⟨_, .copy k hk ho⟩
        · exact ⟨_, .copyNone k (by omega) ho⟩
      | assign k j =>
        by_cases hk : k < o.length
        · by_cases hj : j < o.length
          · have ha := List.getElem?_eq_getElem (show k < (Heap.run l).vars.length by omega)
            have hb := List.getElem?_eq_getElem (show j < (Heap.run l).vars.length by omega)
            by_cases ht : ((Heap.run l).vars[k]'(by omega)).ty = ((Heap.run l).vars[j]'(by omega)).ty
            · cases hr : ((Heap.run l).vars[k]'(by omega)).readOnly with
              | false => exact ⟨_, .assign k j _ _ hk hj ha hb ht hr ho⟩
              | true => exact ⟨_, .assignThrows k j _ _ ha hb (Or.inr hr) ho⟩
            · exact ⟨_, .assignThrows k j _ _ ha hb (Or.inl ht) ho⟩
          · exact ⟨_, .assignNone k j (Or.inr (by omega)) ho⟩
        · exact ⟨_, .assignNone k j (Or.inl (by omega)) ho⟩
  obtain ⟨o, ho⟩ := hex
  obtain ⟨f, h1, _, h3, h4⟩ := origins_inv ho
  have hlen : (Heap.run l).vars.length = o.length := by simpa using congrArg List.length h4
  refine ⟨o, ho, hlen.symm, fun i j a b ha hb => ?_⟩
  have hi : i < o.length := by rw [← hlen]; exact (List.getElem?_eq_some_iff.mp ha).1
  have hj : j < o.length := by rw [← hlen]; exact (List.getElem?_eq_some_iff.mp hb).1
  have hia : a.id = f o[i] := by have := congrArg (fun l => l[i]?) h4; simpa [ha, hi] using this
  have hjb : b.id = f o[j] := by have := congrArg (fun l => l[j]?) h4; simpa [hb, hj] using this
  rw [hia, hjb, List.getElem?_eq_getElem hi, List.getElem?_eq_getElem hj, Option.some.injEq]
  constructor
  · exact fun h => h1 _ (h3 _ (List.getElem_mem hi)) _ (h3 _ (List.getElem_mem hj)) (List.getElem_mem hi) (List.getElem_mem hj) h
  · exact fun h => by rw [h]

/-- A new variable has an id no variable has. -/
theorem C51_new_variable (l : List (Call F W)) (c : Call F W) (hc : (∃ v i r, c = .ofValue v i r) ∨ ∃ e i r, c = .ofExpr e i r) :
    ∃ v, (Heap.run (l ++ [c])).vars = (Heap.run l).vars ++ [v] ∧ ∀ w ∈ (Heap.run l).vars, w.id ≠ v.id := by
  obtain ⟨o, ho, _⟩ := C51_variable_ids l
  obtain ⟨f, _, h2, _, h4⟩ := origins_inv ho
  have hlt : ∀ w ∈ (Heap.run l).vars, w.id < (Heap.run l).counter := by
    intro w hw
    have : w.id ∈ o.map f := h4 ▸ List.mem_map_of_mem hw
    obtain ⟨x, hx, hxw⟩ := List.mem_map.mp this
    rw [← hxw]; exact h2 x hx
  rw [run_concat]
  rcases hc with ⟨v, i, r, rfl⟩ | ⟨e, i, r, rfl⟩
  · exact ⟨_, rfl, fun w hw => (hlt w hw).ne⟩
  · exact ⟨_, rfl, fun w hw => (hlt w hw).ne⟩

/-- Three variables, the first copied, the second assigned to the third. -/
example : ((Heap.run ([.ofValue (.int 1) true false, .ofValue (.int 2) true false, .ofValue (.int 3) true false, .copy 0,
    .assign 2 1] : List (Call ℚ ℕ))).vars.map Variable.id) = [0, 1, 1, 0] := by decide

/-- **C51** All blocks ever created have different ids. -/
theorem C51_block_ids (k : ℕ) : (createBlocks k).1.length = k ∧ (createBlocks k).1.Nodup := by
  have h : ∀ k, (createBlocks k).1.length = k ∧ (createBlocks k).1.Nodup ∧ (∀ x ∈ (createBlocks k).1, x < (createBlocks k).2) := by
    intro k
    induction k with
    | zero => exact ⟨rfl, List.nodup_nil, by simp [createBlocks]⟩
    | succ k ih =>
      obtain ⟨h1, h2, h3⟩ := ih
      refine ⟨by simp [createBlocks, unique, h1], ?_, ?_⟩
      · simp only [createBlocks, unique, List.nodup_append, List.nodup_singleton, true_and, h2]
        intro a ha b hb
        rw [List.mem_singleton.mp hb]
        exact (h3 a ha).ne
      · intro x hx
        simp only [createBlocks, unique, List.mem_append, List.mem_singleton] at hx ⊢
        rcases hx with hx | hx
        · have := h3 x hx; omega
        · omega
  exact ⟨(h k).1, (h k).2.1⟩

end

/-- Rounding to `double`: the relative error is at most 2^-53. (Overflow and underflow do not occur here.) -/
def DoubleRounding (fl : ℚ → ℚ) : Prop := ∀ x, |fl x - x| ≤ |x| / 2 ^ 53

private theorem fl_bounds {fl : ℚ → ℚ} (h : DoubleRounding fl) {x : ℚ} (hx : 0 ≤ x) :
    x * (1 - 1 / 2 ^ 53) ≤ fl x ∧ fl x ≤ x * (1 + 1 / 2 ^ 53) := by
  have := h x
  rw [abs_of_nonneg hx, abs_le] at this
  constructor <;> linarith [this.1, this.2]

private theorem fl_nonneg {fl : ℚ → ℚ} (h : DoubleRounding fl) {x : ℚ} (hx : 0 ≤ x) : 0 ≤ fl x :=
  le_trans (mul_nonneg hx (by norm_num)) (fl_bounds h hx).1

/-- **C52** If the second call of `rand` returns at most RAND_MAX-2 (the first may return anything), `drand()` lies in [0,1) and
`irand(n)` in 0..n-1. For any rounding, and any RAND_MAX up to 2^31 (the C standard asks for at least 32767).
Missing for the full property: RAND_MAX-1 and RAND_MAX, see `C52_violated`. -/
theorem C52_random_partial (fl : ℚ → ℚ) (h : DoubleRounding fl) (M r1 r2 : ℕ) (hM : M ≤ 2 ^ 31) (h1 : r1 ≤ M) (h2 : r2 + 2 ≤ M)
    (n : ℤ) (hn : 0 < n) :
    0 ≤ drand fl M r1 r2 ∧ drand fl M r1 r2 < 1 ∧ 0 ≤ irand fl M r1 r2 n ∧ irand fl M r1 r2 n ≤ n - 1 := by
  have hMpos : (0 : ℚ) < M := by exact_mod_cast (show 0 < M by omega)
  have hM' : (M : ℚ) ≤ 2 ^ 31 := by exact_mod_cast hM
  have h1' : (r1 : ℚ) ≤ M := by exact_mod_cast h1
  have h2' : (r2 : ℚ) + 2 ≤ M := by exact_mod_cast h2
  have hr1 : (0 : ℚ) ≤ r1 := by positivity
  have hr2 : (0 : ℚ) ≤ r2 := by positivity
  have hn' : (0 : ℚ) < n := by exact_mod_cast hn
  -- the product
  obtain ⟨_, hP⟩ := fl_bounds h (show (0 : ℚ) ≤ M * r2 by positivity)
  have hP0 := fl_nonneg h (show (0 : ℚ) ≤ M * r2 by positivity)
  set P := fl ((M : ℚ) * r2)
  obtain ⟨_, hS⟩ := fl_bounds h (show (0 : ℚ) ≤ r1 + P by positivity)
  have hS0 := fl_nonneg h (show (0 : ℚ) ≤ r1 + P by positivity)
  obtain ⟨hQ, _⟩ := fl_bounds h (show (0 : ℚ) ≤ M * M by positivity)
  have hsum : r1 + P ≤ (M * M - M) * (1 + 1 / 2 ^ 53) := by
    have : (M : ℚ) * r2 ≤ M * (M - 2) := by
      apply mul_le_mul_of_nonneg_left _ hMpos.le; linarith
    nlinarith
  have hMM : (M : ℚ) * M - M ≤ M * M * (1 - 1 / 2 ^ 31) := by
    have : (M : ℚ) * M ≤ M * 2 ^ 31 := mul_le_mul_of_nonneg_left hM' hMpos.le
    linarith
  have hSQ : fl (r1 + P) ≤ M * M * ((1 - 1 / 2 ^ 31) * (1 + 1 / 2 ^ 53) * (1 + 1 / 2 ^ 53)) := by
    refine hS.trans ?_
    have h3 : r1 + P ≤ M * M * (1 - 1 / 2 ^ 31) * (1 + 1 / 2 ^ 53) :=
      hsum.trans (mul_le_mul_of_nonneg_right hMM (by norm_num))
    calc (r1 + P) * (1 + 1 / 2 ^ 53) ≤ M * M * (1 - 1 / 2 ^ 31) * (1 + 1 / 2 ^ 53) * (1 + 1 / 2 ^ 53) :=
          mul_le_mul_of_nonneg_right h3 (by norm_num)
      _ = _ := by ring
  have hMM0 : (0 : ℚ) < M * M := by positivity
  have hQ0 : (0 : ℚ) < fl (M * M) := lt_of_lt_of_le (mul_pos hMM0 (by norm_num)) hQ
  have hratio : fl (r1 + P) / fl (M * M) ≤ 1 - 1 / 2 ^ 32 := by
    rw [div_le_iff₀ hQ0]
    calc fl (r1 + P) ≤ M * M * ((1 - 1 / 2 ^ 31) * (1 + 1 / 2 ^ 53) * (1 + 1 / 2 ^ 53)) := hSQ
      _ ≤ M * M * ((1 - 1 / 2 ^ 32) * (1 - 1 / 2 ^ 53)) := by
          apply mul_le_mul_of_nonneg_left _ hMM0.le
          norm_num
      _ = (1 - 1 / 2 ^ 32) * (M * M * (1 - 1 / 2 ^ 53)) := by ring
      _ ≤ _ := mul_le_mul_of_nonneg_left hQ (by norm_num)
  have hratio0 : 0 ≤ fl (r1 + P) / fl (M * M) := div_nonneg hS0 hQ0.le
  have hd0 : 0 ≤ drand fl M r1 r2 := fl_nonneg h hratio0
  have hd : drand fl M r1 r2 ≤ (1 - 1 / 2 ^ 32) * (1 + 1 / 2 ^ 53) :=
    ((fl_bounds h hratio0).2).trans (mul_le_mul_of_nonneg_right hratio (by norm_num))
  have hx0 : 0 ≤ drand fl M r1 r2 * n := mul_nonneg hd0 hn'.le
  have hx : fl (drand fl M r1 r2 * n) < n := by
    calc fl (drand fl M r1 r2 * n) ≤ drand fl M r1 r2 * n * (1 + 1 / 2 ^ 53) := (fl_bounds h hx0).2
      _ = n * (drand fl M r1 r2 * (1 + 1 / 2 ^ 53)) := by ring
      _ ≤ n * ((1 - 1 / 2 ^ 32) * (1 + 1 / 2 ^ 53) * (1 + 1 / 2 ^ 53)) :=
          mul_le_mul_of_nonneg_left (mul_le_mul_of_nonneg_right hd (by norm_num)) hn'.le
      _ < n * 1 := by
          apply mul_lt_mul_of_pos_left _ hn'
          norm_num
      _ = n := mul_one _
  refine ⟨hd0, lt_of_le_of_lt hd (by norm_num), ?_, ?_⟩
  · rw [irand]
    rw [if_pos (fl_nonneg h hx0)]
    exact Int.floor_nonneg.mpr (fl_nonneg h hx0)
  · rw [irand]
    rw [if_pos (fl_nonneg h hx0)]
    have := Int.floor_lt.mpr hx
    omega

/-- Exact arithmetic is a rounding; values of `rand` as required. -/
example : DoubleRounding id ∧ (32767 ≤ 2 ^ 31 ∧ 12345 ≤ 32767 ∧ 30000 + 2 ≤ 32767) ∧ irand id 32767 12345 30000 6 = 5 := by
  refine ⟨fun x => ?_, by norm_num, by decide +kernel⟩
  simp only [id, sub_self, abs_zero]
  positivity

/-- **C52** violated: if both calls of `rand` return RAND_MAX, `drand()` is larger than 1 and `irand(n)` is not less than `n`,
whatever the rounding, RAND_MAX and `n`. -/
theorem C52_violated (fl : ℚ → ℚ) (h : DoubleRounding fl) (M : ℕ) (hM : M ≤ 2 ^ 31) (hM0 : 0 < M) (n : ℤ) (hn : 0 < n) :
    1 < drand fl M M M ∧ n ≤ irand fl M M M n := by
  have hMpos : (0 : ℚ) < M := by exact_mod_cast hM0
  have hM' : (M : ℚ) ≤ 2 ^ 31 := by exact_mod_cast hM
  have hn' : (0 : ℚ) < n := by exact_mod_cast hn
  have hMM0 : (0 : ℚ) < M * M := by positivity
  obtain ⟨hQ1, hQ2⟩ := fl_bounds h hMM0.le
  have hQ0 : (0 : ℚ) < fl (M * M) := lt_of_lt_of_le (mul_pos hMM0 (by norm_num)) hQ1
  set Q := fl ((M : ℚ) * M) with hQdef
  obtain ⟨hS, _⟩ := fl_bounds h (show (0 : ℚ) ≤ M + Q by positivity)
  have hQM : Q ≤ M * 2 ^ 32 := by
    have : (M : ℚ) * M ≤ M * 2 ^ 31 := mul_le_mul_of_nonneg_left hM' hMpos.le
    calc Q ≤ M * M * (1 + 1 / 2 ^ 53) := hQ2
      _ ≤ M * 2 ^ 31 * (1 + 1 / 2 ^ 53) := mul_le_mul_of_nonneg_right this (by norm_num)
      _ ≤ M * 2 ^ 31 * 2 := mul_le_mul_of_nonneg_left (by norm_num) (by positivity)
      _ = _ := by ring
  have hratio : (1 + 1 / 2 ^ 32) * (1 - 1 / 2 ^ 53) ≤ fl (M + Q) / Q := by
    rw [le_div_iff₀ hQ0]
    refine le_trans ?_ hS
    have : Q * (1 + 1 / 2 ^ 32) ≤ M + Q := by linarith
    calc (1 + 1 / 2 ^ 32) * (1 - 1 / 2 ^ 53) * Q = Q * (1 + 1 / 2 ^ 32) * (1 - 1 / 2 ^ 53) := by ring
      _ ≤ _ := mul_le_mul_of_nonneg_right this (by norm_num)
  have hratio0 : 0 ≤ fl (M + Q) / Q := le_trans (by norm_num) hratio
  have hd : (1 + 1 / 2 ^ 32) * (1 - 1 / 2 ^ 53) * (1 - 1 / 2 ^ 53) ≤ drand fl M M M :=
    (mul_le_mul_of_nonneg_right hratio (by norm_num)).trans (fl_bounds h hratio0).1
  have hd1 : 1 < drand fl M M M := lt_of_lt_of_le (by norm_num) hd
  have hx0 : 0 ≤ drand fl M M M * n := by positivity
  have hx : n ≤ fl (drand fl M M M * n) := by
    refine le_trans ?_ (fl_bounds h hx0).1
    calc (n : ℚ) = n * 1 := (mul_one _).symm
      _ ≤ n * ((1 + 1 / 2 ^ 32) * (1 - 1 / 2 ^ 53) * (1 - 1 / 2 ^ 53) * (1 - 1 / 2 ^ 53)) :=
          mul_le_mul_of_nonneg_left (by norm_num) hn'.le
      _ ≤ n * (drand fl M M M * (1 - 1 / 2 ^ 53)) :=
          mul_le_mul_of_nonneg_left (mul_le_mul_of_nonneg_right hd (by norm_num)) hn'.le
      _ = _ := by ring
  refine ⟨hd1, ?_⟩
  rw [irand]
  rw [if_pos (fl_nonneg h hx0)]
  exact Int.le_floor.mpr hx

end Schnek.Props
