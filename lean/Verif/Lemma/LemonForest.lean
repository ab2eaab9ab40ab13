import Verif.Lemma.LemonComplete

/-!
# Sequences of derivation trees, and the stack of the parser
-/

namespace Schnek.Lemma.Lemon

open Schnek.Lemon Schnek.Spec
open Scanner (Kind)

variable {V S : Type}

/-! ## forests -/

/-- one after the other -/
def append : Forest V → Forest V → Forest V
  | .nil, B => B
  | .tok k v A, B => .tok k v (append A B)
  | .node r kids A, B => .node r kids (append A B)

theorem syms_append (A B : Forest V) : (append A B).syms = A.syms ++ B.syms := by
  induction A with
  | nil => rfl
  | tok k v A ih => simp only [append, Forest.syms, ih, List.cons_append]
  | node r kids A _ ih => simp only [append, Forest.syms, ih, List.cons_append]

theorem yield_append (A B : Forest V) : (append A B).yield = A.yield ++ B.yield := by
  induction A with
  | nil => rfl
  | tok k v A ih => simp only [append, Forest.yield, ih, List.cons_append]
  | node r kids A _ ih => simp only [append, Forest.yield, ih, List.append_assoc]

theorem valid_append (A B : Forest V) : (append A B).Valid ↔ A.Valid ∧ B.Valid := by
  induction A with
  | nil => simp only [append, Forest.Valid, true_and]
  | tok k v A ih => simp only [append, Forest.Valid, ih]
  | node r kids A _ ih => simp only [append, Forest.Valid, ih, and_assoc]

theorem height_append (A B : Forest V) (h : ℕ) : (append A B).height h = max (A.height h) (B.height (h + A.syms.length)) := by
  induction A generalizing h with
  | nil => exact (max_eq_right (le_height B h)).symm
  | tok k v A ih =>
    simp only [append, Forest.height, Forest.syms, ih, List.length_cons]
    rw [show h + 1 + A.syms.length = h + (A.syms.length + 1) by omega]
  | node r kids A _ ih =>
    simp only [append, Forest.height, Forest.syms, ih, List.length_cons, max_assoc]
    rw [show h + 1 + A.syms.length = h + (A.syms.length + 1) by omega]

theorem eval_append (act : Actions V S) (A B : Forest V) (s : S) :
    (append A B).eval act s = match A.eval act s with
      | (none, s') => (none, s')
      | (some vs, s') => match B.eval act s' with
        | (none, s'') => (none, s'')
        | (some ws, s'') => (some (vs ++ ws), s'') := by
  induction A generalizing s with
  | nil =>
    simp only [append, Forest.eval, List.nil_append]
    rcases B.eval act s with ⟨_ | ws, s'⟩ <;> rfl
  | tok k v A ih =>
    simp only [append, Forest.eval, ih]
    rcases A.eval act s with ⟨_ | vs, s'⟩
    · rfl
    · simp only
      rcases B.eval act s' with ⟨_ | ws, s''⟩ <;> rfl
  | node r kids A _ ih =>
    simp only [append, Forest.eval, ih]
    rcases kids.eval act s with ⟨_ | us, s1⟩
    · rfl
    · simp only
      rcases act r us s1 with ⟨_ | v, s2⟩
      · rfl
      · simp only
        rcases A.eval act s2 with ⟨_ | vs, s'⟩
        · rfl
        · simp only
          rcases B.eval act s' with ⟨_ | ws, s''⟩ <;> rfl

theorem eval_length (act : Actions V S) (A : Forest V) {s s' : S} {vs : List V} (h : A.eval act s = (some vs, s')) :
    vs.length = A.syms.length := by
  induction A generalizing s s' vs with
  | nil =>
    simp only [Forest.eval, Prod.mk.injEq, Option.some.injEq] at h
    rw [← h.1]
    rfl
  | tok k v A ih =>
    simp only [Forest.eval] at h
    revert h
    rcases hA : A.eval act s with ⟨_ | ws, s1⟩
    · intro h; cases h
    · intro h
      simp only [Prod.mk.injEq, Option.some.injEq] at h
      rw [← h.1, List.length_cons, ih hA]
      rfl
  | node r kids A _ ih =>
    simp only [Forest.eval] at h
    revert h
    rcases kids.eval act s with ⟨_ | us, s1⟩
    · intro h; cases h
    · simp only
      rcases act r us s1 with ⟨_ | v, s2⟩
      · intro h; cases h
      · simp only
        rcases hA : A.eval act s2 with ⟨_ | ws, s3⟩
        · intro h; cases h
        · intro h
          simp only [Prod.mk.injEq, Option.some.injEq] at h
          rw [← h.1, List.length_cons, ih hA]
          rfl

theorem split (G : Forest V) {a b : List Sym} (h : G.syms = a ++ b) : ∃ A B, G = append A B ∧ A.syms = a ∧ B.syms = b := by
  induction G generalizing a with
  | nil =>
    have : a = [] ∧ b = [] := by simpa [Forest.syms] using h
    exact ⟨.nil, .nil, rfl, this.1.symm, this.2.symm⟩
  | tok k v G ih =>
    cases a with
    | nil => exact ⟨.nil, .tok k v G, rfl, rfl, h⟩
    | cons X a =>
      simp only [Forest.syms, List.cons_append, List.cons.injEq] at h
      obtain ⟨A, B, h1, h2, h3⟩ := ih h.2
      exact ⟨.tok k v A, B, by rw [h1]; rfl, by rw [Forest.syms, h.1, h2], h3⟩
  | node r kids G _ ih =>
    cases a with
    | nil => exact ⟨.nil, .node r kids G, rfl, rfl, h⟩
    | cons X a =>
      simp only [Forest.syms, List.cons_append, List.cons.injEq] at h
      obtain ⟨A, B, h1, h2, h3⟩ := ih h.2
      exact ⟨.node r kids A, B, by rw [h1]; rfl, by rw [Forest.syms, h.1, h2], h3⟩

theorem syms_le_yield (G : Forest V) (h : G.Valid) : G.syms.length ≤ G.yield.length := by
  induction G with
  | nil => exact le_refl _
  | tok k v G ih =>
    simp only [Forest.syms, Forest.yield, List.length_cons]
    exact Nat.succ_le_succ (ih h)
  | node r kids G ihk ih =>
    obtain ⟨h1, h2, h3⟩ := h
    have := ihk h2
    have := ih h3
    have h4 : 0 < kids.syms.length := by
      rw [h1]
      exact List.length_pos_iff.mpr (rhs_ne_nil r)
    simp only [Forest.syms, Forest.yield, List.length_cons, List.length_append]
    omega

/-! ## stacks -/

/-- The states on the stack follow from each other. -/
def Linked : List (Entry V) → Prop
  | [] => False
  | e :: l => match l with
    | [] => e.state = 0
    | e' :: _ => e.state = goto e'.state e.major ∧ e.state < nState ∧ e.major < 40 ∧ e.major ≠ 22 ∧ Linked l

theorem linked_live {e : Entry V} {l : List (Entry V)} (h : Linked (e :: l)) : live e.state = true ∧ (e.state = 0 → l = []) := by
  induction l generalizing e with
  | nil =>
    have h0 : e.state = 0 := h
    rw [h0]
    exact ⟨live_zero, fun _ => rfl⟩
  | cons e' l ih =>
    obtain ⟨h1, h2, h3, h4, h5⟩ := h
    have hl := (ih h5).1
    have := goto_back hl h3 h4 (by rw [← h1]; exact h2)
    rw [← h1] at this
    exact ⟨this.1, fun h0 => absurd h0 this.2.1⟩

theorem core_zero (r p : ℕ) : core 0 r (p + 1) = false := by
  have : (items.getD 0 []).all (fun i => i.pos == 0) = true := by decide +kernel
  rw [List.all_eq_true] at this
  by_contra h
  rw [Bool.not_eq_false] at h
  obtain ⟨i, hi, -, hp⟩ := core_item h
  have := this i hi
  rw [beq_iff_eq] at this
  omega

/-- An item at the top of the stack has been entered from below. -/
theorem linked_trace {e : Entry V} {l : List (Entry V)} (h : Linked (e :: l)) {r p : ℕ} (hc : core e.state r p = true) :
    ∃ es e' l', e :: l = es ++ e' :: l' ∧ es.length = p ∧ es.reverse.map Entry.major = (rhsC r).take p ∧ core e'.state r 0 = true ∧
      Linked (e' :: l') := by
  induction p generalizing e l with
  | zero => exact ⟨[], e, l, rfl, rfl, rfl, hc, h⟩
  | succ p ih =>
    cases l with
    | nil =>
      have h0 : e.state = 0 := h
      rw [h0, core_zero] at hc
      cases hc
    | cons e1 l =>
      obtain ⟨h1, h2, h3, h4, h5⟩ := h
      have hl := (linked_live h5).1
      have hb := (goto_back hl h3 h4 (by rw [← h1]; exact h2)).2.2 r p (by rw [← h1]; exact hc)
      obtain ⟨es, e', l', g1, g2, g3, g4, g5⟩ := ih h5 hb.2
      refine ⟨e :: es, e', l', by rw [g1]; rfl, by rw [List.length_cons, g2], ?_, g4, g5⟩
      rw [List.reverse_cons, List.map_append, g3, List.take_add_one, hb.1]
      rfl

theorem map_symCode {a b : List Sym} (h : a.map symCode = b.map symCode) : a = b :=
  List.map_injective_iff.mpr symCode_injective h

theorem linked_goto {e : Entry V} {l : List (Entry V)} (h : Linked (e :: l)) {X : ℕ} (hX : X < 40) (hne : X ≠ 22)
    (hg : goto e.state X < nState) (v : V) : Linked (⟨goto e.state X, X, v⟩ :: e :: l) :=
  ⟨rfl, hg, hX, hne, h⟩

end Schnek.Lemma.Lemon
