import Verif.Lemma.LemonCert

/-!
# What the tables of the parser say, in terms of the grammar
-/

namespace Schnek.Lemma.Lemon

open Schnek.Lemon Schnek.Spec
open Scanner (Kind)

theorem lhsC_eq (r : Fin 48) : lhsC r = ntCode (lhs r) := by
  have h : (r : ℕ) < rules.length := by rw [rules_length]; exact r.isLt
  unfold lhsC lhs
  rw [List.getElem?_eq_getElem h]
  rfl

theorem rhsC_eq (r : Fin 48) : rhsC r = (rhs r).map symCode := by
  have h : (r : ℕ) < rules.length := by rw [rules_length]; exact r.isLt
  unfold rhsC rhs
  rw [List.getElem?_eq_getElem h]
  rfl

theorem symCode_injective : Function.Injective symCode := by
  intro a b h
  cases a with
  | t k => cases b with
    | t k' => cases k <;> cases k' <;> first | rfl | (revert h; decide)
    | n N => cases k <;> cases N <;> (revert h; decide)
    | error => cases k <;> (revert h; decide)
  | n N => cases b with
    | t k' => cases k' <;> cases N <;> (revert h; decide)
    | n N' => cases N <;> cases N' <;> first | rfl | (revert h; decide)
    | error => cases N <;> (revert h; decide)
  | error => cases b with
    | t k' => cases k' <;> (revert h; decide)
    | n N => cases N <;> (revert h; decide)
    | error => rfl

theorem code_pos (k : Kind) : 0 < k.code := by cases k <;> decide

theorem code_lt (k : Kind) : k.code < 22 := by cases k <;> decide

theorem ntCode_ge (N : NT) : 23 ≤ ntCode N := by cases N <;> decide

theorem ntCode_lt (N : NT) : ntCode N < 40 := by cases N <;> decide

theorem has_core {s r p a : ℕ} (h : has s r p a = true) : core s r p = true := by
  unfold has at h
  unfold core
  rw [List.any_eq_true] at h ⊢
  obtain ⟨i, hi, h⟩ := h
  refine ⟨i, hi, ?_⟩
  simp only [Bool.and_eq_true] at h ⊢
  exact h.1

theorem core_lt {s r p : ℕ} (h : core s r p = true) : s < nState := by
  by_contra hs
  have : items.getD s [] = [] := by
    have hl : items.length = 74 := by decide +kernel
    rw [List.getD_eq_getElem?_getD, List.getElem?_eq_none (by rw [hl]; exact not_lt.mp hs)]
    rfl
  unfold core at h
  rw [this] at h
  cases h

theorem item_ok {s : ℕ} {i : Item} (hs : s < nState) (hi : i ∈ items.getD s []) : itemOk s i = true := by
  have h := complete_true
  unfold complete at h
  rw [List.all_eq_true] at h
  have := h s (List.mem_range.mpr hs)
  rw [List.all_eq_true] at this
  exact this i hi

theorem has_item {s r p a : ℕ} (h : has s r p a = true) :
    ∃ i ∈ items.getD s [], i.rule = r ∧ i.pos = p ∧ a ∈ i.la := by
  unfold has at h
  rw [List.any_eq_true] at h
  obtain ⟨i, hi, h⟩ := h
  simp only [Bool.and_eq_true, beq_iff_eq, List.contains_iff_mem] at h
  exact ⟨i, hi, h.1.1, h.1.2, h.2⟩

theorem core_item {s r p : ℕ} (h : core s r p = true) : ∃ i ∈ items.getD s [], i.rule = r ∧ i.pos = p := by
  unfold core at h
  rw [List.any_eq_true] at h
  obtain ⟨i, hi, h⟩ := h
  simp only [Bool.and_eq_true, beq_iff_eq] at h
  exact ⟨i, hi, h.1, h.2⟩

/-- at the end of a rule the parser reduces -/
theorem reduce_at_end {s r a : ℕ} (h : has s r (rhsC r).length a = true) : findShift s a = nState + r := by
  obtain ⟨i, hi, rfl, hp, ha⟩ := has_item h
  have := item_ok (core_lt (has_core h)) hi
  unfold itemOk at this
  rw [hp, List.getElem?_eq_none (le_refl _)] at this
  simp only [List.all_eq_true, beq_iff_eq] at this
  exact this a ha

/-- before a symbol the parser has a transition -/
theorem goto_next {s r p a X : ℕ} (h : has s r p a = true) (hX : (rhsC r)[p]? = some X) (hne : X ≠ 22) :
    goto s X < nState ∧ has (goto s X) r (p + 1) a = true := by
  obtain ⟨i, hi, rfl, rfl, ha⟩ := has_item h
  have := item_ok (core_lt (has_core h)) hi
  unfold itemOk at this
  rw [hX] at this
  simp only [Bool.or_eq_true, beq_iff_eq, Bool.and_eq_true, decide_eq_true_eq, List.all_eq_true, hne, false_or] at this
  exact ⟨this.1.1, this.1.2 a ha⟩

/-- before a nonterminal the state has the items of its rules -/
theorem closure {s r p a r2 b : ℕ} (h : has s r p a = true) (hX : (rhsC r)[p]? = some (lhsC r2)) (hr : r2 < 48)
    (hge : 23 ≤ lhsC r2) (hb : match (rhsC r)[p + 1]? with
      | none => b = a
      | some Y => b ∈ first Y) : has s r2 0 b = true := by
  obtain ⟨i, hi, rfl, rfl, ha⟩ := has_item h
  have := item_ok (core_lt (has_core h)) hi
  unfold itemOk at this
  rw [hX] at this
  have hne : lhsC r2 ≠ 22 := by omega
  simp only [Bool.or_eq_true, beq_iff_eq, Bool.and_eq_true, decide_eq_true_eq, hne, false_or] at this
  rcases this.2 with h2 | h2
  · omega
  · rw [List.all_eq_true] at h2
    have h3 := h2 r2 (List.mem_range.mpr hr)
    simp only [bne_self_eq_false, Bool.false_or, List.all_eq_true] at h3
    apply h3
    revert hb
    cases (rhsC i.rule)[i.pos + 1]? with
    | none => intro hb; rw [hb]; exact ha
    | some Y => intro hb; exact hb

theorem first_rule {r : ℕ} (hr : r < 48) {a : ℕ} (ha : a ∈ first ((rhsC r).headD 0)) : a ∈ first (lhsC r) := by
  have h := firstOk_true
  unfold firstOk at h
  rw [List.all_eq_true] at h
  have := h r (List.mem_range.mpr hr)
  rw [List.all_eq_true] at this
  have := this a ha
  rwa [List.contains_iff_mem] at this

theorem ruleInfo (r : ℕ) (hr : r < 48) : yyRuleInfo[r]? = some (lhsC r, (rhsC r).length) := by
  have h := infoOk_true
  unfold infoOk at h
  rw [beq_iff_eq] at h
  rw [h, List.getElem?_map, List.getElem?_range hr]
  rfl

theorem weight_rule {r : ℕ} (hr : r < 48) : weight (lhsC r) < ((rhsC r).map weight).sum := by
  have h := weightOk_true
  unfold weightOk at h
  rw [List.all_eq_true] at h
  have := h r (List.mem_range.mpr hr)
  rwa [decide_eq_true_eq] at this

theorem sound_at {s : ℕ} (hs : live s = true) :
    (∀ X < 40, X ≠ 22 → gotoOk s X = true) ∧ (∀ a < 22, reduceOk s a = true) ∧ (∀ r < 48, startOk s r = true) := by
  have h := sound_true
  unfold sound at h
  rw [List.all_eq_true] at h
  have hlt : s < nState := by
    unfold live at hs
    simp only [Bool.and_eq_true, decide_eq_true_eq] at hs
    exact hs.1.1
  have := h s (List.mem_range.mpr hlt)
  simp only [hs, Bool.not_true, Bool.false_or, Bool.and_eq_true, List.all_eq_true, List.mem_range, Bool.or_eq_true,
    beq_iff_eq] at this
  refine ⟨fun X hX hne => ?_, this.1.2, this.2⟩
  rcases this.1.1 X hX with h | h
  · exact absurd h hne
  · exact h

/-- a transition leads to a state that is entered, is not the first one, and all its items come from this one -/
theorem goto_back {s X : ℕ} (hs : live s = true) (hX : X < 40) (hne : X ≠ 22) (h : goto s X < nState) :
    live (goto s X) = true ∧ goto s X ≠ 0 ∧
      ∀ r p, core (goto s X) r (p + 1) = true → (rhsC r)[p]? = some X ∧ core s r p = true := by
  have := (sound_at hs).1 X hX hne
  unfold gotoOk at this
  simp only [Bool.or_eq_true, decide_eq_true_eq, Bool.and_eq_true, bne_iff_ne, List.all_eq_true, beq_iff_eq] at this
  rcases this with h1 | ⟨⟨h1, h2⟩, h3⟩
  · omega
  · refine ⟨h1, h2, fun r p hc => ?_⟩
    obtain ⟨i, hi, rfl, hp⟩ := core_item hc
    rcases h3 i hi with h4 | h4
    · omega
    · rw [hp] at h4
      exact h4

/-- what the parser does at a token -/
theorem shift_cases {s a : ℕ} (hs : live s = true) (ha : a < 22) :
    (findShift s a < nState ∧ a ≠ 0) ∨
      (∃ r < 48, findShift s a = nState + r ∧ core s r (rhsC r).length = true ∧ (r = 0 → a = 0)) ∨
      findShift s a = errorAction := by
  have := (sound_at hs).2.1 a ha
  unfold reduceOk at this
  by_cases h1 : findShift s a < nState
  · simp only [h1, if_true, bne_iff_ne] at this
    exact .inl ⟨h1, this⟩
  · by_cases h2 : findShift s a < nState + nRule
    · simp only [h1, h2, if_true, if_false, Bool.and_eq_true, Bool.or_eq_true, bne_iff_ne, beq_iff_eq] at this
      refine .inr (.inl ⟨findShift s a - nState, ?_, ?_, this.1, ?_⟩)
      · unfold nRule at h2; omega
      · omega
      · intro h3
        rcases this.2 with h4 | h4
        · omega
        · exact h4
    · simp only [h1, h2, if_false, beq_iff_eq] at this
      exact .inr (.inr this)

/-- after a reduction -/
theorem start_cases {s r : ℕ} (hs : live s = true) (hr : r < 48) (h : core s r 0 = true) :
    if r = 0 then s = 0 ∧ findReduce s (lhsC r) = acceptAction else findReduce s (lhsC r) < nState := by
  have := (sound_at hs).2.2 r hr
  unfold startOk at this
  rw [h] at this
  by_cases h0 : r = 0
  · rw [if_pos h0]
    rw [if_pos h0] at this
    simpa using this
  · rw [if_neg h0]
    rw [if_neg h0] at this
    simpa using this

theorem rhs_ne_nil (r : Fin 48) : rhs r ≠ [] := by
  revert r
  decide +kernel

theorem live_zero : live 0 = true := by decide

theorem has_start : has 0 0 0 0 = true := by decide +kernel

theorem accept_zero : findReduce 0 (lhsC 0) = acceptAction := by decide +kernel

end Schnek.Lemma.Lemon
