import Verif.Lemma.LemonForest

/-!
# What is on the stack of the parser can be continued to a setup file
-/

namespace Schnek.Lemma.Lemon

open Schnek.Lemon Schnek.Spec
open Scanner (Kind)

variable {V S : Type}

/-- a derivation for every nonterminal -/
def sample (v : V) : NT → Forest V
  | .value => .node 42 (.tok .integer v .nil) .nil
  | .atomic => .node 37 (.node 42 (.tok .integer v .nil) .nil) .nil
  | .signedAtomic => .node 33 (.node 37 (.node 42 (.tok .integer v .nil) .nil) .nil) .nil
  | .power => .node 30 (.node 37 (.node 42 (.tok .integer v .nil) .nil) .nil) .nil
  | .term => .node 28 (.node 30 (.node 37 (.node 42 (.tok .integer v .nil) .nil) .nil) .nil) .nil
  | .signedTerm => .node 25 (.node 28 (.node 30 (.node 37 (.node 42 (.tok .integer v .nil) .nil) .nil) .nil) .nil) .nil
  | .unsignedExpr => .node 22 (.node 28 (.node 30 (.node 37 (.node 42 (.tok .integer v .nil) .nil) .nil) .nil) .nil) .nil
  | .expression => .node 19 (.node 25 (.node 28 (.node 30 (.node 37 (.node 42 (.tok .integer v .nil) .nil) .nil) .nil) .nil) .nil) .nil
  | .exprList => .node 39 (.node 19 (.node 25 (.node 28 (.node 30 (.node 37 (.node 42 (.tok .integer v .nil) .nil) .nil) .nil) .nil)
      .nil) .nil) .nil
  | .assignment => .node 16 (.tok .identifier v (.tok .equal v (.node 19 (.node 25 (.node 28 (.node 30 (.node 37 (.node 42
      (.tok .integer v .nil) .nil) .nil) .nil) .nil) .nil) .nil))) .nil
  | .declaration => .node 13 (.tok .identifier v .nil) .nil
  | .decllist => .node 12 (.node 13 (.tok .identifier v .nil) .nil) .nil
  | .startblock => .node 10 (.tok .identifier v (.tok .lbrace v .nil)) .nil
  | .typedecl => .node 45 (.tok .intDecl v .nil) .nil
  | .statement => .node 7 (.tok .rbrace v .nil) .nil
  | .statementlist => .node 2 (.node 7 (.tok .rbrace v .nil) .nil) .nil
  | .deck => .node 0 (.node 2 (.node 7 (.tok .rbrace v .nil) .nil) .nil) .nil

theorem sample_ok (v : V) (N : NT) : (sample v N).Valid ∧ (sample v N).syms = [.n N] := by
  cases N <;> exact ⟨by simp only [sample, Forest.Valid, Forest.syms, and_true]; decide, rfl⟩

/-- a derivation for every sequence of symbols -/
theorem samples (v : V) (l : List Sym) (h : Sym.error ∉ l) : ∃ C : Forest V, C.Valid ∧ C.syms = l := by
  induction l with
  | nil => exact ⟨.nil, trivial, rfl⟩
  | cons X l ih =>
    obtain ⟨C, h1, h2⟩ := ih fun hm => h (List.mem_cons_of_mem _ hm)
    cases X with
    | t k => exact ⟨.tok k v C, h1, by rw [Forest.syms, h2]⟩
    | n N =>
      refine ⟨append (sample v N) C, (valid_append _ _).mpr ⟨(sample_ok v N).1, h1⟩, ?_⟩
      rw [syms_append, (sample_ok v N).2, h2]
      rfl
    | error => exact absurd (List.mem_cons_self ..) h

theorem viable_at {s : ℕ} (hs : live s = true) :
    (∃ i : Item, (items.getD s [])[0]? = some i ∧ i.rule ≠ 8 ∧ i.rule ≠ 15) ∧
      ∀ (n : ℕ) (i : Item), (items.getD s [])[n]? = some i → i.pos = 0 → i.rule ≠ 0 →
        ∃ (m : ℕ) (j : Item), m < n ∧ (items.getD s [])[m]? = some j ∧ (rhsC j.rule)[j.pos]? = some (lhsC i.rule) := by
  have h := viable_true
  unfold viable at h
  rw [List.all_eq_true] at h
  have hlt : s < nState := by
    have := hs
    unfold live at this
    simp only [Bool.and_eq_true, decide_eq_true_eq] at this
    exact this.1.1
  have h1 := h s (List.mem_range.mpr hlt)
  rw [hs] at h1
  simp only [Bool.not_true, Bool.false_or, Bool.and_eq_true] at h1
  obtain ⟨h2, h3⟩ := h1
  constructor
  · revert h2
    cases (items.getD s [])[0]? with
    | none => intro h2; cases h2
    | some i =>
      intro h2
      simp only [Bool.and_eq_true, bne_iff_ne] at h2
      exact ⟨i, rfl, h2⟩
  · intro n i hn hp hr
    rw [List.all_eq_true] at h3
    have hn' : n < (items.getD s []).length := (List.getElem?_eq_some_iff.mp hn).1
    have h4 := h3 n (List.mem_range.mpr hn')
    unfold parentOk at h4
    rw [hn] at h4
    simp only [Bool.or_eq_true, bne_iff_ne, beq_iff_eq, hp, hr, List.any_eq_true, List.mem_range, ne_eq, not_true_eq_false, false_or] at h4
    obtain ⟨m, hm, h5⟩ := h4
    revert h5
    cases hj : (items.getD s [])[m]? with
    | none => intro h5; cases h5
    | some j =>
      intro h5
      exact ⟨m, j, hm, hj, by simpa using h5⟩

theorem item_rule_lt {s n : ℕ} {i : Item} (h : (items.getD s [])[n]? = some i) : i.rule < 48 := by
  have hall : items.all (fun l => l.all fun i => decide (i.rule < 48)) = true := by decide +kernel
  rw [List.all_eq_true] at hall
  have hi : i ∈ items.getD s [] := List.mem_of_getElem? h
  by_cases hs : s < items.length
  · have : items.getD s [] = items[s] := by
      rw [List.getD_eq_getElem?_getD, List.getElem?_eq_getElem hs]
      rfl
    rw [this] at hi
    have := hall _ (List.getElem_mem hs)
    rw [List.all_eq_true] at this
    have := this i hi
    rwa [decide_eq_true_eq] at this
  · have : items.getD s [] = [] := by
      rw [List.getD_eq_getElem?_getD, List.getElem?_eq_none (not_lt.mp hs)]
      rfl
    rw [this] at hi
    cases hi

theorem no_error {r : Fin 48} {N : NT} (h : Sym.n N ∈ rhs r) : Sym.error ∉ rhs r := by
  revert r
  have : ∀ r : Fin 48, (rhs r).any (fun X => match X with | .n _ => true | _ => false) = true → Sym.error ∉ rhs r := by decide +kernel
  intro r h
  apply this r
  rw [List.any_eq_true]
  exact ⟨_, h, rfl⟩

theorem no_error' {r : Fin 48} (h8 : (r : ℕ) ≠ 8) (h15 : (r : ℕ) ≠ 15) : Sym.error ∉ rhs r := by
  revert r
  decide +kernel

theorem item_core {s n : ℕ} {i : Item} (h : (items.getD s [])[n]? = some i) : core s i.rule i.pos = true := by
  unfold core
  rw [List.any_eq_true]
  exact ⟨i, List.mem_of_getElem? h, by simp⟩

theorem core_index {s r p : ℕ} (h : core s r p = true) : ∃ (n : ℕ) (i : Item), (items.getD s [])[n]? = some i ∧ i.rule = r ∧ i.pos = p := by
  obtain ⟨i, hi, h1, h2⟩ := core_item h
  obtain ⟨n, hn⟩ := List.mem_iff_getElem?.mp hi
  exact ⟨n, i, hn, h1, h2⟩

/-- What is on the stack, followed by the rest of a rule, can be continued. -/
theorem viable_item (v : V) (N : ℕ) : ∀ (n : ℕ) (e : Entry V) (l es : List (Entry V)) (b : Entry V) (i : Item) (G C : Forest V),
    es ++ [b] = e :: l → es.length ≤ N → Linked (e :: l) → (items.getD e.state [])[n]? = some i → G.Valid →
    G.syms.map symCode = es.reverse.map Entry.major → C.Valid → C.syms.map symCode = (rhsC i.rule).drop i.pos →
    ∃ post, Grammatical (G.yield ++ C.yield ++ post) := by
  induction N using Nat.strong_induction_on with
  | _ N ihN =>
    intro n
    induction n using Nat.strong_induction_on with
    | _ n ihn =>
      intro e l es b i G C hel hN hlink hi hG hGs hC hCs
      have hr := item_rule_lt hi
      obtain ⟨es1, e', l', g1, g2, g3, g4, g5⟩ := linked_trace hlink (item_core hi)
      obtain ⟨es2, hl', hes⟩ : ∃ es2, e' :: l' = es2 ++ [b] ∧ es = es1 ++ es2 := by
        have h1 : es ++ [b] = es1 ++ e' :: l' := hel.trans g1
        rcases List.eq_nil_or_concat (e' :: l') with h2 | ⟨es2, b', h2⟩
        · cases h2
        · rw [List.concat_eq_append] at h2
          rw [h2, ← List.append_assoc] at h1
          have h3 := List.append_inj' h1 rfl
          refine ⟨es2, ?_, h3.1⟩
          rw [h2, h3.2]
      let r' : Fin 48 := ⟨i.rule, hr⟩
      have hrhs : rhsC i.rule = (rhs r').map symCode := rhsC_eq r'
      have hlhs : lhsC i.rule = ntCode (lhs r') := lhsC_eq r'
      obtain ⟨A, B, hG', hA, hB⟩ : ∃ A B, G = append A B ∧ A.syms.map symCode = es2.reverse.map Entry.major ∧
          B.syms.map symCode = (rhsC i.rule).take i.pos := by
        have h1 := hGs
        rw [hes, List.reverse_append, List.map_append, g3] at h1
        obtain ⟨x, y, hxy, hx, hy⟩ := List.map_eq_append_iff.mp h1
        obtain ⟨A, B, g6, g7, g8⟩ := split G hxy
        exact ⟨A, B, g6, by rw [g7, hx], by rw [g8, hy]⟩
      have hv : A.Valid ∧ B.Valid := by rw [← valid_append, ← hG']; exact hG
      have hBC : (append B C).syms = rhs r' := by
        apply map_symCode
        rw [syms_append, List.map_append, hB, hCs, List.take_append_drop, hrhs]
      let M : Forest V := .node r' (append B C) .nil
      have hMv : M.Valid := ⟨hBC, (valid_append _ _).mpr ⟨hv.2, hC⟩, trivial⟩
      have hMy : M.yield = B.yield ++ C.yield := by
        show (append B C).yield ++ [] = _
        rw [yield_append, List.append_nil]
      have hlive := (linked_live g5).1
      by_cases h0 : i.rule = 0
      · -- the whole deck
        have hst := start_cases hlive hr g4
        rw [if_pos h0] at hst
        have hl0 := (linked_live g5).2 hst.1
        rw [hl0] at hl'
        have hes2 : es2 = [] := by
          have := congrArg List.length hl'
          simp only [List.length_append, List.length_singleton] at this
          exact List.length_eq_zero_iff.mp (by omega)
        have hAn : A = .nil := by
          rw [hes2] at hA
          cases A with
          | nil => rfl
          | tok _ _ _ => cases hA
          | node _ _ _ => cases hA
        refine ⟨[], M, hMv, ?_, ?_⟩
        · apply map_symCode
          show [ntCode (lhs r')] = _
          rw [← hlhs, h0]
          rfl
        · rw [hMy, hG', hAn, List.append_nil]
          rfl
      · -- the rule is part of another one
        obtain ⟨n', i', hi', hir, hip, hnn⟩ : ∃ (n' : ℕ) (i' : Item), (items.getD e'.state [])[n']? = some i' ∧ i'.rule = i.rule ∧
            i'.pos = 0 ∧ (i.pos = 0 → n' = n) := by
          by_cases hp : i.pos = 0
          · have hes1 : es1 = [] := List.length_eq_zero_iff.mp (by rw [g2, hp])
            rw [hes1] at g1
            simp only [List.nil_append, List.cons.injEq] at g1
            rw [← g1.1]
            exact ⟨n, i, hi, rfl, hp, fun _ => rfl⟩
          · obtain ⟨n', i', h1, h2, h3⟩ := core_index g4
            exact ⟨n', i', h1, h2, h3, fun h => absurd h hp⟩
        obtain ⟨m, j, hm, hj, hjX⟩ := (viable_at hlive).2 n' i' hi' hip (by rw [hir]; exact h0)
        rw [hir, hlhs] at hjX
        have hjr := item_rule_lt hj
        let rj : Fin 48 := ⟨j.rule, hjr⟩
        have hjrhs : rhsC j.rule = (rhs rj).map symCode := rhsC_eq rj
        have hsym : (rhs rj)[j.pos]? = some (.n (lhs r')) := by
          rw [hjrhs, List.getElem?_map] at hjX
          cases hX : (rhs rj)[j.pos]? with
          | none => rw [hX] at hjX; cases hjX
          | some X =>
            rw [hX] at hjX
            have : symCode X = symCode (.n (lhs r')) := by simpa [symCode] using hjX
            rw [symCode_injective this]
        obtain ⟨hjlt, hjget⟩ := List.getElem?_eq_some_iff.mp hsym
        have hne : Sym.error ∉ rhs rj := no_error (List.mem_of_getElem? hsym)
        obtain ⟨E, hE, hEs⟩ := samples v ((rhs rj).drop (j.pos + 1)) fun hmem => hne (List.mem_of_mem_drop hmem)
        have hC' : (append M E).Valid := (valid_append _ _).mpr ⟨hMv, hE⟩
        have hCs' : (append M E).syms.map symCode = (rhsC j.rule).drop j.pos := by
          rw [syms_append, hEs, hjrhs, ← List.map_drop, List.drop_eq_getElem_cons hjlt, hjget]
          rfl
        have key : ∃ post, Grammatical (A.yield ++ (append M E).yield ++ post) := by
          by_cases hp : i.pos = 0
          · refine ihn m (by rw [← hnn hp]; exact hm) e' l' es2 b j A (append M E) hl'.symm ?_ g5 hj hv.1 hA hC' hCs'
            have : es.length = es1.length + es2.length := by rw [hes, List.length_append]
            omega
          · refine ihN es2.length ?_ m e' l' es2 b j A (append M E) hl'.symm (le_refl _) g5 hj hv.1 hA hC' hCs'
            have : es.length = es1.length + es2.length := by rw [hes, List.length_append]
            omega
        obtain ⟨post, hpost⟩ := key
        refine ⟨E.yield ++ post, ?_⟩
        rw [hG', yield_append]
        rw [yield_append, hMy] at hpost
        simpa [List.append_assoc] using hpost

/-- What is on the stack can be continued. -/
theorem viable_stack (v : V) {es : List (Entry V)} {b : Entry V} (h : Linked (es ++ [b])) {G : Forest V} (hG : G.Valid)
    (hGs : G.syms.map symCode = es.reverse.map Entry.major) : ∃ post, Grammatical (G.yield ++ post) := by
  obtain ⟨e, l, hel⟩ : ∃ e l, es ++ [b] = e :: l := by
    cases es with
    | nil => exact ⟨_, _, rfl⟩
    | cons e l => exact ⟨_, _, rfl⟩
  rw [hel] at h
  obtain ⟨⟨i, hi, h8, h15⟩, -⟩ := viable_at (linked_live h).1
  have hr := item_rule_lt hi
  let r' : Fin 48 := ⟨i.rule, hr⟩
  have hrhs : rhsC i.rule = (rhs r').map symCode := rhsC_eq r'
  have hne : Sym.error ∉ rhs r' := no_error' h8 h15
  obtain ⟨C, hC, hCs⟩ := samples v ((rhs r').drop i.pos) fun hmem => hne (List.mem_of_mem_drop hmem)
  obtain ⟨post, hpost⟩ := viable_item v es.length 0 e l es b i G C hel (le_refl _) h hi hG hGs hC
    (by rw [hCs, hrhs, List.map_drop])
  exact ⟨C.yield ++ post, by rw [← List.append_assoc]; exact hpost⟩

end Schnek.Lemma.Lemon
