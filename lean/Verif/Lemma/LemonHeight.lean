import Verif.Lemma.LemonExamples

/-!
# Short statements fit on the stack of the parser
-/

namespace Schnek.Lemma.Lemon

open Schnek.Lemon Schnek.Spec
open Scanner (Kind)

variable {V S : Type}

theorem ShortStatements.infix {n : ℕ} {a l c : List Kind} (h : ShortStatements n (a ++ l ++ c)) : ShortStatements n l := by
  intro x run y hl hr
  exact h (a ++ x) run (y ++ c) (by rw [hl]; simp) hr

theorem yield_last (G : Forest V) (hv : G.Valid) {xs : List Sym} {k : Kind} (hs : G.syms = xs ++ [.t k])
    (hx : ∀ X ∈ xs, inner X = true) : ∃ x v, G.yield = x ++ [(k, v)] ∧ NoEnd x := by
  obtain ⟨A, B, h1, h2, h3⟩ := split G hs
  have hAB : A.Valid ∧ B.Valid := by rw [← valid_append, ← h1]; exact hv
  have hA := noEnd_yield A hAB.1 (by rw [h2]; exact hx)
  cases B with
  | nil => cases h3
  | tok k' v B =>
    simp only [Forest.syms, List.cons.injEq, Sym.t.injEq] at h3
    cases B with
    | nil => exact ⟨A.yield, v, by rw [h1, yield_append, h3.1]; rfl, hA⟩
    | tok _ _ _ => cases h3.2
    | node _ _ _ => cases h3.2
  | node r kids B => cases h3

/-- only the last token of a statement ends one -/
theorem statement_yield {r : Fin 48} {kids : Forest V} (hr : lhs r = .statement) (hs : kids.syms = rhs r) (hv : kids.Valid) :
    ∃ x t, kids.yield = x ++ [t] ∧ NoEnd x := by
  have hcase : (∃ xs k, rhs r = xs ++ [.t k] ∧ ∀ X ∈ xs, inner X = true) ∨ rhs r = [.n .startblock] ∨ rhs r = [.error] := by
    have : ∀ r : Fin 48, lhs r = .statement →
        (((rhs r).getLast? = some (.t .semicolon) ∨ (rhs r).getLast? = some (.t .rbrace)) ∧ ∀ X ∈ (rhs r).dropLast, inner X = true) ∨
        rhs r = [.n .startblock] ∨ rhs r = [.error] := by
      decide +kernel
    rcases this r hr with ⟨hk, hx⟩ | h
    · obtain ⟨k, hk⟩ : ∃ k, (rhs r).getLast? = some (.t k) := by
        rcases hk with hk | hk
        · exact ⟨_, hk⟩
        · exact ⟨_, hk⟩
      refine .inl ⟨_, k, ?_, hx⟩
      obtain ⟨ys, hys⟩ := List.getLast?_eq_some_iff.1 hk
      rw [hys]
      simp
    · exact .inr h
  rcases hcase with ⟨xs, k, h1, h2⟩ | h | h
  · rw [h1] at hs
    obtain ⟨x, v, h3, h4⟩ := yield_last kids hv hs h2
    exact ⟨x, _, h3, h4⟩
  · rw [h] at hs
    cases kids with
    | nil => cases hs
    | tok k v B => cases hs
    | node r2 k2 B =>
      simp only [Forest.syms, List.cons.injEq, Sym.n.injEq] at hs
      cases B with
      | tok _ _ _ => cases hs.2
      | node _ _ _ => cases hs.2
      | nil =>
        have : ∀ r : Fin 48, lhs r = .startblock → (rhs r).getLast? = some (.t .lbrace) ∧ ∀ X ∈ (rhs r).dropLast, inner X = true := by
          decide +kernel
        obtain ⟨hk, hx⟩ := this r2 hs.1
        obtain ⟨ys, hys⟩ := List.getLast?_eq_some_iff.1 hk
        rw [hys, List.dropLast_concat] at hx
        obtain ⟨x, v, h3, h4⟩ := yield_last k2 hv.2.1 (by rw [hv.1, hys]) hx
        exact ⟨x, (.lbrace, v), by simp [Forest.yield, h3], h4⟩
  · rw [h] at hs
    cases kids <;> cases hs

theorem list_height {n : ℕ} (F : Forest V) : ∀ (r : Fin 48) (kids B : Forest V), F = .node r kids B → F.Valid →
    lhs r = .statementlist → ShortStatements n (kids.yield.map Prod.fst) → ∀ h, kids.height h ≤ h + n + 1 := by
  have hst : ∀ (r : Fin 48) (kids : Forest V), lhs r = .statement → kids.syms = rhs r → kids.Valid →
      ShortStatements n (kids.yield.map Prod.fst) → ∀ h, kids.height h ≤ h + n := by
    intro r kids h1 h2 h3 h4 h
    obtain ⟨x, t, h5, h6⟩ := statement_yield h1 h2 h3
    have := h4 [] (x.map Prod.fst) [t.1] (by rw [h5]; simp) (by
      intro k hk
      obtain ⟨t, ht, rfl⟩ := List.mem_map.1 hk
      exact h6 t ht)
    rw [List.length_map] at this
    have hh := height_le kids h h3
    rw [h5] at hh
    simp only [List.length_append, List.length_singleton] at hh
    omega
  induction F with
  | nil => intro r kids B h; cases h
  | tok k v F _ => intro r kids B h; cases h
  | node r kids B ihk _ =>
    intro r' kids' B' heq hv hl hshort h
    cases heq
    have hn : 0 < n := hshort [] [] _ rfl (by intro k hk; cases hk)
    have hr : ∀ r : Fin 48, lhs r = .statementlist → rhs r = [.n .statementlist, .n .statement] ∨ rhs r = [.n .statement] := by
      decide +kernel
    obtain ⟨hv1, hv2, -⟩ := hv
    rcases hr r hl with h1 | h1
    · rw [h1] at hv1
      cases kids with
      | nil => cases hv1
      | tok k v B => cases hv1
      | node r1 k1 B =>
        simp only [Forest.syms, List.cons.injEq, Sym.n.injEq] at hv1
        obtain ⟨hv1, hv1'⟩ := hv1
        cases B with
        | nil => cases hv1'
        | tok k v B => cases hv1'
        | node r2 k2 B =>
          simp only [Forest.syms, List.cons.injEq, Sym.n.injEq] at hv1'
          cases B with
          | tok _ _ _ => cases hv1'.2
          | node _ _ _ => cases hv1'.2
          | nil =>
            simp only [Forest.yield, List.append_nil, List.map_append] at hshort
            have g1 := ihk r1 k1 _ rfl hv2 hv1 (ShortStatements.infix (a := []) hshort) h
            have g2 := hst r2 k2 hv1'.1 hv2.2.2.1 hv2.2.2.2.1 (ShortStatements.infix (c := []) (by simpa using hshort)) (h + 1)
            simp only [Forest.height]
            exact max_le g1 (max_le (by omega) (by omega))
    · rw [h1] at hv1
      cases kids with
      | nil => cases hv1
      | tok k v B => cases hv1
      | node r2 k2 B =>
        simp only [Forest.syms, List.cons.injEq, Sym.n.injEq] at hv1
        cases B with
        | tok _ _ _ => cases hv1.2
        | node _ _ _ => cases hv1.2
        | nil =>
          simp only [Forest.yield, List.append_nil] at hshort
          simp only [Forest.height]
          have := hst r2 k2 hv1.1 hv2.1 hv2.2.1 hshort h
          exact max_le (by omega) (by omega)

/-- A file of short statements can be parsed with a small stack. -/
theorem short_height {n : ℕ} {F : Forest V} {tokens : List (Kind × V)} (hF : F.Derives [.n .deck] tokens)
    (hs : ShortStatements n (tokens.map Prod.fst)) : F.height 1 ≤ n + 2 := by
  obtain ⟨hv, hr, hy⟩ := hF
  have hn : 0 < n := hs [] [] _ rfl (by intro k hk; cases hk)
  cases F with
  | nil => cases hr
  | tok k v B => cases hr
  | node r kids B =>
    simp only [Forest.syms, List.cons.injEq, Sym.n.injEq] at hr
    cases B with
    | tok _ _ _ => cases hr.2
    | node _ _ _ => cases hr.2
    | nil =>
      have hr0 : ∀ r : Fin 48, lhs r = .deck → rhs r = [.n .statementlist] := by decide +kernel
      obtain ⟨hv1, hv2, -⟩ := hv
      rw [hr0 r hr.1] at hv1
      simp only [Forest.yield, List.append_nil] at hy
      simp only [Forest.height]
      refine max_le ?_ (by omega)
      cases kids with
      | nil => cases hv1
      | tok k v B => cases hv1
      | node r1 k1 B =>
        simp only [Forest.syms, List.cons.injEq, Sym.n.injEq] at hv1
        cases B with
        | tok _ _ _ => cases hv1.2
        | node _ _ _ => cases hv1.2
        | nil =>
          simp only [Forest.yield, List.append_nil] at hy
          have := list_height (n := n) _ r1 k1 .nil rfl hv2 hv1.1 (by rw [hy]; exact hs) 1
          simp only [Forest.height]
          exact max_le (by omega) (by omega)

/-- Statements that end with a token that ends statements are as short as they are. -/
theorem short_of_parts {n : ℕ} (hn : 0 < n) (parts : List (List Kind))
    (h : ∀ p ∈ parts, p.length ≤ n ∧ ∃ x k, p = x ++ [k] ∧ endsStatement k = true) : ShortStatements n parts.flatten := by
  induction parts with
  | nil =>
    intro a run c h _
    have h' := congrArg List.length h
    simp only [List.flatten_nil, List.length_nil, List.length_append] at h'
    omega
  | cons p parts ih =>
    intro a run c heq hr
    have ih := ih fun p hp => h p (by simp [hp])
    obtain ⟨hl, x, k, rfl, hk⟩ := h p (by simp)
    rw [List.flatten_cons] at heq
    simp only [List.length_append, List.length_singleton] at hl
    by_cases h1 : (x ++ [k]).length ≤ a.length
    · have h2 := congrArg (List.drop (x ++ [k]).length) heq
      rw [List.drop_left, List.append_assoc, List.drop_append_of_le_length h1] at h2
      exact ih _ run c (by rw [h2, List.append_assoc]) hr
    · by_contra h2
      have h3 : (a ++ run ++ c)[x.length]? = some k := by
        rw [← heq]
        simp
      simp only [List.length_append, List.length_singleton] at h1
      rw [List.append_assoc, List.getElem?_append_right (by omega), List.getElem?_append_left (by omega)] at h3
      have := hr k (List.mem_of_getElem? h3)
      rw [hk] at this
      cases this

end Schnek.Lemma.Lemon
