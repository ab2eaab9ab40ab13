import Verif.Lemma.LemonViable

/-!
# What is on the stack of the parser since the last statement
-/

namespace Schnek.Lemma.Lemon

open Schnek.Lemon Schnek.Spec
open Scanner (Kind)

variable {V S : Type}

/-- symbols that generate nothing that ends a statement -/
def inner : Sym → Bool
  | .t k => !endsStatement k
  | .n .deck | .n .statementlist | .n .statement | .n .startblock => false
  | _ => true

theorem inner_rule (r : Fin 48) : inner (.n (lhs r)) = true → ∀ X ∈ rhs r, inner X = true := by
  revert r
  decide +kernel

/-- no token ends a statement -/
def NoEnd (l : List (Kind × V)) : Prop := ∀ t ∈ l, endsStatement t.1 = false

theorem NoEnd.append {a b : List (Kind × V)} (ha : NoEnd a) (hb : NoEnd b) : NoEnd (a ++ b) := by
  intro t ht
  rcases List.mem_append.1 ht with h | h
  · exact ha t h
  · exact hb t h

theorem noEnd_yield (G : Forest V) (hv : G.Valid) (h : ∀ X ∈ G.syms, inner X = true) : NoEnd G.yield := by
  induction G with
  | nil => intro t ht; cases ht
  | tok k v G ih =>
    intro t ht
    rcases List.mem_cons.1 ht with rfl | ht
    · have := h (.t k) (by simp [Forest.syms])
      simpa [inner] using this
    · exact ih hv (fun X hX => h X (by simp [Forest.syms, hX])) t ht
  | node r kids G ihk ih =>
    refine NoEnd.append (ihk hv.2.1 ?_) (ih hv.2.2 fun X hX => h X (by simp [Forest.syms, hX]))
    rw [hv.1]
    exact inner_rule r (h _ (by simp [Forest.syms]))

/-- nothing can follow the other symbols, except for the list of statements, which is the first symbol -/
def innerOk : Bool := (List.range nState).all fun s => !live s || (List.range 40).all fun X => X == 22 || decide (nState ≤ goto s X) ||
  (([0, 6, 9, 11, 23, 25, 29].contains X == false || (List.range 40).all fun Y => decide (nState ≤ goto (goto s X) Y)) &&
    (X != 24 || s == 0))

theorem innerOk_true : innerOk = true := by decide +kernel

theorem inner_or {X : Sym} (hX : X ≠ .error) (h : inner X = false) : symCode X = 24 ∨ symCode X ∈ [0, 6, 9, 11, 23, 25, 29] := by
  cases X with
  | t k => cases k <;> revert h <;> decide
  | n N => cases N <;> revert h <;> decide
  | error => exact absurd rfl hX

theorem linked_inner_one {x e e' : Entry V} {l : List (Entry V)} (h : Linked (x :: e :: e' :: l)) :
    e.major ∉ [0, 6, 9, 11, 23, 25, 29] ∧ (e.major = 24 → l = []) ∧ e.major ≠ 22 := by
  obtain ⟨h1, h2, h3, h4, h5⟩ := h
  obtain ⟨g1, g2, g3, g4, g5⟩ := h5
  have hl := linked_live g5
  have h0 := innerOk_true
  unfold innerOk at h0
  rw [List.all_eq_true] at h0
  have hs : e'.state < nState := by
    have := hl.1
    unfold live at this
    simp only [Bool.and_eq_true, decide_eq_true_eq] at this
    exact this.1.1
  have := h0 e'.state (List.mem_range.2 hs)
  rw [hl.1] at this
  simp only [Bool.not_true, Bool.false_or, List.all_eq_true] at this
  have := this e.major (List.mem_range.2 g3)
  rw [← g1] at this
  simp only [Bool.or_eq_true, beq_iff_eq, decide_eq_true_eq, Bool.and_eq_true, bne_iff_ne, List.all_eq_true] at this
  rcases this with (h6 | h6) | ⟨h6, h7⟩
  · exact absurd h6 g4
  · omega
  · refine ⟨fun hm => ?_, fun hm => ?_, g4⟩
    · rcases h6 with h6 | h6
      · rw [List.contains_iff_mem.2 hm] at h6
        cases h6
      · have := h6 x.major (List.mem_range.2 h3)
        rw [← h1] at this
        omega
    · rcases h7 with h7 | h7
      · exact absurd hm h7
      · exact hl.2 h7

theorem linked_inner {es : List (Entry V)} {x b : Entry V} (h : Linked (x :: (es ++ [b]))) :
    ∀ e ∈ es.dropLast, e.major ≠ 24 ∧ e.major ∉ [0, 6, 9, 11, 23, 25, 29] ∧ e.major ≠ 22 := by
  induction es generalizing x with
  | nil => intro e he; cases he
  | cons e es ih =>
    cases es with
    | nil => intro e he; cases he
    | cons e1 es =>
      have h1 := linked_inner_one (l := es ++ [b]) h
      intro e2 he
      rw [List.dropLast_cons_of_ne_nil (by simp)] at he
      rcases List.mem_cons.1 he with rfl | he
      · exact ⟨fun h2 => by have := h1.2.1 h2; simp at this, h1.1, h1.2.2⟩
      · exact ih h.2.2.2.2 e2 he

/-- more tokens without the end of a statement than there is room for on a stack of `D` entries -/
def Long (D : ℕ) (l : List (Kind × V)) : Prop :=
  D ≤ l.length ∧ ∃ a run c, l = a ++ run ++ c ∧ NoEnd run ∧ D ≤ run.length + 2

theorem Long.append {D : ℕ} {l : List (Kind × V)} (h : Long D l) (l' : List (Kind × V)) : Long D (l ++ l') := by
  obtain ⟨h1, a, run, c, h2, h3, h4⟩ := h
  exact ⟨by rw [List.length_append]; omega, a, run, c ++ l', by rw [h2]; simp, h3, h4⟩

theorem Long.not_short {D : ℕ} {l l' : List (Kind × V)} (h : Long (D + 2) l) : ¬ ShortStatements D ((l ++ l').map Prod.fst) := by
  obtain ⟨h1, a, run, c, h2, h3, h4⟩ := h
  intro hs
  have := hs (a.map Prod.fst) (run.map Prod.fst) ((c ++ l').map Prod.fst) (by rw [h2]; simp) (by
    intro k hk
    obtain ⟨t, ht, rfl⟩ := List.mem_map.1 hk
    exact h3 t ht)
  rw [List.length_map] at this
  omega

/-- All symbols on the stack, except for the first one, generate tokens of the statement that is being read. -/
theorem stack_inner {es : List (Entry V)} {x b : Entry V} (h : Linked (x :: (es ++ [b]))) {G : Forest V} (hG : G.Valid)
    (hs : G.syms.map symCode = es.reverse.map Entry.major) :
    ∃ a run, G.yield = a ++ run ∧ NoEnd run ∧ es.length ≤ run.length + 1 := by
  have hin := linked_inner h
  have hlen : es.length = G.syms.length := by
    have := congrArg List.length hs
    simpa using this.symm
  have htl : ∀ X ∈ G.syms.tail, inner X = true := by
    intro X hX
    by_contra hn
    rw [Bool.not_eq_true] at hn
    have hm : symCode X ∈ es.dropLast.map Entry.major := by
      have h1 : symCode X ∈ (G.syms.map symCode).tail := by
        rw [← List.map_tail]
        exact List.mem_map_of_mem hX
      rw [hs, ← List.map_tail, List.tail_reverse] at h1
      simpa using h1
    obtain ⟨e, he, hX'⟩ := List.mem_map.1 hm
    obtain ⟨h1, h2, h3⟩ := hin e he
    rw [hX'] at h1 h2 h3
    have hne : X ≠ .error := by
      rintro rfl
      exact h3 rfl
    rcases inner_or hne hn with h4 | h4
    · exact h1 h4
    · exact h2 h4
  cases hsy : G.syms with
  | nil =>
    rw [hsy] at hlen
    exact ⟨G.yield, [], (List.append_nil _).symm, (by intro t ht; cases ht), by rw [hlen]; simp⟩
  | cons Y l =>
    obtain ⟨A, B, h1, h2, h3⟩ := split G (a := [Y]) (b := l) hsy
    rw [hsy] at htl
    have hv : A.Valid ∧ B.Valid := by rw [← valid_append, ← h1]; exact hG
    refine ⟨A.yield, B.yield, by rw [h1, yield_append], noEnd_yield B hv.2 (by rw [h3]; exact htl), ?_⟩
    have := syms_le_yield B hv.2
    rw [h3] at this
    rw [hlen, hsy, List.length_cons]
    omega

end Schnek.Lemma.Lemon
