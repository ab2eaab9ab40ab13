import Verif.Lemma.LemonSound

/-!
# A setup file has only one derivation; runs of the parser on examples
-/

namespace Schnek.Lemma.Lemon

open Schnek.Lemon Schnek.Spec
open Scanner (Kind)

variable {V W S : Type}

/-- other values at the leaves -/
def mapF (f : Kind → V → W) : Forest V → Forest W
  | .nil => .nil
  | .tok k v rest => .tok k (f k v) (mapF f rest)
  | .node r kids rest => .node r (mapF f kids) (mapF f rest)

theorem mapF_syms (f : Kind → V → W) (F : Forest V) : (mapF f F).syms = F.syms := by
  induction F with
  | nil => rfl
  | tok k v F ih => simp only [mapF, Forest.syms, ih]
  | node r kids F _ ih => simp only [mapF, Forest.syms, ih]

theorem mapF_yield (f : Kind → V → W) (F : Forest V) : (mapF f F).yield = F.yield.map fun t => (t.1, f t.1 t.2) := by
  induction F with
  | nil => rfl
  | tok k v F ih => simp only [mapF, Forest.yield, ih, List.map_cons]
  | node r kids F ihk ih => simp only [mapF, Forest.yield, ih, ihk, List.map_append]

theorem mapF_valid (f : Kind → V → W) (F : Forest V) (h : F.Valid) : (mapF f F).Valid := by
  induction F with
  | nil => trivial
  | tok k v F ih => exact ih h
  | node r kids F ihk ih => exact ⟨by rw [mapF_syms]; exact h.1, ihk h.2.1, ih h.2.2⟩

/-- all trees together -/
def concat (l : List (Forest V)) : Forest V := l.foldr append .nil

/-- the trees one by one -/
def pieces : Forest V → List (Forest V)
  | .nil => []
  | .tok k v rest => .tok k v .nil :: pieces rest
  | .node r kids rest => .node r kids .nil :: pieces rest

theorem concat_pieces (F : Forest V) : concat (pieces F) = F := by
  induction F with
  | nil => rfl
  | tok k v F ih =>
    show append _ (concat (pieces F)) = _
    rw [ih]
    rfl
  | node r kids F _ ih =>
    show append _ (concat (pieces F)) = _
    rw [ih]
    rfl

/-- actions that build the tree, and keep the last one -/
def treeAct : Actions (Forest V) (Forest V) := fun r ws s =>
  if h : r < 48 then (some (.node ⟨r, h⟩ (concat ws) .nil), .node ⟨r, h⟩ (concat ws) .nil) else (none, s)

/-- the tree of a token -/
def leaf (k : Kind) (v : V) : Forest V := .tok k v .nil

theorem eval_tree (F : Forest V) (s : Forest V) : ∃ s', (mapF leaf F).eval treeAct s = (some (pieces F), s') := by
  induction F generalizing s with
  | nil => exact ⟨s, rfl⟩
  | tok k v F ih =>
    obtain ⟨s', h⟩ := ih s
    exact ⟨s', by simp only [mapF, Forest.eval, h]; rfl⟩
  | node r kids F ihk ih =>
    obtain ⟨s1, h1⟩ := ihk s
    obtain ⟨s2, h2⟩ := ih (.node r kids .nil)
    refine ⟨s2, ?_⟩
    have h3 : treeAct r (pieces kids) s1 = (some (.node r kids .nil), .node r kids .nil) := by
      unfold treeAct
      rw [dif_pos r.isLt, concat_pieces]
    simp only [mapF, Forest.eval, h1, h3, h2]
    rfl

theorem eval_tree_node (r : Fin 48) (kids s : Forest V) :
    ∃ v, (mapF leaf (.node r kids .nil)).eval treeAct s = (some v, .node r kids .nil) := by
  obtain ⟨s1, h1⟩ := eval_tree kids s
  refine ⟨[.node r kids .nil], ?_⟩
  have h3 : treeAct r (pieces kids) s1 = (some (.node r kids .nil), .node r kids .nil) := by
    unfold treeAct
    rw [dif_pos r.isLt, concat_pieces]
  simp only [mapF, Forest.eval, h1, h3]

theorem deck_node {F : Forest V} (h : F.syms = [.n .deck]) : ∃ r kids, F = .node r kids .nil := by
  cases F with
  | nil => cases h
  | tok k v rest => cases h
  | node r kids rest =>
    simp only [Forest.syms, List.cons.injEq] at h
    cases rest with
    | nil => exact ⟨r, kids, rfl⟩
    | tok k v rest => cases h.2
    | node r kids rest => cases h.2

/-- The grammar is unambiguous. -/
theorem derivation_unique {F F' : Forest V} {tokens : List (Kind × V)} (h : F.Derives [.n .deck] tokens)
    (h' : F'.Derives [.n .deck] tokens) : F = F' := by
  have key : ∀ {F : Forest V}, F.Derives [.n .deck] tokens → ∀ D, (mapF leaf F).height 1 ≤ D →
      Returns treeAct D .nil (tokens.map fun t => (t.1, leaf t.1 t.2)) .nil (.done F) := by
    intro F h D hD
    have h1 := deck_run treeAct D .nil (mapF leaf F) (tokens.map fun t => (t.1, leaf t.1 t.2))
      ⟨mapF_valid _ _ h.valid, by rw [mapF_syms]; exact h.roots, by rw [mapF_yield, h.leaves]⟩ hD .nil
    obtain ⟨r, kids, hF⟩ := deck_node h.roots
    subst hF
    obtain ⟨v, hv⟩ := eval_tree_node r kids .nil
    rw [hv] at h1
    exact h1
  have h1 := key h (max ((mapF leaf F).height 1) ((mapF leaf F').height 1)) (le_max_left _ _)
  have h2 := key h' (max ((mapF leaf F).height 1) ((mapF leaf F').height 1)) (le_max_right _ _)
  have := returns_unique h1 h2
  cases this
  rfl

/-! ## more input -/

theorem tick_append {act : Actions V S} {D : ℕ} {v0 : V} {st st' : List (Entry V)} {inp inp' : List (ℕ × V)} {s s' : S}
    (x : List (ℕ × V)) (h : tick act D v0 ⟨st, inp, s⟩ = .running ⟨st', inp', s'⟩) :
    tick act D v0 ⟨st, inp ++ x, s⟩ = .running ⟨st', inp' ++ x, s'⟩ := by
  cases inp with
  | nil => cases h
  | cons y ys =>
    obtain ⟨a, v⟩ := y
    simp only [tick, List.cons_append] at h ⊢
    by_cases h1 : findShift (st.headD ⟨0, 0, v0⟩).state a < nState
    · rw [if_pos h1] at h ⊢
      by_cases h2 : a = 0
      · rw [if_pos h2] at h; cases h
      · rw [if_neg h2] at h ⊢
        simp only [Outcome.running.injEq, Conf.mk.injEq] at h ⊢
        exact ⟨h.1, by rw [h.2.1], h.2.2⟩
    · rw [if_neg h1] at h ⊢
      by_cases h2 : findShift (st.headD ⟨0, 0, v0⟩).state a < nState + nRule
      · rw [if_pos h2] at h ⊢
        unfold reduce at h ⊢
        revert h
        rcases yyRuleInfo[findShift (st.headD ⟨0, 0, v0⟩).state a - nState]? with _ | ⟨l, n⟩
        · intro h; cases h
        · simp only
          rcases List.drop n (st.headD ⟨0, 0, v0⟩ :: st.tail) with _ | ⟨top, below⟩
          · intro h; cases h
          · simp only
            rcases act _ _ s with ⟨_ | w, s1⟩
            · intro h; cases h
            · simp only
              by_cases h3 : findReduce top.state l < nState
              · rw [if_pos h3, if_pos h3]
                rcases shift D (top :: below) ⟨findReduce top.state l, l, w⟩ with _ | ⟨e, l'⟩
                · intro h
                  simp only [Outcome.running.injEq, Conf.mk.injEq, List.tail_cons] at h ⊢
                  exact ⟨h.1, by rw [h.2.1], h.2.2⟩
                · intro h
                  simp only [Outcome.running.injEq, Conf.mk.injEq] at h ⊢
                  exact ⟨h.1, by rw [← h.2.1]; rfl, h.2.2⟩
              · rw [if_neg h3, if_neg h3]
                by_cases h4 : findReduce top.state l = acceptAction
                · rw [if_pos h4, if_pos h4]
                  intro h
                  simp only [Outcome.running.injEq, Conf.mk.injEq, List.tail_cons] at h ⊢
                  exact ⟨h.1, by rw [h.2.1], h.2.2⟩
                · rw [if_neg h4]
                  intro h; cases h
      · rw [if_neg h2] at h
        by_cases h3 : findShift (st.headD ⟨0, 0, v0⟩).state a = errorAction
        · rw [if_pos h3] at h; cases h
        · rw [if_neg h3] at h; cases h

theorem run_append {act : Actions V S} {D : ℕ} {v0 : V} (n : ℕ) {st st' : List (Entry V)} {inp inp' : List (ℕ × V)} {s s' : S}
    (x : List (ℕ × V)) (h : run act D v0 n ⟨st, inp, s⟩ = .running ⟨st', inp', s'⟩) :
    run act D v0 n ⟨st, inp ++ x, s⟩ = .running ⟨st', inp' ++ x, s'⟩ := by
  induction n generalizing st inp s with
  | zero =>
    simp only [run, Outcome.running.injEq, Conf.mk.injEq] at h ⊢
    exact ⟨h.1, by rw [h.2.1], h.2.2⟩
  | succ n ih =>
    simp only [run] at h ⊢
    revert h
    rcases ht : tick act D v0 ⟨st, inp, s⟩ with ⟨st1, inp1, s1⟩ | _ | _ | _ | _
    · intro h
      rw [tick_append x ht]
      exact ih h
    all_goals (intro h; cases h)

/-! ## examples -/

/-- actions that never fail and write down the rules -/
def logAct : Actions Unit (List ℕ) := fun r _ s => (some (), s ++ [r])

/-- tokens without values -/
def plain (l : List Kind) : List (Kind × Unit) := l.map fun k => (k, ())

/-- `x = 1 + 1 + … ` with this many `+` -/
def longSum (n : ℕ) : List Kind := [.identifier, .equal, .integer] ++ (List.replicate n [.plus, .integer]).flatten

/-- the sum without its beginning -/
def tailSum (n : ℕ) : List Kind := .integer :: (List.replicate n [.plus, .integer]).flatten

/-- derivation of an integer -/
def oneTerm (rest : Forest Unit) : Forest Unit :=
  .node 28 (.node 30 (.node 37 (.node 42 (.tok .integer () .nil) .nil) .nil) .nil) rest

theorem oneTerm_ok (rest : Forest Unit) : ((oneTerm rest).Valid ↔ rest.Valid) ∧ (oneTerm rest).syms = .n .term :: rest.syms ∧
    (oneTerm rest).yield = (.integer, ()) :: rest.yield := by
  refine ⟨?_, rfl, rfl⟩
  constructor
  · exact fun h => h.2.2
  · exact fun h => ⟨rfl, ⟨rfl, ⟨rfl, ⟨rfl, trivial, trivial⟩, trivial⟩, trivial⟩, h⟩

/-- derivation of a sum -/
def sumForest : ℕ → Forest Unit
  | 0 => .node 22 (oneTerm .nil) .nil
  | n + 1 => .node 20 (oneTerm (.tok .plus () (sumForest n))) .nil

theorem sumForest_ok (n : ℕ) : (sumForest n).Valid ∧ (sumForest n).syms = [.n .unsignedExpr] ∧
    (sumForest n).yield = plain (tailSum n) := by
  induction n with
  | zero => exact ⟨⟨rfl, ⟨rfl, ⟨rfl, ⟨rfl, ⟨rfl, trivial, trivial⟩, trivial⟩, trivial⟩, trivial⟩, trivial⟩, rfl, rfl⟩
  | succ n ih =>
    obtain ⟨h1, h2, h3⟩ := ih
    refine ⟨⟨?_, (oneTerm_ok _).1.mpr h1, trivial⟩, rfl, ?_⟩
    · rw [(oneTerm_ok _).2.1, Forest.syms, h2]
      rfl
    · show (oneTerm _).yield ++ [] = _
      rw [(oneTerm_ok _).2.2, Forest.yield, h3, List.append_nil]
      simp [tailSum, plain, List.replicate_succ]

/-- A long sum is a setup file. -/
theorem longSum_grammatical (n : ℕ) : Grammatical (plain (longSum (n + 1) ++ [.semicolon])) := by
  obtain ⟨h1, h2, h3⟩ := sumForest_ok n
  refine ⟨.node 0 (.node 2 (.node 4 (.node 16 (.tok .identifier () (.tok .equal () (.node 17 (.node 25 (oneTerm .nil)
    (.tok .plus () (sumForest n))) .nil))) (.tok .semicolon () .nil)) .nil) .nil) .nil, ⟨?_, rfl, ?_⟩⟩
  · refine ⟨rfl, ⟨rfl, ⟨rfl, ⟨rfl, ⟨?_, ⟨rfl, (oneTerm_ok _).1.mpr trivial, h1⟩, trivial⟩, trivial⟩, trivial⟩, trivial⟩, trivial⟩
    rw [Forest.syms, Forest.syms, h2]
    rfl
  · simp only [Forest.yield, h3, (oneTerm_ok _).2.2]
    simp [longSum, tailSum, plain, List.replicate_succ]

end Schnek.Lemma.Lemon
