import Mathlib.Data.List.Induction
import Verif.Lemma.LemonUnique

/-!
# Stack heights, and the overflow of the stack on examples
-/

namespace Schnek.Lemma.Lemon

open Schnek.Lemon Schnek.Spec
open Scanner (Kind)

variable {V W S : Type}

theorem height_le (F : Forest V) (h : ℕ) (hv : F.Valid) : F.height h ≤ h + F.yield.length := by
  induction F generalizing h with
  | nil => exact le_refl _
  | tok k v F ih =>
    have := ih (h + 1) hv
    simp only [Forest.height, Forest.yield, List.length_cons]
    omega
  | node r kids F ihk ih =>
    have h1 := ihk h hv.2.1
    have h2 := ih (h + 1) hv.2.2
    have h3 : 0 < kids.yield.length := by
      have := syms_le_yield kids hv.2.1
      rw [hv.1] at this
      have := List.length_pos_iff.mpr (rhs_ne_nil r)
      omega
    simp only [Forest.height, Forest.yield, List.length_append]
    exact max_le (by omega) (by omega)

/-- the list of statements -/
theorem statements_forest (B : ℕ) (ts : List (List (Kind × V))) (hne : ts ≠ [])
    (h : ∀ t ∈ ts, t.length ≤ B ∧ ∃ F : Forest V, F.Derives [.n .statement] t) :
    ∃ F : Forest V, F.Derives [.n .statementlist] ts.flatten ∧ ∀ h, F.height h ≤ h + 1 + B := by
  induction ts using List.reverseRecOn with
  | nil => exact absurd rfl hne
  | append_singleton ts t ih =>
    obtain ⟨hl, F, hF⟩ := h t (by simp)
    by_cases hts : ts = []
    · subst hts
      refine ⟨.node 2 F .nil, ⟨⟨hF.roots, hF.valid, trivial⟩, rfl, ?_⟩, fun k => ?_⟩
      · simp [Forest.yield, hF.leaves]
      · have := height_le F k hF.valid
        rw [hF.leaves] at this
        exact max_le (by omega) (by show k + 1 ≤ _; omega)
    · obtain ⟨A, hA, hh⟩ := ih hts fun u hu => h u (by simp [hu])
      refine ⟨.node 1 (append A F) .nil, ⟨⟨?_, (valid_append _ _).mpr ⟨hA.valid, hF.valid⟩, trivial⟩, rfl, ?_⟩, fun k => ?_⟩
      · rw [syms_append, hA.roots, hF.roots]
        rfl
      · simp [Forest.yield, yield_append, hA.leaves, hF.leaves]
      · have h1 := height_le F (k + 1) hF.valid
        rw [hF.leaves] at h1
        have h2 := hh k
        have h3 : (append A F).height k ≤ k + 1 + B := by
          rw [height_append, hA.roots]
          exact max_le h2 (le_trans h1 (by omega))
        exact max_le h3 (by show k + 1 ≤ _; omega)

/-- a setup file of statements that are not too long -/
theorem deck_of_statements (B : ℕ) (ts : List (List (Kind × V))) (hne : ts ≠ [])
    (h : ∀ t ∈ ts, t.length ≤ B ∧ ∃ F : Forest V, F.Derives [.n .statement] t) :
    ∃ F : Forest V, F.Derives [.n .deck] ts.flatten ∧ F.height 1 ≤ B + 2 := by
  obtain ⟨A, hA, hh⟩ := statements_forest B ts hne h
  refine ⟨.node 0 A .nil, ⟨⟨hA.roots, hA.valid, trivial⟩, rfl, ?_⟩, ?_⟩
  · simp [Forest.yield, hA.leaves]
  · have := hh 1
    exact max_le (by omega) (by show 1 + 1 ≤ _; omega)

/-! ## overflow -/

/-- the first tokens of a long sum, with the `+` for which there is no place on the stack -/
def overflowPrefix : List Kind := longSum 48 ++ [.plus]

theorem overflow_check : (match run logAct 100 () 297 ⟨[], codes (plain overflowPrefix), []⟩ with
    | .running ⟨[], [], l⟩ => l.count 4 == 0
    | _ => false) = true := by decide +kernel

theorem overflow_run : ∃ l : List ℕ, run logAct 100 () 297 ⟨[], codes (plain overflowPrefix), []⟩ = .running ⟨[], [], l⟩ ∧
    l.count 4 = 0 := by
  have h := overflow_check
  revert h
  rcases run logAct 100 () 297 ⟨[], codes (plain overflowPrefix), []⟩ with ⟨_ | ⟨e, st⟩, _ | ⟨y, inp⟩, l⟩ | _ | _ | _ | _
  · intro h
    exact ⟨l, rfl, by simpa using h⟩
  all_goals (intro h; cases h)

/-- the stack overflows after the first tokens, and everything about them is forgotten -/
theorem overflow_reach (rest : List Kind) : ∃ l : List ℕ, Reach logAct 100 () (start () (plain (overflowPrefix ++ rest)) [])
    ⟨[], codes (plain rest) ++ [(0, ())], l⟩ ∧ l.count 4 = 0 := by
  obtain ⟨l, h, hl⟩ := overflow_run
  refine ⟨l, ⟨297, ?_⟩, hl⟩
  have := run_append 297 (codes (plain rest) ++ [(0, ())]) h
  rw [List.nil_append, ← List.append_assoc, ← codes_append] at this
  have h2 : plain (overflowPrefix ++ rest) = plain overflowPrefix ++ plain rest := List.map_append ..
  unfold start
  rw [h2]
  exact this

theorem longSum_split (n : ℕ) : longSum (n + 49) ++ [.semicolon] =
    overflowPrefix ++ (.integer :: ((List.replicate n [Kind.plus, Kind.integer]).flatten ++ [.semicolon])) := by
  rw [Nat.add_comm]
  simp only [longSum, overflowPrefix, List.replicate_add, List.flatten_append, List.append_assoc]
  rfl

theorem tick_integer (x : List (ℕ × Unit)) (l : List ℕ) : tick logAct 100 () ⟨[], (17, ()) :: x, l⟩ = .syntaxError x.length l := by
  have h0 : findShift 0 17 = errorAction := by decide +kernel
  simp only [tick, List.headD_nil, h0]
  rw [if_neg (by decide), if_neg (by decide), if_pos trivial]

theorem codes_integer (q : List Kind) (e : List (ℕ × Unit)) : codes (plain (.integer :: q)) ++ e = (17, ()) :: (codes (plain q) ++ e) := rfl

theorem longSum_error (n : ℕ) : ∃ l, Returns logAct 100 () (plain (longSum (n + 49) ++ [.semicolon])) []
    (.syntaxError (2 * n + 2) l) := by
  rw [longSum_split]
  obtain ⟨l, h, -⟩ := overflow_reach (.integer :: ((List.replicate n [Kind.plus, Kind.integer]).flatten ++ [.semicolon]))
  refine ⟨l, h.ends (Ends.tick ?_ (by intro c hc; cases hc))⟩
  have hlen : (codes (plain ((List.replicate n [Kind.plus, Kind.integer]).flatten ++ [Kind.semicolon])) ++ [(0, ())]).length =
      2 * n + 2 := by
    simp [codes, plain]
    omega
  rw [codes_integer, tick_integer, hlen]

theorem returns_of_check {t : List Kind} {n : ℕ} {l : List ℕ} (k : ℕ) (h : (match run logAct 100 () k (start () (plain t) []) with
    | .syntaxError n' l' => n' == n && l' == l
    | _ => false) = true) : Returns logAct 100 () (plain t) [] (.syntaxError n l) := by
  revert h
  rcases hr : run logAct 100 () k (start () (plain t) []) with _ | _ | ⟨n', l'⟩ | _ | _
  case syntaxError =>
    intro h
    simp only [Bool.and_eq_true, beq_iff_eq] at h
    refine ⟨(by intro c hc; cases hc), k, ?_⟩
    rw [hr, h.1, h.2]
  all_goals (intro h; cases h)

/-- the derivation of `y = 1 ;` -/
def shortForest : Forest Unit := .node 0 (.node 2 (.node 4 (.node 16 (.tok .identifier () (.tok .equal () (.node 19 (.node 25
  (oneTerm .nil) .nil) .nil))) (.tok .semicolon () .nil)) .nil) .nil) .nil

theorem shortForest_ok : shortForest.Derives [.n .deck] (plain [.identifier, .equal, .integer, .semicolon]) ∧
    shortForest.height 1 = 4 := by
  refine ⟨⟨?_, rfl, rfl⟩, rfl⟩
  exact ⟨rfl, ⟨rfl, ⟨rfl, ⟨rfl, ⟨rfl, ⟨rfl, (oneTerm_ok _).1.mpr trivial, trivial⟩, trivial⟩, trivial⟩, trivial⟩, trivial⟩, trivial⟩

theorem shortForest_eval (l : List ℕ) : ∃ v, shortForest.eval logAct l =
    (some v, l ++ [42] ++ [37] ++ [30] ++ [28] ++ [25] ++ [19] ++ [16] ++ [4] ++ [2] ++ [0]) := ⟨_, rfl⟩

/-- `x = 1 + 1 + … + y = 1 ;` -/
def lostDeck : List Kind := overflowPrefix ++ [.identifier, .equal, .integer, .semicolon]

theorem lost_accepted : ∃ l, Returns logAct 100 () (plain lostDeck) [] (.done l) ∧ l.count 4 = 1 := by
  obtain ⟨l, h, hl⟩ := overflow_reach [.identifier, .equal, .integer, .semicolon]
  have h1 := deck_run logAct 100 () shortForest _ shortForest_ok.1 (by rw [shortForest_ok.2]; decide) l
  obtain ⟨v, hv⟩ := shortForest_eval l
  rw [hv] at h1
  refine ⟨_, h.ends h1, ?_⟩
  simp [List.count_append, hl]

theorem lost_check : (match run logAct 1000 () 400 (start () (plain lostDeck) []) with
    | .syntaxError _ _ => true
    | _ => false) = true := by decide +kernel

theorem lost_not_grammatical : ¬ Grammatical (plain lostDeck) := by
  rintro ⟨F, hF⟩
  have hh := height_le F 1 hF.valid
  rw [hF.leaves] at hh
  have hlen : (plain lostDeck).length = 104 := by decide +kernel
  have h1 := deck_run logAct 1000 () F _ hF (by omega) []
  have h2 := lost_check
  revert h2
  rcases hr : run logAct 1000 () 400 (start () (plain lostDeck) []) with _ | _ | ⟨n, s⟩ | _ | _
  case syntaxError =>
    intro _
    have h3 : Returns logAct 1000 () (plain lostDeck) [] (.syntaxError n s) := ⟨(by intro c hc; cases hc), 400, hr⟩
    have h4 := returns_unique h1 h3
    revert h4
    rcases F.eval logAct [] with ⟨_ | vs, s'⟩ <;> (intro h4; cases h4)
  all_goals (intro h; cases h)

end Schnek.Lemma.Lemon
