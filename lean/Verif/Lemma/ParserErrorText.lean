import Verif.Lemma.ParserErrorRules
import Verif.Lemma.LemonShort

/-!
# Exceptions from reading a setup file: from the rules to the text
-/

namespace Schnek.Lemma.ParserError

open Schnek.Deck Schnek.Spec Schnek.Scanner ParserToken DeckState Schnek.Lemma.Deck Schnek.Lemma.DeckText Schnek.Lemma.Lemon

variable {F W : Type}

/-- the value of a token, with its kind -/
def lined (t : Tok) : Kind × (ParserToken F W × Lines) := (t.kind, linedAtom t)

theorem sane_act_all (H : Host F W) (r : ℕ) (vs : List (ParserToken F W)) (D : DeckState F W) (h : Sane D) :
    Sane (deckAct H r vs D).2 := by
  by_cases hr : r < 48
  · exact sane_act H r hr vs D h
  · obtain ⟨k, rfl⟩ := Nat.exists_eq_add_of_le' (Nat.le_of_not_lt hr)
    have : (deckAct H (k + 48) vs D).2 = D := by
      rcases vs with _ | ⟨a, _ | ⟨b, _ | ⟨c, _ | ⟨d, _ | ⟨e, vs⟩⟩⟩⟩⟩ <;> rfl
    rw [this]
    exact h

theorem excDeckAct_state (H : Host F W) (r : ℕ) (vs : List (ParserToken F W × Lines)) (s : DeckState F W × Option Exc) :
    (excDeckAct H r vs s).2.1 = (deckAct H r (vs.map Prod.fst) s.1).2 := by
  unfold excDeckAct
  rcases deckAct H r (vs.map Prod.fst) s.1 with ⟨_ | p, D'⟩ <;> rfl

/-- states that can occur -/
abbrev SaneState (F W : Type) := { s : DeckState F W × Option Exc // Sane s.1 }

/-- the actions on states that can occur -/
def saneAct (H : Host F W) : Lemon.Actions (ParserToken F W × Lines) (SaneState F W) := fun r vs s =>
  ((excDeckAct H r vs s.1).1, ⟨(excDeckAct H r vs s.1).2, by rw [excDeckAct_state]; exact sane_act_all H r _ _ s.2⟩)

theorem projects_sane (H : Host F W) : Projects id Subtype.val (excDeckAct H) (saneAct H) := by
  intro r vs s
  rw [List.map_id]
  show _ = ((excDeckAct H r vs s.1).1.map id, (excDeckAct H r vs s.1).2)
  rw [Option.map_id]
  rfl

theorem projects_exc (H : Host F W) : Projects Prod.fst Prod.fst (deckAct H) (excDeckAct H) := by
  intro r vs s
  unfold excDeckAct
  rcases deckAct H r (vs.map Prod.fst) s.1 with ⟨_ | p, D'⟩ <;> rfl

theorem projects_deck (H : Host F W) : Projects Prod.fst (fun s : SaneState F W => s.1.1) (deckAct H) (saneAct H) := by
  intro r vs s
  have h1 := projects_exc H r vs s.1
  rw [h1]
  rfl

theorem saneAct_some {H : Host F W} {r : ℕ} {vs : List (ParserToken F W × Lines)} {s s' : SaneState F W} {v : ParserToken F W × Lines}
    (h : saneAct H r vs s = (some v, s')) :
    deckAct H r (vs.map Prod.fst) s.1.1 = (some v.1, s'.1.1) ∧ v.2 = lineAct r (vs.map Prod.snd) ∧ s'.1.2 = s.1.2 := by
  obtain ⟨h1, h2⟩ := Prod.mk.inj h
  have h3 : (excDeckAct H r vs s.1).2 = s'.1 := congrArg Subtype.val h2
  unfold excDeckAct at h1 h3
  rcases hd : deckAct H r (vs.map Prod.fst) s.1.1 with ⟨_ | p, D'⟩
  · rw [hd] at h1
    cases h1
  · rw [hd] at h1 h3
    cases h1
    rw [← h3]
    exact ⟨rfl, rfl, rfl⟩

theorem saneAct_none {H : Host F W} {r : ℕ} {vs : List (ParserToken F W × Lines)} {s s' : SaneState F W}
    (h : saneAct H r vs s = (none, s')) :
    deckAct H r (vs.map Prod.fst) s.1.1 = (none, s'.1.1) ∧ s'.1.2 = some (excAct H r vs s.1.1) := by
  obtain ⟨h1, h2⟩ := Prod.mk.inj h
  have h3 : (excDeckAct H r vs s.1).2 = s'.1 := congrArg Subtype.val h2
  unfold excDeckAct at h1 h3
  rcases hd : deckAct H r (vs.map Prod.fst) s.1.1 with ⟨_ | p, D'⟩
  · rw [hd] at h3
    rw [← h3]
    exact ⟨rfl, rfl⟩
  · rw [hd] at h1
    cases h1

/-- the values of a forest that has been evaluated -/
theorem good_forest (H : Host F W) (G : Forest (ParserToken F W × Lines)) (T : List Tok) (hv : G.Valid) (hy : G.yield = T.map lined)
    (s s' : SaneState F W) (vs : List (ParserToken F W × Lines)) (he : G.eval (saneAct H) s = (some vs, s')) : GoodAll G.syms T vs := by
  induction G generalizing T s s' vs with
  | nil =>
    obtain rfl : T = [] := by simpa [Forest.yield] using hy.symm
    rw [eval_nil] at he
    cases he
    exact ⟨rfl, rfl⟩
  | tok k v rest ih =>
    rw [Forest.yield, eq_comm, List.map_eq_cons_iff] at hy
    obtain ⟨t, T, rfl, h1, h2⟩ := hy
    rw [lined, Prod.mk.injEq] at h1
    rw [eval_tok] at he
    rcases hr : rest.eval (saneAct H) s with ⟨_ | ws, s2⟩
    · rw [hr] at he
      cases he
    · rw [hr, bindO_some] at he
      cases he
      exact ⟨t, T, ws, rfl, by rw [h1.2], h1.1, ih T hv h2.symm s _ ws hr⟩
  | node r kids rest ih1 ih2 =>
    rw [Forest.yield, eq_comm, List.map_eq_append_iff] at hy
    obtain ⟨T1, T2, rfl, h1, h2⟩ := hy
    rw [eval_node, nodeEval_eq] at he
    rcases hr : kids.eval (saneAct H) s with ⟨_ | ws, s2⟩
    · rw [hr] at he
      cases he
    rw [hr, bindO_some] at he
    rcases ha : saneAct H r ws s2 with ⟨_ | v, s3⟩
    · rw [ha] at he
      cases he
    rw [ha, bindO_some] at he
    rcases hr' : rest.eval (saneAct H) s3 with ⟨_ | ws', s4⟩
    · rw [hr'] at he
      cases he
    rw [hr', bindO_some] at he
    cases he
    have g1 := ih1 T1 hv.2.1 h1.symm s s2 ws hr
    rw [hv.1] at g1
    obtain ⟨a1, a2, -⟩ := saneAct_some ha
    have g2 := good_rule H r T1 ws _ _ v.1 g1 a1
    rw [← a2] at g2
    exact ⟨T1, T2, v, ws', rfl, rfl, g2, ih2 T2 hv.2.2 h2.symm s3 _ ws' hr'⟩

/-- evaluation of the forest without lines -/
theorem eval_map {V V' S S' : Type} {f : V' → V} {g : S' → S} {act : Lemon.Actions V S} {act' : Lemon.Actions V' S'}
    (h : Projects f g act act') (G : Forest V') (s : S') :
    (mapForest f G).eval act (g s) = ((G.eval act' s).1.map (List.map f), g (G.eval act' s).2) := by
  induction G generalizing s with
  | nil => rfl
  | tok k v rest ih =>
    rw [mapForest, eval_tok, eval_tok, ih]
    rcases rest.eval act' s with ⟨_ | ws, s2⟩ <;> rfl
  | node r kids rest ih1 ih2 =>
    rw [mapForest, eval_node, eval_node, nodeEval_eq, nodeEval_eq, ih1]
    rcases kids.eval act' s with ⟨_ | ws, s2⟩
    · rfl
    simp only [Option.map_some, bindO_some]
    rw [h]
    rcases act' r ws s2 with ⟨_ | v, s3⟩
    · rfl
    simp only [Option.map_some, bindO_some]
    rw [ih2]
    rcases rest.eval act' s3 with ⟨_ | ws', s4⟩ <;> rfl

theorem mapForest_valid {V V' : Type} (f : V → V') (G : Forest V) (hv : G.Valid) : (mapForest f G).Valid := by
  induction G with
  | nil => trivial
  | tok k v rest ih => exact ih hv
  | node r kids rest ih1 ih2 => exact ⟨by rw [mapForest_syms]; exact hv.1, ih1 hv.2.1, ih2 hv.2.2⟩

theorem mapForest_yield {V V' : Type} (f : V → V') (G : Forest V) : (mapForest f G).yield = G.yield.map fun t => (t.1, f t.2) := by
  induction G with
  | nil => rfl
  | tok k v rest ih => simp [mapForest, Forest.yield, ih]
  | node r kids rest ih1 ih2 => simp [mapForest, Forest.yield, ih1, ih2]

/-- The statements that have been executed. -/
theorem executed (H : Host F W) (L : Forest (ParserToken F W × Lines)) (T : List Tok) (hv : L.Valid) (hs : L.syms = [.n .statementlist])
    (hy : L.yield = T.map lined) (hk : ∀ t ∈ T, t.kind ≠ .includeKw ∧ t.kind ≠ .pathIdentifier) (s s' : SaneState F W)
    (vs : List (ParserToken F W × Lines)) (he : L.eval (saneAct H) s = (some vs, s')) :
    ∃ deck, IsDeck H.ops T deck ∧ s.1.1.run H deck = (true, s'.1.1) := by
  let G : Forest (PT F W) := .node 0 (mapForest Prod.fst L) .nil
  have hGv : G.Valid := ⟨by rw [mapForest_syms, hs]; rfl, mapForest_valid _ L hv, trivial⟩
  have hGy : G.yield = T.map leafOf := by
    show (mapForest Prod.fst L).yield ++ [] = _
    rw [List.append_nil, mapForest_yield, hy, List.map_map]
    rfl
  have hGd : G.Derives [.n .deck] (T.map leafOf) := ⟨hGv, rfl, hGy⟩
  have hL := eval_map (projects_deck H) L s
  rw [he] at hL
  have hGe : G.eval (deckAct H) s.1.1 = (some [ParserToken.default], s'.1.1) := by
    show (Forest.node 0 (mapForest Prod.fst L) .nil).eval (deckAct H) s.1.1 = _
    rw [eval_node, nodeEval_eq, hL]
    rfl
  have hm : ∀ t ∈ T, meaning H.ops t ≠ none := by
    intro t ht hn
    have := meaning_of_eval H G T hGv hGy (fun t ht => (hk t ht).1) _ _ _ hGe t ht hn
    simp [G, Forest.syms] at this
  obtain ⟨parts, P, h1, rfl, h3⟩ := statements_of_derivation H.ops G T hGd hm
  obtain ⟨G', hG', he'⟩ := ex_deck H parts P h1 h3
  have := derivation_unique hG' hGd
  subst this
  refine ⟨P, ⟨?_, parts, rfl, h3⟩, ?_⟩
  · rintro rfl
    cases h3
    exact h1 rfl
  · have := he' s.1.1
    rw [hGe] at this
    have h4 := congrArg Prod.snd this
    have h5 := congrArg Prod.fst this
    refine Prod.ext ?_ h4.symm
    revert h5
    rcases (s.1.1.run H P).1 <;> simp

/-! ## the statement at fault -/

theorem quiet_forest (H : Host F W) (G : Forest (ParserToken F W × Lines)) (hv : G.Valid)
    (hi : ∀ N, Sym.n N ∈ G.syms → inner (.n N) = true) (s s' : SaneState F W) (vs : List (ParserToken F W × Lines))
    (he : G.eval (saneAct H) s = (some vs, s')) : s'.1.1 = s.1.1 := by
  induction G generalizing s s' vs with
  | nil =>
    rw [eval_nil] at he
    cases he
    rfl
  | tok k v rest ih =>
    rw [eval_tok] at he
    rcases hr : rest.eval (saneAct H) s with ⟨_ | ws, s2⟩
    · rw [hr] at he
      cases he
    · rw [hr, bindO_some] at he
      cases he
      exact ih hv (fun N hN => hi N (List.mem_cons_of_mem _ hN)) s _ ws hr
  | node r kids rest ih1 ih2 =>
    rw [eval_node, nodeEval_eq] at he
    rcases hr : kids.eval (saneAct H) s with ⟨_ | ws, s2⟩
    · rw [hr] at he
      cases he
    rw [hr, bindO_some] at he
    rcases ha : saneAct H r ws s2 with ⟨_ | v, s3⟩
    · rw [ha] at he
      cases he
    rw [ha, bindO_some] at he
    rcases hr' : rest.eval (saneAct H) s3 with ⟨_ | ws', s4⟩
    · rw [hr'] at he
      cases he
    rw [hr', bindO_some] at he
    cases he
    have hl : inner (.n (lhs r)) = true := hi _ (by simp [Forest.syms])
    have h1 := ih1 hv.2.1 (fun N hN => inner_rule r hl _ (by rw [← hv.1]; exact hN)) s s2 ws hr
    have h2 := ih2 hv.2.2 (fun N hN => hi N (List.mem_cons_of_mem _ hN)) s3 _ ws' hr'
    rw [h2, ← h1]
    obtain ⟨a1, -, -⟩ := saneAct_some ha
    have h3 : ∀ r : Fin 48, inner (.n (lhs r)) = true → r.1 ≠ 3 ∧ r.1 ≠ 4 ∧ r.1 ≠ 7 ∧ r.1 ≠ 9 ∧ r.1 ≠ 10 := by decide +kernel
    obtain ⟨n3, n4, n7, n9, n10⟩ := h3 r hl
    have h4 := quiet_state H r r.2 n3 n4 n7 n9 n10 (ws.map Prod.fst) s2.1.1
    rw [a1] at h4
    exact h4

/-- The same with the values of expressions, within one statement. -/
theorem reads_forest (H : Host F W) (G : Forest (ParserToken F W × Lines)) (T : List Tok) (hv : G.Valid) (hy : G.yield = T.map lined)
    (hi : ∀ N, Sym.n N ∈ G.syms → inner (.n N) = true) (s s' : SaneState F W) (vs : List (ParserToken F W × Lines))
    (he : G.eval (saneAct H) s = (some vs, s')) : ReadsAll H s.1.1 G.syms T vs := by
  induction G generalizing T s s' vs with
  | nil =>
    obtain rfl : T = [] := by simpa [Forest.yield] using hy.symm
    rw [eval_nil] at he
    cases he
    exact ⟨rfl, rfl⟩
  | tok k v rest ih =>
    rw [Forest.yield, eq_comm, List.map_eq_cons_iff] at hy
    obtain ⟨t, T, rfl, h1, h2⟩ := hy
    rw [lined, Prod.mk.injEq] at h1
    rw [eval_tok] at he
    rcases hr : rest.eval (saneAct H) s with ⟨_ | ws, s2⟩
    · rw [hr] at he
      cases he
    · rw [hr, bindO_some] at he
      cases he
      exact ⟨t, T, ws, rfl, by rw [h1.2], h1.1, ih T hv h2.symm (fun N hN => hi N (List.mem_cons_of_mem _ hN)) s _ ws hr⟩
  | node r kids rest ih1 ih2 =>
    have hg := good_forest H (.node r kids rest) T hv hy s s' vs he
    rw [Forest.yield, eq_comm, List.map_eq_append_iff] at hy
    obtain ⟨T1, T2, rfl, h1, h2⟩ := hy
    have hl : inner (.n (lhs r)) = true := hi _ (by simp [Forest.syms])
    have hi1 : ∀ N, Sym.n N ∈ kids.syms → inner (.n N) = true := fun N hN => inner_rule r hl _ (by rw [← hv.1]; exact hN)
    rw [eval_node, nodeEval_eq] at he
    rcases hr : kids.eval (saneAct H) s with ⟨_ | ws, s2⟩
    · rw [hr] at he
      cases he
    rw [hr, bindO_some] at he
    rcases ha : saneAct H r ws s2 with ⟨_ | v, s3⟩
    · rw [ha] at he
      cases he
    rw [ha, bindO_some] at he
    rcases hr' : rest.eval (saneAct H) s3 with ⟨_ | ws', s4⟩
    · rw [hr'] at he
      cases he
    rw [hr', bindO_some] at he
    cases he
    have g1 := ih1 T1 hv.2.1 h1.symm hi1 s s2 ws hr
    rw [hv.1] at g1
    have q1 := quiet_forest H kids hv.2.1 hi1 s s2 ws hr
    have q2 : s3.1.1 = s.1.1 := by
      refine quiet_forest H (.node r kids .nil) ⟨hv.1, hv.2.1, trivial⟩ (fun N hN => ?_) s s3 [v] ?_
      · simp only [Forest.syms, List.mem_singleton, Sym.n.injEq] at hN
        subst hN
        exact hl
      · rw [eval_node, nodeEval_eq, hr, bindO_some, ha]
        rfl
    obtain ⟨a1, a2, -⟩ := saneAct_some ha
    rw [q1] at a1
    have g2 := good_rule H r T1 ws _ _ v.1 (readsAll_good g1) a1
    have g3 := reads_rule H r T1 ws _ _ v.1 g1 a1
    rw [← a2] at g2 g3
    have g4 := ih2 T2 hv.2.2 h2.symm (fun N hN => hi N (List.mem_cons_of_mem _ hN)) s3 _ ws' hr'
    rw [q2] at g4
    exact ⟨T1, T2, v, ws', rfl, rfl, g2, g3, g4⟩

theorem never_throws (H : Host F W) (r : ℕ) (hr : r = 0 ∨ r = 1 ∨ r = 2 ∨ r = 5 ∨ r = 6 ∨ r = 8 ∨ r = 15) (vs : List (ParserToken F W))
    (D D' : DeckState F W) : deckAct H r vs D ≠ (none, D') := by
  rcases vs with _ | ⟨a, _ | ⟨b, _ | ⟨c, _ | ⟨d, _ | ⟨e, vs⟩⟩⟩⟩⟩ <;> rcases hr with rfl | rfl | rfl | rfl | rfl | rfl | rfl <;>
    exact fun h => Option.some_ne_none _ (Prod.mk.inj h).1

theorem untouched_act (H : Host F W) (r : ℕ) (hr : r < 48) (vs : List (ParserToken F W)) (D D' : DeckState F W)
    (h : deckAct H r vs D = (none, D')) : Untouched D D' := by
  have hD : (deckAct H r vs D).2 = D' := by rw [h]
  have hf : ∀ x : Bool × DeckState F W, effect x = (none, D') → x = (false, D') := by
    rintro ⟨_ | _, E⟩ hx
    · cases hx
      rfl
    · cases hx
  have hc : ∀ c n : ParserToken F W, effect (ParserToken.createBlock H D c n) = (none, D') → Untouched D D' := by
    intro c n h
    have h := hf _ h
    unfold ParserToken.createBlock at h
    split at h
    · cases h
      exact untouched_refl D
    · split at h
      · cases h
        exact untouched_refl D
      · unfold DeckState.createBlock at h
        split at h
        · cases h
          exact untouched_refl D
        · split at h
          · cases h
            exact untouched_refl D
          · cases h
  by_cases h3 : r = 3
  · subst h3
    rcases vs with _ | ⟨a, _ | ⟨b, _ | ⟨c, _ | ⟨d, vs⟩⟩⟩⟩
    case cons.cons.cons.nil =>
      rw [← hD]
      exact untouched_chain _ (untouched_storeData H _) _ D
    all_goals (rw [← hD]; exact untouched_refl D)
  by_cases h4 : r = 4
  · subst h4
    rcases vs with _ | ⟨a, _ | ⟨b, _ | ⟨c, vs⟩⟩⟩
    case cons.cons.nil =>
      have h := hf _ h
      unfold updateVariable at h
      split at h
      · cases h
        exact untouched_refl D
      · split at h
        · split at h
          · cases h
            exact untouched_refl D
          · split at h
            · cases h
              exact untouched_id D _
            · cases h
        · cases h
          exact untouched_refl D
    all_goals (rw [← hD]; exact untouched_refl D)
  by_cases h7 : r = 7
  · subst h7
    rcases vs with _ | ⟨a, _ | ⟨b, vs⟩⟩
    case cons.nil =>
      have h := hf _ h
      unfold endBlock at h
      split at h
      · cases h
        exact untouched_refl D
      · cases h
    all_goals (rw [← hD]; exact untouched_refl D)
  by_cases h9 : r = 9
  · subst h9
    rcases vs with _ | ⟨a, _ | ⟨b, _ | ⟨c, _ | ⟨d, vs⟩⟩⟩⟩
    case cons.cons.cons.nil => exact hc _ _ h
    all_goals (rw [← hD]; exact untouched_refl D)
  by_cases h10 : r = 10
  · subst h10
    rcases vs with _ | ⟨a, _ | ⟨b, _ | ⟨c, vs⟩⟩⟩
    case cons.cons.nil => exact hc _ _ h
    all_goals (rw [← hD]; exact untouched_refl D)
  rw [quiet_state H r hr h3 h4 h7 h9 h10] at hD
  rw [hD]
  exact untouched_refl _

theorem oneStatement_of {l : List Tok} (h : ∀ t ∈ l.dropLast, endsStatement t.kind = false) : OneStatement l := by
  rintro a t b rfl hb
  apply h
  rw [List.dropLast_append_of_ne_nil (by simp), List.dropLast_cons_of_ne_nil hb]
  simp

theorem rule_ends (r : Fin 48) (hr : ¬ (r.1 = 0 ∨ r.1 = 1 ∨ r.1 = 2 ∨ r.1 = 5 ∨ r.1 = 6 ∨ r.1 = 8 ∨ r.1 = 15)) :
    ∃ l X, rhs r = l ++ [X] ∧ (∀ Y ∈ l, inner Y = true) ∧ (inner X = true ∨ ∃ k, X = .t k) := by
  have h1 : ∀ r : Fin 48, ¬ (r.1 = 0 ∨ r.1 = 1 ∨ r.1 = 2 ∨ r.1 = 5 ∨ r.1 = 6 ∨ r.1 = 8 ∨ r.1 = 15) →
      (rhs r).dropLast.all inner = true ∧ (rhs r).getLast?.all (fun X => inner X || match X with | .t _ => true | _ => false) = true := by
    decide +kernel
  obtain ⟨h2, h3⟩ := h1 r hr
  refine ⟨(rhs r).dropLast, (rhs r).getLast (rhs_ne_nil r), (List.dropLast_append_getLast (rhs_ne_nil r)).symm, ?_, ?_⟩
  · simpa using h2
  · rw [List.getLast?_eq_some_getLast (rhs_ne_nil r), Option.all_some, Bool.or_eq_true] at h3
    rcases h3 with h3 | h3
    · exact Or.inl h3
    · right
      split at h3
      · exact ⟨_, by assumption⟩
      · cases h3

/-- all that is known of an action that throws -/
theorem failing_tells (H : Host F W) {toks : List Tok} (hk : ∀ t ∈ toks, t.kind ≠ .includeKw ∧ t.kind ≠ .pathIdentifier) {D : ℕ}
    {s0 s' : SaneState F W} (f : Failing (saneAct H) D (toks.map lined) s0 s') :
    ∃ lost before deck D0 within part post e, toks = lost ++ (before ++ (within ++ (part ++ post))) ∧
      (lost = [] ∧ (before = [] ∧ deck = [] ∨ IsDeck H.ops before deck) ∧ s0.1.1.run H deck = (true, D0) ∨
        Long D (lost.map (lined (F := F) (W := W)))) ∧ Untouched D0 s'.1.1 ∧
      OneStatement (within ++ part) ∧ s'.1.2 = some e ∧ Tells H D0 s'.1.1 part e := by
  obtain ⟨lost, T, rfl, h1, h2⟩ := List.map_eq_append_iff.1 f.tokens_eq
  obtain ⟨TA, T, rfl, h3, h4⟩ := List.map_eq_append_iff.1 h2
  obtain ⟨TB, post, rfl, h5, h6⟩ := List.map_eq_append_iff.1 h4
  obtain ⟨L, I, hshape, hL, hI⟩ := f.shape
  obtain ⟨AL, AI, hA, hAL, hAI⟩ := split f.A hshape
  have hvA : AL.Valid ∧ AI.Valid := by rw [← valid_append, ← hA]; exact f.validA
  have hyA : TA.map lined = AL.yield ++ AI.yield := by rw [← yield_append, ← hA, h3]
  obtain ⟨TL, TI, rfl, h7, h8⟩ := List.map_eq_append_iff.1 hyA
  obtain ⟨vL, sL, vI, heL, heI⟩ : ∃ vL sL vI, AL.eval (saneAct H) f.start = (some vL, sL) ∧ AI.eval (saneAct H) sL = (some vI, f.s1) := by
    have h9 := f.evalA
    rw [hA, eval_append] at h9
    revert h9
    rcases AL.eval (saneAct H) f.start with ⟨_ | vL, sL⟩
    · intro h9; cases h9
    · simp only
      rcases hAI : AI.eval (saneAct H) sL with ⟨_ | vI, sI⟩
      · intro h9; cases h9
      · intro h9
        exact ⟨vL, sL, vI, rfl, by rw [hAI, (Prod.mk.inj h9).2]⟩
  obtain ⟨t1, t2⟩ := saneAct_none f.throws
  have hr : ¬ (f.rule.1 = 0 ∨ f.rule.1 = 1 ∨ f.rule.1 = 2 ∨ f.rule.1 = 5 ∨ f.rule.1 = 6 ∨ f.rule.1 = 8 ∨ f.rule.1 = 15) :=
    fun hr => never_throws H _ hr _ _ _ t1
  obtain ⟨l, X, hrhs, hl, hX⟩ := rule_ends f.rule hr
  have hq1 : f.s1.1.1 = sL.1.1 := quiet_forest H AI hvA.2 (fun N hN => hI _ (by rw [← hAI]; exact hN)) sL f.s1 vI heI
  have hiB : ∀ N, Sym.n N ∈ f.B.syms → inner (.n N) = true := fun N hN => by
    rw [f.symsB, hrhs] at hN
    rcases List.mem_append.1 hN with hN | hN
    · exact hl _ hN
    · rcases hX with hX | ⟨k, rfl⟩
      · rw [List.mem_singleton.1 hN]
        exact hX
      · simp at hN
  have hq2 : f.s2.1.1 = f.s1.1.1 := quiet_forest H f.B f.validB hiB f.s1 f.s2 f.ws f.evalB
  have hgood := reads_forest H f.B TB f.validB h5.symm hiB f.s1 f.s2 f.ws f.evalB
  rw [f.symsB, ← hq2] at hgood
  have htell0 := tells_rule H f.rule TB f.ws f.s2.1.1 s'.1.1 f.s2.2 (fun t ht => (hk t (by simp [ht])).2) hgood t1
  have htell : ∀ E, E = f.s2.1.1 → Tells H E s'.1.1 TB (excAct H f.rule f.ws f.s2.1.1) := by
    rintro _ rfl
    exact htell0
  replace htell := htell sL.1.1 (hq1.symm.trans hq2.symm)
  have hun : Untouched sL.1.1 s'.1.1 := by
    have := untouched_act H f.rule f.rule.2 _ _ _ t1
    rw [hq2, hq1] at this
    exact this
  have hone : OneStatement (TI ++ TB) := by
    apply oneStatement_of
    have hNI : ∀ t ∈ TI, endsStatement t.kind = false := by
      intro t ht
      refine noEnd_yield AI hvA.2 (by rw [hAI]; exact hI) (lined t) ?_
      rw [← h8]
      exact List.mem_map_of_mem ht
    obtain ⟨B1, B2, hB, hB1, hB2⟩ := split f.B (f.symsB.trans hrhs)
    have hvB : B1.Valid ∧ B2.Valid := by rw [← valid_append, ← hB]; exact f.validB
    have hyB : TB.map lined = B1.yield ++ B2.yield := by rw [← yield_append, ← hB, h5]
    obtain ⟨T1, T2, rfl, g1, g2⟩ := List.map_eq_append_iff.1 hyB
    have hN1 : ∀ t ∈ T1, endsStatement t.kind = false := by
      intro t ht
      refine noEnd_yield B1 hvB.1 (by rw [hB1]; exact hl) (lined t) ?_
      rw [← g1]
      exact List.mem_map_of_mem ht
    have hN2 : ∀ t ∈ T2.dropLast, endsStatement t.kind = false := by
      rcases hX with hX | ⟨k, rfl⟩
      · intro t ht
        refine noEnd_yield B2 hvB.2 (by rw [hB2]; simpa using hX) (lined t) ?_
        rw [← g2]
        exact List.mem_map_of_mem (List.dropLast_subset _ ht)
      · have : T2.length = 1 := by
          rw [← List.length_map (f := lined (F := F) (W := W)), g2]
          cases B2 with
          | nil => cases hB2
          | tok k v rest =>
            cases rest with
            | nil => rfl
            | tok => simp [Forest.syms] at hB2
            | node => simp [Forest.syms] at hB2
          | node => simp [Forest.syms] at hB2
        obtain ⟨t, rfl⟩ := List.length_eq_one_iff.1 this
        simp
    intro t ht
    have ht' : t ∈ TI ++ T1 ++ T2.dropLast := by
      by_cases hT2 : T2 = []
      · subst hT2
        have := List.dropLast_subset _ ht
        simpa using this
      · rw [← List.append_assoc, List.dropLast_append_of_ne_nil hT2] at ht
        exact ht
    rcases List.mem_append.1 ht' with ht' | ht'
    · rcases List.mem_append.1 ht' with ht' | ht'
      · exact hNI t ht'
      · exact hN1 t ht'
    · exact hN2 t ht'
  rcases f.before with ⟨hlost, hstart⟩ | hlong
  · rw [hlost, List.map_eq_nil_iff] at h1
    subst h1
    rw [hstart] at heL
    rcases hL with rfl | rfl
    · cases AL with
      | nil =>
        rw [eval_nil] at heL
        cases heL
        have hTL : TL = [] := by simpa [Forest.yield] using h7
        subst hTL
        exact ⟨[], [], [], _, TI, TB, post, _, rfl, Or.inl ⟨rfl, Or.inl ⟨rfl, rfl⟩, rfl⟩, hun, hone, t2, htell⟩
      | tok => cases hAL
      | node => cases hAL
    · obtain ⟨deck, d1, d2⟩ := executed H AL TL hvA.1 hAL h7.symm (fun t ht => hk t (by simp [ht])) _ _ _ heL
      exact ⟨[], TL, deck, _, TI, TB, post, _, by simp, Or.inl ⟨rfl, Or.inr d1, d2⟩, hun, hone, t2, htell⟩
  · refine ⟨lost, TL, [], sL.1.1, TI, TB, post, _, by simp, Or.inr ?_, hun, hone, t2, htell⟩
    rw [h1]
    exact hlong

end Schnek.Lemma.ParserError
