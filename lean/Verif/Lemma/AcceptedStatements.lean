import Verif.Lemma.DeckSeq
import Verif.Lemma.DeckOrder

namespace Schnek.Lemma.Deck

open Schnek.Deck Schnek.Deck.Grammar Schnek.Spec Relation DeckState

variable {F W : Type}

/-- storing built expressions succeeds -/
theorem chain_accepts (H : Host F W) (t : Ty) (D₀ : DeckState F W) : ∀ (l : List (String × Option (Expr F W))),
    (∀ n e, (n, some e) ∈ l → Built (· < D₀.heap.length) e) → ∀ (D : DeckState F W), DInv D → (∃ m, D.heap = D₀.heap ++ m) →
    D.world = D₀.world → ((chain (storeOne H t) l D).1 = true ↔
      (∀ d ∈ l, ∃ e, d.2 = some e ∧ e.ty = t ∧ (e.isConstant D₀.state = true → e.eval H.ops D₀.state ≠ none)) ∧
      (l.map Prod.fst).Nodup ∧ ∀ d ∈ l, ∀ v, ¬ Declares D.store D.store.cursor d.1 v) := by
  intro l
  induction l with
  | nil => intro _ D _ _ _; simp [chain]
  | cons d l ih =>
    intro hl D hD hm hw
    have hI := dinv_storeOne H t D d hD
    obtain ⟨m, hm⟩ := hm
    rw [chain_cons]
    have hone : (storeOne H t D d).1 = true ↔ (∃ e, d.2 = some e ∧ e.ty = t ∧ (e.isConstant D₀.state = true → e.eval H.ops D₀.state ≠ none)) ∧
        ∀ v, ¬ Declares D.store D.store.cursor d.1 v := by
      constructor
      · intro h
        obtain ⟨e, x, st, he, hx, ht, hst, -⟩ := storeOne_true h
        obtain ⟨hl1, hl2⟩ := evaluate_later (H := H) hm hw (hl d.1 e (by rw [← he]; exact List.mem_cons_self))
        refine ⟨⟨e, he, by rw [← (evaluate_typed hx).2.2.1, ht], fun hc => ?_⟩, fun v hv => ?_⟩
        · rw [← hl1] at hc
          rw [← hl2, ((evaluate_spec hx).1 hc).2]
          simp
        · have := (Schnek.Lemma.Vars.varOf_iff hD.store _ _ _).mpr hv
          unfold Storage.addVariable Storage.addVariableTo at hst
          rw [this] at hst
          simp at hst
      · rintro ⟨⟨e, he, ht, hc⟩, hnew⟩
        obtain ⟨hl1, hl2⟩ := evaluate_later (H := H) hm hw (hl d.1 e (by rw [← he]; exact List.mem_cons_self))
        obtain ⟨x, hx⟩ : ∃ x, D.evaluate H e = some x := by
          unfold evaluate
          by_cases hcc : e.isConstant D.state = true
          · rw [if_pos hcc]
            obtain ⟨val, hval⟩ := Option.ne_none_iff_exists'.mp (hc (hl1 ▸ hcc))
            rw [hl2, hval]
            exact ⟨_, rfl⟩
          · rw [if_neg hcc]
            exact ⟨_, rfl⟩
        have hv : D.store.varOf D.store.cursor d.1 = none := by
          rcases hv : D.store.varOf D.store.cursor d.1 with _ | v
          · rfl
          · exact absurd ((Schnek.Lemma.Vars.varOf_iff hD.store _ _ _).mp hv) (hnew v)
        have hty : x.ty = t := (evaluate_typed hx).2.2.1.trans ht
        simp [storeOne, he, hx, hty, Storage.addVariable, Storage.addVariableTo, hv]
    by_cases h1 : (storeOne H t D d).1 = true
    · rw [if_pos h1]
      obtain ⟨e, x, st, he, hx, ht, hst, heq⟩ := storeOne_true h1
      have hcur : (storeOne H t D d).2.store.cursor = D.store.cursor := by
        rw [heq]; exact (Schnek.Lemma.Vars.addVariableTo_cursor hst).1
      have hdec : ∀ b n v, Declares (storeOne H t D d).2.store b n v ↔
          Declares D.store b n v ∨ (b = D.store.cursor ∧ b < D.store.blocks.length ∧ n = d.1 ∧ v = D.heap.length) := by
        rw [heq]; exact Schnek.Lemma.Vars.addVariableTo_declares hst
      rw [ih (fun n e h => hl n e (List.mem_cons_of_mem _ h)) _ hI ⟨m ++ [x], by rw [heq]; show D.heap ++ [x] = _; rw [hm]; simp⟩
        (by rw [heq]; exact hw), hcur]
      obtain ⟨g1, g2⟩ := hone.mp h1
      constructor
      · rintro ⟨b1, b2, b3⟩
        refine ⟨?_, ?_, ?_⟩
        · intro d' hd'
          rcases List.mem_cons.mp hd' with rfl | hd'
          · exact g1
          · exact b1 d' hd'
        · rw [List.map_cons, List.nodup_cons]
          refine ⟨fun hmem => ?_, b2⟩
          obtain ⟨d', hd', hn⟩ := List.mem_map.mp hmem
          exact b3 d' hd' D.heap.length ((hdec _ _ _).mpr (Or.inr ⟨rfl, hD.store.cursor, hn, rfl⟩))
        · intro d' hd' v hv
          rcases List.mem_cons.mp hd' with rfl | hd'
          · exact g2 v hv
          · exact b3 d' hd' v ((hdec _ _ _).mpr (Or.inl hv))
      · rintro ⟨b1, b2, b3⟩
        rw [List.map_cons, List.nodup_cons] at b2
        refine ⟨fun d' hd' => b1 d' (List.mem_cons_of_mem _ hd'), b2.2, fun d' hd' v hv => ?_⟩
        rcases (hdec _ _ _).mp hv with hv | ⟨-, -, hn, -⟩
        · exact b3 d' (List.mem_cons_of_mem _ hd') v hv
        · exact b2.1 (hn ▸ List.mem_map_of_mem hd')
    · rw [if_neg h1]
      refine ⟨fun h => absurd h h1, fun hb => absurd ?_ h1⟩
      exact hone.mpr ⟨hb.1 d List.mem_cons_self, hb.2.2 d List.mem_cons_self⟩

/-- the built expressions belong to the declarations -/
theorem buildAll_list {env : Env F W} : ∀ (ds : List (String × Option (Grammar.Expression F))) l, buildAll env ds = some l →
    List.Forall₂ (fun d d' => d'.1 = d.1 ∧ ((d.2 = none ∧ d'.2 = none) ∨ ∃ g e, d.2 = some g ∧ g.build env = some e ∧ d'.2 = some e)) ds l
  | [], l, h => by
      simp only [buildAll, Option.some.injEq] at h
      subst h
      exact .nil
  | (n, none) :: ds, l, h => by
      simp only [buildAll, Option.map_eq_some_iff] at h
      obtain ⟨l', hl', rfl⟩ := h
      exact .cons ⟨rfl, Or.inl ⟨rfl, rfl⟩⟩ (buildAll_list ds l' hl')
  | (n, some g) :: ds, l, h => by
      simp only [buildAll, Option.bind_eq_some_iff, Option.map_eq_some_iff] at h
      obtain ⟨e, he, l', hl', rfl⟩ := h
      exact .cons ⟨rfl, Or.inr ⟨g, e, rfl, he, rfl⟩⟩ (buildAll_list ds l' hl')

theorem buildAll_none {env : Env F W} : ∀ (ds : List (String × Option (Grammar.Expression F))), buildAll env ds = none →
    ∃ n g, (n, some g) ∈ ds ∧ g.build env = none
  | [], h => by simp [buildAll] at h
  | (n, none) :: ds, h => by
      simp only [buildAll, Option.map_eq_none_iff] at h
      obtain ⟨m, g, hm, hg⟩ := buildAll_none ds h
      exact ⟨m, g, List.mem_cons_of_mem _ hm, hg⟩
  | (n, some g) :: ds, h => by
      rcases hg : g.build env with _ | e
      · exact ⟨n, g, List.mem_cons_self, hg⟩
      · simp only [buildAll, hg, Option.bind_some, Option.map_eq_none_iff] at h
        obtain ⟨m, g', hm, hg'⟩ := buildAll_none ds h
        exact ⟨m, g', List.mem_cons_of_mem _ hm, hg'⟩

end Schnek.Lemma.Deck
