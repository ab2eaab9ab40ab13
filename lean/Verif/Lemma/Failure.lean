import Verif.Lemma.ParamEval
import Verif.Lemma.Updater

namespace Schnek.Lemma.Failure

open Schnek.Deck Schnek.Spec Schnek.Lemma.Deck Schnek.Lemma.Blocks Relation DeckState

variable {F W : Type}

/-! ## loops that may throw -/

theorem evalParamThrow_ok (H : Host F W) (D E : DeckState F W) (p : BlockParam) : D.evalParamThrow H p = .ok E ↔ D.evalParam H p = some E := by
  unfold evalParamThrow
  rcases D.evalParam H p with _ | E' <;> simp

theorem fold_ok {α β ε : Type} (f : β → α → Option β) (g : β → α → Except ε β) (h : ∀ b a c, g b a = .ok c ↔ f b a = some c) :
    ∀ (l : List α) (b c : β), l.foldlM g b = .ok c ↔ l.foldlM f b = some c := by
  intro l
  induction l with
  | nil => intro b c; simp [pure, Except.pure]
  | cons a l ih =>
      intro b c
      rw [List.foldlM_cons, List.foldlM_cons]
      rcases hf : f b a with _ | d
      · rcases hg : g b a with e | d
        · simp [bind, Except.bind]
        · rw [h, hf] at hg; simp at hg
      · rw [(h b a d).mpr hf]
        exact ih d c

theorem evalBlockThrow_ok (H : Host F W) (D E : DeckState F W) (b : ℕ) : D.evalBlockThrow H b = .ok E ↔ D.evalBlock H b = some E := by
  unfold evalBlockThrow evalBlock
  rcases D.tree.blocks[b]? with _ | B
  · simp
  · exact fold_ok _ _ (fun D p E => evalParamThrow_ok H D E p.2) _ _ _

theorem evaluateParametersThrow_ok (H : Host F W) (D E : DeckState F W) (b : ℕ) :
    D.evaluateParametersThrow H b = .ok E ↔ D.evaluateParameters H b = some E :=
  fold_ok _ _ (fun D b E => evalBlockThrow_ok H D E b) _ _ _

theorem except_foldlM_append {α β ε : Type} (g : β → α → Except ε β) (l l' : List α) (b : β) :
    (l ++ l').foldlM g b = (l.foldlM g b).bind (fun c => l'.foldlM g c) := by
  rw [List.foldlM_append]; rfl

/-! ## the order of parameters -/

/-- the parameters of some blocks, with blocks and names -/
def named (D : DeckState F W) (vs : List ℕ) : List (ℕ × String × BlockParam) :=
  vs.flatMap fun b => (paramOrder ((D.tree.blocks[b]?.map Block.params).getD [])).map fun p => (b, p)

theorem named_params (D : DeckState F W) (vs : List ℕ) : (named D vs).map (·.2.2) = paramsOf D vs := by
  unfold named paramsOf
  rw [List.map_flatMap]
  simp [Function.comp_def]

theorem mem_named (D : DeckState F W) (vs : List ℕ) (k : ℕ) (n : String) (p : BlockParam) :
    (k, n, p) ∈ named D vs ↔ k ∈ vs ∧ HasParam D.tree k n p := by
  unfold named HasParam paramOrder
  simp only [List.mem_flatMap, List.mem_map, List.mem_insertionSort, Prod.exists, Prod.mk.injEq]
  constructor
  · rintro ⟨b, hb, n', p', hm, rfl, rfl, rfl⟩
    refine ⟨hb, ?_⟩
    rcases hB : D.tree.blocks[b]? with _ | B
    · rw [hB] at hm; simp at hm
    · rw [hB] at hm
      exact ⟨B, rfl, hm⟩
  · rintro ⟨hb, B, hB, hm⟩
    refine ⟨k, hb, n, p, ?_, rfl, rfl, rfl⟩
    rw [hB]
    exact hm

theorem named_sorted (D : DeckState F W) (vs : List ℕ) (h : vs.Pairwise (· < ·)) :
    (named D vs).Pairwise fun x y => x.1 < y.1 ∨ (x.1 = y.1 ∧ x.2.1 ≤ y.2.1) := by
  unfold named
  rw [List.pairwise_flatMap]
  constructor
  · intro b _
    rw [List.pairwise_map]
    unfold paramOrder
    have : Std.Total (fun p q : String × BlockParam => p.1 ≤ q.1) := ⟨fun p q => String.le_total p.1 q.1⟩
    have : IsTrans (String × BlockParam) (fun p q => p.1 ≤ q.1) := ⟨fun p q r h h' => String.le_trans h h'⟩
    exact (List.pairwise_insertionSort (fun p q : String × BlockParam => p.1 ≤ q.1) _).imp fun h => Or.inr ⟨rfl, h⟩
  · refine h.imp ?_
    intro a b hab x hx y hy
    simp only [List.mem_map] at hx hy
    obtain ⟨p, -, rfl⟩ := hx
    obtain ⟨q, -, rfl⟩ := hy
    exact Or.inl hab

/-! ## all parameters in one loop -/

theorem evalParams_tree (H : Host F W) : ∀ (l : List BlockParam) (D : DeckState F W),
    (∀ E, l.foldlM (fun D p => evalParamThrow H D p) D = .ok E → E.tree = D.tree) := by
  intro l
  induction l with
  | nil => intro D E h; simp only [List.foldlM_nil, pure, Except.pure, Except.ok.injEq] at h; rw [h]
  | cons p l ih =>
    intro D E h
    rw [List.foldlM_cons] at h
    rcases hp : D.evalParamThrow H p with E1 | D1
    · rw [hp] at h; simp [bind, Except.bind] at h
    · rw [hp] at h
      rw [ih D1 E h]
      rw [evalParamThrow_ok] at hp
      unfold evalParam at hp
      repeat' split at hp
      all_goals first | (simp at hp; done) | (rw [Option.some.injEq] at hp; rw [← hp])

theorem evalBlocksThrow_eq (H : Host F W) (vs : List ℕ) : ∀ D : DeckState F W, (∀ b ∈ vs, b < D.tree.blocks.length) →
    vs.foldlM (evalBlockThrow H) D = (paramsOf D vs).foldlM (fun D p => evalParamThrow H D p) D := by
  induction vs with
  | nil => intro D _; rfl
  | cons b vs ih =>
    intro D hb
    rw [List.foldlM_cons]
    have h1 : evalBlockThrow H D b = ((paramOrder ((D.tree.blocks[b]?.map Block.params).getD [])).map Prod.snd).foldlM
        (fun D p => evalParamThrow H D p) D := by
      unfold evalBlockThrow
      rw [List.getElem?_eq_getElem (hb b (by simp)), List.foldlM_map]
      rfl
    have h2 : paramsOf D (b :: vs) = (paramOrder ((D.tree.blocks[b]?.map Block.params).getD [])).map Prod.snd ++ paramsOf D vs := rfl
    rw [h2, List.foldlM_append, ← h1]
    rcases hE : evalBlockThrow H D b with E | E
    · rfl
    · have ht := evalParams_tree H _ D E (h1 ▸ hE)
      show vs.foldlM (evalBlockThrow H) E = (paramsOf D vs).foldlM _ E
      rw [ih E (by rw [ht]; exact fun c hc => hb c (by simp [hc]))]
      unfold paramsOf
      rw [ht]

theorem evalParamsThrow_spec (H : Host F W) (D : DeckState F W) (l : List BlockParam) (hg : ∀ p ∈ l, Good H D p) (f : ℕ → Val F)
    (E : DeckState F W) (h : l.foldlM (fun D p => evalParamThrow H D p) ({ D with ext := f } : DeckState F W) = .error E) :
    ∃ l₁ p l₂, l = l₁ ++ p :: l₂ ∧ (∀ q ∈ l₁, ¬ Bad H D q) ∧ Bad H D p ∧ E = { D with ext := l₁.foldl (act D) f } := by
  induction l generalizing f with
  | nil => simp [pure, Except.pure] at h
  | cons p l ih =>
    obtain ⟨h1, h2⟩ := evalParam_spec H D f p (hg p (by simp))
    rw [List.foldlM_cons] at h
    by_cases hb : Bad H D p
    · simp only [evalParamThrow, h1 hb, bind, Except.bind, Except.error.injEq] at h
      exact ⟨[], p, l, rfl, by simp, hb, h.symm⟩
    · simp only [evalParamThrow, h2 hb, bind, Except.bind] at h
      obtain ⟨l₁, q, l₂, e1, e2, e3, e4⟩ := ih (fun q hq => hg q (by simp [hq])) (act D f p) h
      refine ⟨p :: l₁, q, l₂, by rw [e1]; rfl, ?_, e3, e4⟩
      intro r hr
      rcases List.mem_cons.mp hr with rfl | hr
      · exact hb
      · exact e2 r hr

end Schnek.Lemma.Failure
