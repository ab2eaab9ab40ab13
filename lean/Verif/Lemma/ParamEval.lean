import Verif.Lemma.ParamSpec

namespace Schnek.Lemma.Blocks

open Schnek.Deck Schnek.Spec Schnek.Lemma.Deck Relation DeckState

variable {F W : Type}

/-- evaluating the parameter is an error -/
def Bad (H : Host F W) (D : DeckState F W) (p : BlockParam) : Prop :=
  ∃ (t : ℕ) (x : Variable F W), p.target = some t ∧ D.heap[p.var]? = some x ∧
    (x.initialised = false ∨ (x.readOnly = false ∧ x.fixed = false ∧ x.expression.bind (·.eval H.ops D.state) = none))

/-- the values of all variables in the file are current -/
def Good (H : Host F W) (D : DeckState F W) (p : BlockParam) : Prop :=
  ∃ x : Variable F W, D.heap[p.var]? = some x ∧ (x.readOnly = false → ∀ e, x.expression = some e →
    externals e = [] ∧ (x.fixed = false → ∀ val, e.eval H.ops D.state = some val → val = x.value))

/-- what evaluating the parameter does -/
def act (D : DeckState F W) (f : ℕ → Val F) (p : BlockParam) : ℕ → Val F :=
  match p.target, D.heap[p.var]? with
  | some t, some x => if x.readOnly then f else Function.update f t x.value
  | _, _ => f

theorem evalParam_spec (H : Host F W) (D : DeckState F W) (f : ℕ → Val F) (p : BlockParam) (hg : Good H D p) :
    (Bad H D p → ({ D with ext := f } : DeckState F W).evalParam H p = none) ∧
    (¬ Bad H D p → ({ D with ext := f } : DeckState F W).evalParam H p = some { D with ext := act D f p }) := by
  obtain ⟨x, hx, hgood⟩ := hg
  have hev : ∀ e : Expr F W, externals e = [] → e.eval H.ops ({ D with ext := f } : DeckState F W).state = e.eval H.ops D.state := by
    intro e he
    refine Props.C32_dependencies_complete H.ops D.state _ e (fun _ _ => rfl) ?_ (fun _ => rfl)
    rw [he]; simp
  unfold evalParam act
  rcases ht : p.target with _ | t
  · refine ⟨?_, fun _ => rfl⟩
    rintro ⟨t, x, h, -⟩
    rw [ht] at h; simp at h
  · simp only [hx]
    by_cases hi : x.initialised = false
    · simp only [hi, if_true]
      refine ⟨fun _ => trivial, ?_⟩
      intro h
      exact absurd ⟨t, x, ht, hx, Or.inl hi⟩ h
    · rw [if_neg hi]
      by_cases hr : x.readOnly = true
      · simp only [hr, if_true]
        refine ⟨?_, fun _ => trivial⟩
        rintro ⟨t', x', -, h2, h3⟩
        rw [hx, Option.some.injEq] at h2
        subst h2
        rcases h3 with h3 | ⟨h3, -⟩
        · exact absurd h3 hi
        · rw [hr] at h3; simp at h3
      · rw [if_neg hr, if_neg hr]
        have hr' : x.readOnly = false := by simpa using hr
        by_cases hf : x.fixed = true
        · simp only [hf, if_true]
          refine ⟨?_, fun _ => trivial⟩
          rintro ⟨t', x', -, h2, h3⟩
          rw [hx, Option.some.injEq] at h2
          subst h2
          rcases h3 with h3 | ⟨-, h3, -⟩
          · exact absurd h3 hi
          · rw [hf] at h3; simp at h3
        · rw [if_neg hf]
          have hf' : x.fixed = false := by simpa using hf
          have hbad : Bad H D p ↔ x.expression.bind (·.eval H.ops D.state) = none := by
            constructor
            · rintro ⟨t', x', -, h2, h3⟩
              rw [hx, Option.some.injEq] at h2
              subst h2
              rcases h3 with h3 | ⟨-, -, h3⟩
              · exact absurd h3 hi
              · exact h3
            · intro h
              exact ⟨t, x, ht, hx, Or.inr ⟨hr', hf', h⟩⟩
          rw [hbad]
          rcases he : x.expression with _ | e
          · simp
          · obtain ⟨h1, h2⟩ := hgood hr' e he
            simp only [Option.bind_some, hev e h1]
            rcases hv : e.eval H.ops D.state with _ | val
            · simp
            · have := h2 hf' val hv
              subst this
              simp only [reduceCtorEq, false_implies, not_false_eq_true, true_implies, true_and]
              have hset : D.heap.set p.var x = D.heap := by
                apply List.ext_getElem?
                intro i
                rw [List.getElem?_set]
                split
                · rename_i h
                  subst h
                  rw [hx]
                  split
                  · rfl
                  · rename_i hlt
                    exact absurd (List.getElem?_eq_some_iff.mp hx).1 hlt
                · rfl
              have hx' : (⟨some e, x.value, x.ty, x.fixed, x.initialised, x.readOnly, x.id⟩ : Variable F W) = x := by rw [← he]
              rw [hx', hset]

theorem evalParams_spec (H : Host F W) (D : DeckState F W) (l : List BlockParam) (hg : ∀ p ∈ l, Good H D p) (f : ℕ → Val F) :
    ((∃ p ∈ l, Bad H D p) → l.foldlM (fun D p => D.evalParam H p) ({ D with ext := f } : DeckState F W) = none) ∧
    ((∀ p ∈ l, ¬ Bad H D p) → l.foldlM (fun D p => D.evalParam H p) ({ D with ext := f } : DeckState F W) =
      some { D with ext := l.foldl (act D) f }) := by
  induction l generalizing f with
  | nil => simp
  | cons p l ih =>
    obtain ⟨h1, h2⟩ := evalParam_spec H D f p (hg p (by simp))
    obtain ⟨h3, h4⟩ := ih (fun p hp => hg p (by simp [hp])) (act D f p)
    rw [List.foldlM_cons]
    by_cases hb : Bad H D p
    · rw [h1 hb]
      exact ⟨fun _ => rfl, fun h => absurd hb (h p (by simp))⟩
    · rw [h2 hb]
      refine ⟨?_, ?_⟩
      · rintro ⟨p', hp', hb'⟩
        rcases List.mem_cons.mp hp' with rfl | hp'
        · exact absurd hb' hb
        · exact h3 ⟨p', hp', hb'⟩
      · intro h
        exact h4 fun p' hp' => h p' (by simp [hp'])

theorem foldl_act (D : DeckState F W) (l : List BlockParam) (f : ℕ → Val F) (t : ℕ) :
    ((∀ p ∈ l, ∀ x : Variable F W, p.target = some t → D.heap[p.var]? = some x → x.readOnly = true) → l.foldl (act D) f t = f t) ∧
    ∀ p ∈ l, ∀ x : Variable F W, p.target = some t → D.heap[p.var]? = some x → x.readOnly = false →
      (∀ p' ∈ l, p'.target = some t → p' = p) → l.foldl (act D) f t = x.value := by
  induction l using List.reverseRecOn with
  | nil => simp
  | append_singleton l q ih =>
    obtain ⟨ih1, ih2⟩ := ih
    rw [List.foldl_append, List.foldl_cons, List.foldl_nil]
    refine ⟨?_, ?_⟩
    · intro h
      rw [← ih1 fun p hp => h p (by simp [hp])]
      unfold act
      rcases ht : q.target with _ | t' <;> rcases hx : D.heap[q.var]? with _ | x <;> simp only []
      by_cases hr : x.readOnly = true
      · rw [if_pos hr]
      · rw [if_neg hr, Function.update_of_ne]
        rintro rfl
        exact hr (h q (by simp) x ht hx)
    · intro p hp x ht hx hr huniq
      by_cases hq : q.target = some t
      · have : q = p := huniq q (by simp) hq
        subst this
        unfold act
        simp only [ht, hx, hr]
        simp
      · have hpl : p ∈ l := by
          rcases List.mem_append.mp hp with hp | hp
          · exact hp
          · rw [List.mem_singleton] at hp
            subst hp
            exact absurd ht hq
        rw [← ih2 p hpl x ht hx hr fun p' hp' => huniq p' (by simp [hp'])]
        unfold act
        rcases ht' : q.target with _ | t' <;> rcases hx' : D.heap[q.var]? with _ | x' <;> simp only []
        split
        · rfl
        · rw [Function.update_of_ne]
          rintro rfl
          exact hq ht'

/-- all parameters of some blocks -/
def paramsOf (D : DeckState F W) (vs : List ℕ) : List BlockParam :=
  vs.flatMap fun b => (paramOrder ((D.tree.blocks[b]?.map Block.params).getD [])).map Prod.snd

theorem mem_paramsOf (D : DeckState F W) (vs : List ℕ) (p : BlockParam) :
    p ∈ paramsOf D vs ↔ ∃ b ∈ vs, ∃ n, HasParam D.tree b n p := by
  unfold paramsOf HasParam paramOrder
  simp only [List.mem_flatMap, List.mem_map, List.mem_insertionSort, Prod.exists]
  constructor
  · rintro ⟨b, hb, n, p', hm, rfl⟩
    rcases hB : D.tree.blocks[b]? with _ | B
    · rw [hB] at hm; simp at hm
    · rw [hB] at hm
      exact ⟨b, hb, n, B, hB, hm⟩
  · rintro ⟨b, hb, n, B, hB, hm⟩
    refine ⟨b, hb, n, p, ?_, rfl⟩
    rw [hB]
    exact hm

theorem evalBlocks_eq (H : Host F W) (vs : List ℕ) : ∀ D : DeckState F W, (∀ b ∈ vs, b < D.tree.blocks.length) →
    vs.foldlM (evalBlock H) D = (paramsOf D vs).foldlM (fun D p => D.evalParam H p) D := by
  have htree : ∀ (l : List BlockParam) (D E : DeckState F W), l.foldlM (fun D p => D.evalParam H p) D = some E → E.tree = D.tree := by
    intro l
    induction l with
    | nil => intro D E h; simp only [List.foldlM_nil, Option.pure_def, Option.some.injEq] at h; rw [h]
    | cons p l ih =>
      intro D E h
      rw [List.foldlM_cons] at h
      rcases hp : D.evalParam H p with _ | D1
      · rw [hp] at h; simp at h
      · rw [hp] at h
        rw [ih D1 E h]
        unfold evalParam at hp
        repeat' split at hp
        all_goals first | (simp at hp; done) | (rw [Option.some.injEq] at hp; rw [← hp])
  induction vs with
  | nil => intro D _; rfl
  | cons b vs ih =>
    intro D hb
    rw [List.foldlM_cons]
    have h1 : evalBlock H D b = ((paramOrder ((D.tree.blocks[b]?.map Block.params).getD [])).map Prod.snd).foldlM
        (fun D p => D.evalParam H p) D := by
      unfold evalBlock
      rw [List.getElem?_eq_getElem (hb b (by simp)), List.foldlM_map]
      rfl
    have h2 : paramsOf D (b :: vs) = (paramOrder ((D.tree.blocks[b]?.map Block.params).getD [])).map Prod.snd ++ paramsOf D vs := rfl
    rw [h2, List.foldlM_append, ← h1]
    rcases hE : evalBlock H D b with _ | E
    · rfl
    · have ht := htree _ D E (h1 ▸ hE)
      show vs.foldlM (evalBlock H) E = (paramsOf D vs).foldlM _ E
      rw [ih E (by rw [ht]; exact fun c hc => hb c (by simp [hc]))]
      unfold paramsOf
      rw [ht]

/-- what is known about the parameter for `q` after the file has been read -/
def ParamGood (H : Host F W) (D : DeckState F W) (c : ℕ) (q : ParamSpec F) (p : BlockParam) : Prop :=
  p.target.isSome = !q.constant ∧ Declares D.store c q.name p.var ∧ Good H D p ∧ ∃ x : Variable F W, D.heap[p.var]? = some x ∧
    x.ty = q.current.ty ∧ x.readOnly = (q.constant || q.readOnly) ∧ Typed x ∧ D.state.value p.var = x.value

theorem paramGood_of {P : Program F W} {deck : List (Stmt F)} {D' : DeckState F W} (h : P.begin.parse P.host deck = some D')
    {c : ℕ} {q : ParamSpec F} {p : BlockParam} (hp : ParamOk (P.after deck) c q p) : ParamGood P.host D' c q p := by
  obtain ⟨c1, c2, c3, -⟩ := Props.C59_values_current P deck D' h
  obtain ⟨h1, h2, x, hx, hty, hro⟩ := hp
  obtain ⟨val, hval, hor⟩ := c2 p.var x hx
  have htyped := (dinv_after P deck).typed p.var x hx
  have hst : D'.state.value p.var = val := by
    show (D'.heap[p.var]?.map Variable.value).getD (.int 0) = val
    rw [hval]; rfl
  refine ⟨h1, by rw [c3]; exact h2, ⟨_, hval, ?_⟩, _, hval, hty, hro, ⟨?_, htyped.2⟩, hst⟩
  · intro hr e he
    refine ⟨?_, ?_⟩
    · rcases (pinv_after P deck).ext p.var x e hx he with h | h
      · exact h
      · rw [show x.readOnly = false from hr] at h; simp at h
    · intro hf v hv
      rcases c1 p.var e ⟨⟨c, q.name, h2⟩, x, hx, hf, he⟩ with hc | ⟨hc, -⟩
      · rw [hv, Option.some.injEq, hst] at hc
        exact hc
      · rw [hv] at hc; simp at hc
  · intro hf
    have : val = x.value := by
      rcases hor with h | ⟨e, -, x', hx', hf', -⟩
      · exact h
      · rw [hx, Option.some.injEq] at hx'
        subst hx'
        rw [show x.fixed = true from hf] at hf'
        simp at hf'
    show val.ty = x.ty
    rw [this]
    exact htyped.1 hf

theorem param_info {P : Program F W} (hnames : DistinctNames P.classes) {deck : List (Stmt F)} {D' : DeckState F W}
    (h : P.begin.parse P.host deck = some D') (k : ℕ) (B : Block) (hB : D'.tree.blocks[k]? = some B) :
    ∃ (Bv : BlockVars) (d : ClassDesc F) (specs : List (ParamSpec F)), D'.store.blocks[B.context]? = some Bv ∧
      P.classes.lookup Bv.className = some d ∧ d.factory = some specs ∧
      (∀ q ∈ specs, ∃ p, (q.name, p) ∈ B.params ∧ ParamGood P.host D' B.context q p) ∧
      ∀ n p, (n, p) ∈ B.params → ∃ q ∈ specs, q.name = n ∧ ParamGood P.host D' B.context q p := by
  obtain ⟨-, -, c3, c4, -⟩ := Props.C59_values_current P deck D' h
  rw [c4] at hB
  obtain ⟨Bv, d, specs, h1, h2, h3, h4, h5⟩ := (sinv_after P hnames deck).blocks k B hB
  refine ⟨Bv, d, specs, by rw [c3]; exact h1, h2, h3, ?_, ?_⟩
  · intro q hq
    obtain ⟨p, hp1, hp2⟩ := h4 q hq
    exact ⟨p, hp1, paramGood_of h hp2⟩
  · intro n p hp
    obtain ⟨q, hq, hn, hp⟩ := h5 n p hp
    exact ⟨q, hq, hn, paramGood_of h hp⟩

/-- the parameters of `b` and the blocks below -/
theorem params_below {P : Program F W} {deck : List (Stmt F)} {D' : DeckState F W}
    (h : P.begin.parse P.host deck = some D') (b : ℕ) (hb : b < D'.tree.blocks.length) :
    (∀ p, p ∈ paramsOf D' (D'.tree.visit D'.tree.blocks.length b) ↔ ∃ k n, Below D'.tree b k ∧ HasParam D'.tree k n p) ∧
    D'.evaluateParameters P.host b = (paramsOf D' (D'.tree.visit D'.tree.blocks.length b)).foldlM (fun D p => D.evalParam P.host p) D' ∧
    (∀ k n p k' n' p' t, HasParam D'.tree k n p → HasParam D'.tree k' n' p' → p.target = some t → p'.target = some t →
      k = k' ∧ n = n' ∧ p = p') := by
  obtain ⟨-, -, -, c4, -⟩ := Props.C59_values_current P deck D' h
  have hok : Ok D'.tree := by rw [c4]; exact ok_after P deck
  obtain ⟨h1, -⟩ := visit_spec hok D'.tree.blocks.length b hb (by omega)
  refine ⟨?_, ?_, ?_⟩
  · intro p
    rw [mem_paramsOf]
    constructor
    · rintro ⟨k, hk, n, hp⟩
      exact ⟨k, n, (h1 k).mp hk, hp⟩
    · rintro ⟨k, n, hk, hp⟩
      exact ⟨k, (h1 k).mpr hk, n, hp⟩
  · exact evalBlocks_eq P.host _ D' fun k hk => (below_lt ((h1 k).mp hk)).elim (fun e => e ▸ hb) id
  · rw [c4]
    exact (pinv_after P deck).inj

end Schnek.Lemma.Blocks
