import Verif.Lemma.ParamSpec

/-!
The definitions of a setup file mention declared variables only, and only read-only parameters look at variables of the program.
-/

namespace Schnek.Lemma.Blocks

open Schnek.Deck Schnek.Spec Schnek.Lemma.Deck Relation DeckState

variable {F W : Type}

/-- about the definitions and the parameters `A` -/
structure RInv (D : DeckState F W) (A : ℕ → String → BlockParam → Prop) : Prop where
  mention : ∀ (v : ℕ) (x : Variable F W) e, D.heap[v]? = some x → x.expression = some e → ∀ u ∈ mentioned e, Declared D u
  held : ∀ (v : ℕ) (x : Variable F W), D.heap[v]? = some x → x.readOnly = true → x.fixed = false →
    ∃ ty t k n p, x.expression = some (.ext ty t) ∧ A k n p ∧ p.var = v ∧ p.target = some t
  own : ∀ k n p t (x : Variable F W), A k n p → p.target = some t → D.heap[p.var]? = some x → x.readOnly = true →
    x.fixed = false ∧ ∃ ty, x.expression = some (.ext ty t)

theorem RInv.mono {D D' : DeckState F W} {A A' : ℕ → String → BlockParam → Prop} (h : RInv D A)
    (hA : ∀ k n p, A k n p ↔ A' k n p) (hb : ∀ k n p, A k n p → p.var < D.heap.length) (hk : Keeps D D')
    (hg : ∀ u, Declared D u → Declared D' u)
    (hnew : ∀ (v : ℕ) (x : Variable F W), D'.heap[v]? = some x → D.heap[v]? = some x ∨
      (x.readOnly = false ∧ ∀ e, x.expression = some e → ∀ u ∈ mentioned e, Declared D' u)) : RInv D' A' := by
  refine ⟨?_, ?_, ?_⟩
  · intro v x e hx he u hu
    rcases hnew v x hx with h' | ⟨-, h'⟩
    · exact hg u (h.mention v x e h' he u hu)
    · exact h' e he u hu
  · intro v x hx hr hf
    rcases hnew v x hx with h' | ⟨h', -⟩
    · obtain ⟨ty, t, k, n, p, h1, h2, h3⟩ := h.held v x h' hr hf
      exact ⟨ty, t, k, n, p, h1, (hA k n p).mp h2, h3⟩
    · rw [hr] at h'; simp at h'
  · intro k n p t x hp ht hx hr
    have hp := (hA k n p).mpr hp
    rcases hnew _ x hx with h' | ⟨h', -⟩
    · exact h.own k n p t x hp ht h' hr
    · rw [hr] at h'; simp at h'

theorem rinv_addParameter (H : Host F W) (c K : ℕ) (s : DeckState F W × List (String × BlockParam)) (q : ParamSpec F)
    {A : ℕ → String → BlockParam → Prop} (hp : PInv s.1 (fun k n p => A k n p ∨ (k = K ∧ (n, p) ∈ s.2)))
    (h : RInv s.1 (fun k n p => A k n p ∨ (k = K ∧ (n, p) ∈ s.2))) (hn : q.name ∉ s.2.map Prod.fst) :
    RInv (addParameter H c s q).1 (fun k n p => A k n p ∨ (k = K ∧ (n, p) ∈ (addParameter H c s q).2)) := by
  have hlist : ∀ n p, (n, p) ∈ (addParameter H c s q).2 ↔ (n, p) ∈ s.2 ∨
      (n = q.name ∧ p = ⟨s.1.heap.length, if q.constant then none else some s.1.nextExt⟩) := by
    intro n p
    show (n, p) ∈ setParam s.2 q.name _ ↔ _
    unfold setParam
    simp only [List.mem_append, List.mem_filter, List.mem_singleton, Prod.mk.injEq, decide_not, Bool.not_eq_eq_eq_not,
      Bool.not_true, decide_eq_false_iff_not]
    constructor
    · rintro (⟨h, -⟩ | h)
      · exact Or.inl h
      · exact Or.inr h
    · rintro (h | h)
      · refine Or.inl ⟨h, ?_⟩
        rintro rfl
        exact hn (List.mem_map_of_mem h)
      · exact Or.inr h
  have hheap : (addParameter H c s q).1.heap = s.1.heap ++ [paramVariable H q s.1.nextExt s.1.nextId] := rfl
  have hg : ∀ u, Declared s.1 u → Declared (addParameter H c s q).1 u := by
    rintro u ⟨b, n, hd⟩
    exact ⟨b, n, (grows_addParameter H c s q).declares hd⟩
  refine ⟨?_, ?_, ?_⟩
  · intro v x e hx he u hu
    rw [hheap] at hx
    rcases get_push hx with hx | ⟨-, rfl⟩
    · exact hg u (h.mention v x e hx he u hu)
    · exfalso
      unfold paramVariable at he
      split at he
      · simp [Variable.ofValue] at he
      · split at he
        · simp only [Variable.ofExpr, Option.some.injEq] at he
          rw [← he] at hu
          simp [mentioned] at hu
        · simp [Variable.ofValue] at he
  · intro v x hx hr hf
    rw [hheap] at hx
    rcases get_push hx with hx | ⟨hv, rfl⟩
    · obtain ⟨ty, t, k, n, p, h1, h2, h3⟩ := h.held v x hx hr hf
      refine ⟨ty, t, k, n, p, h1, ?_, h3⟩
      rcases h2 with h2 | ⟨h2, h2'⟩
      · exact Or.inl h2
      · exact Or.inr ⟨h2, (hlist n p).mpr (Or.inl h2')⟩
    · by_cases hc : q.constant = true
      · rw [paramVariable, if_pos hc] at hf
        simp [Variable.ofValue] at hf
      · by_cases hro : q.readOnly = true
        · refine ⟨q.current.ty, s.1.nextExt, K, q.name, _, ?_, Or.inr ⟨rfl, (hlist _ _).mpr (Or.inr ⟨rfl, rfl⟩)⟩, hv.symm, ?_⟩
          · rw [paramVariable, if_neg hc, if_pos hro]
            rfl
          · simp only
            rw [if_neg hc]
        · rw [paramVariable, if_neg hc, if_neg hro] at hf
          simp [Variable.ofValue] at hf
  · intro k n p t x hA ht hx hr
    rw [hheap] at hx
    have hcase : (A k n p ∨ (k = K ∧ (n, p) ∈ s.2)) ∨ p = ⟨s.1.heap.length, if q.constant then none else some s.1.nextExt⟩ := by
      rcases hA with hA | ⟨hk, hA⟩
      · exact Or.inl (Or.inl hA)
      · rcases (hlist n p).mp hA with hA | ⟨-, hA⟩
        · exact Or.inl (Or.inr ⟨hk, hA⟩)
        · exact Or.inr hA
    rcases hcase with hA | rfl
    · have := (hp.bound k n p hA).1
      rw [List.getElem?_append_left this] at hx
      exact h.own k n p t x hA ht hx hr
    · simp only [List.getElem?_concat_length, Option.some.injEq] at hx
      simp only at ht
      split at ht
      · simp at ht
      · rename_i hc
        rw [Option.some.injEq] at ht
        subst ht
        rw [← hx] at hr ⊢
        by_cases hro : q.readOnly = true
        · rw [paramVariable, if_neg hc, if_pos hro]
          exact ⟨rfl, _, rfl⟩
        · rw [paramVariable, if_neg hc, if_neg hro] at hr
          simp [Variable.ofValue] at hr

theorem rinv_params (H : Host F W) (c K : ℕ) (specs : List (ParamSpec F)) {A : ℕ → String → BlockParam → Prop} :
    ∀ s : DeckState F W × List (String × BlockParam), PInv s.1 (fun k n p => A k n p ∨ (k = K ∧ (n, p) ∈ s.2)) →
      RInv s.1 (fun k n p => A k n p ∨ (k = K ∧ (n, p) ∈ s.2)) → (specs.map ParamSpec.name).Nodup →
      (∀ q ∈ specs, q.name ∉ s.2.map Prod.fst) →
      RInv (specs.foldl (addParameter H c) s).1 (fun k n p => A k n p ∨ (k = K ∧ (n, p) ∈ (specs.foldl (addParameter H c) s).2)) := by
  induction specs with
  | nil => intro s _ h _ _; exact h
  | cons q qs ih =>
    intro s hp h hnd hnew
    rw [List.map_cons, List.nodup_cons] at hnd
    rw [List.foldl_cons]
    refine ih _ (pinv_addParameter H c K s q hp) (rinv_addParameter H c K s q hp h (hnew q (by simp))) hnd.2 ?_
    intro q' hq' hm
    obtain ⟨⟨n, p⟩, hm, he⟩ := List.mem_map.mp hm
    simp only at he
    subst he
    have : (q'.name, p) ∈ setParam s.2 q.name _ := hm
    unfold setParam at this
    simp only [List.mem_append, List.mem_filter, List.mem_singleton, Prod.mk.injEq] at this
    rcases this with ⟨h1, -⟩ | ⟨h1, -⟩
    · exact hnew q' (by simp [hq']) (List.mem_map_of_mem h1)
    · exact hnd.1 (h1 ▸ List.mem_map_of_mem hq')

theorem addChild_params (T : BlockTree) (B : Block) (k : ℕ) (n : String) (p : BlockParam) :
    HasParam (T.addChild B) k n p ↔ HasParam T k n p ∨ (k = T.blocks.length ∧ (n, p) ∈ B.params) := by
  constructor
  · rintro ⟨A, hA, hp⟩
    rcases addChild_get T B k A hA with ⟨A', hA', -, -, he⟩ | ⟨hk, -, -, he⟩
    · exact Or.inl ⟨A', hA', he ▸ hp⟩
    · exact Or.inr ⟨hk, he ▸ hp⟩
  · have hlast : ∃ A : Block, (T.addChild B).blocks[T.blocks.length]? = some A ∧ A.params = B.params := by
      unfold BlockTree.addChild
      rcases T.cursor with _ | c
      · exact ⟨_, List.getElem?_concat_length, rfl⟩
      · refine ⟨{ B with parent := some c }, ?_, rfl⟩
        simp
    rintro (⟨A, hA, hp⟩ | ⟨rfl, hp⟩)
    · have hlt := (List.getElem?_eq_some_iff.mp hA).1
      have : ∃ A' : Block, (T.addChild B).blocks[k]? = some A' ∧ A'.params = A.params := by
        unfold BlockTree.addChild
        rcases T.cursor with _ | c
        · exact ⟨A, by simp only; rw [List.getElem?_append_left hlt]; exact hA, rfl⟩
        · simp only
          rw [List.getElem?_append_left (by simpa using hlt), List.getElem?_modify, hA]
          simp only [Option.map_eq_map, Option.map_some, Option.some.injEq, exists_eq_left']
          split <;> rfl
      obtain ⟨A', h1, h2⟩ := this
      exact ⟨A', h1, h2 ▸ hp⟩
    · obtain ⟨A, h1, h2⟩ := hlast
      exact ⟨A, h1, h2 ▸ hp⟩

theorem rinv_enterBlock {classes : List (String × ClassDesc F)} (hdist : DistinctNames classes) (H : Host F W) (D : DeckState F W)
    (n c : String) (hs : SInv classes D) (hp : PInv D (HasParam D.tree)) (h : RInv D (HasParam D.tree)) :
    RInv (enterBlock H D n c) (HasParam (enterBlock H D n c).tree) := by
  obtain ⟨l, hl, hl2, dd, hfind, hdd⟩ := getClass_snd D c
  obtain ⟨l0, hl0, hl0'⟩ := hs.known
  have e1 : (D.getClass c).2.heap = D.heap := by rw [hl]
  have e2 : (D.getClass c).2.tree = D.tree := by rw [hl]
  have e3 : (D.getClass c).2.nextExt = D.nextExt := by rw [hl]
  have e4 : (D.getClass c).2.store = D.store := by rw [hl]
  have hd : ∀ specs, (D.getClass c).1.factory = some specs → classes.lookup c = some (D.getClass c).1 := by
    intro specs hs
    rw [hdd] at hs ⊢
    unfold find at hfind
    rw [hl0, List.append_assoc, List.lookup_append] at hfind
    rcases hlk : classes.lookup c with _ | d'
    · rw [hlk, Option.none_or] at hfind
      have hmem : (c, dd) ∈ l0 ++ l := lookup_mem hfind
      rw [List.mem_append] at hmem
      rcases hmem with hm | hm
      · have := hl0' _ hm; rw [hs] at this; simp at this
      · have := hl2 _ hm; rw [hs] at this; simp at this
    · rw [hlk, Option.some_or] at hfind
      exact hfind
  have hsame : ∀ A : ℕ → String → BlockParam → Prop, (∀ k n p, HasParam D.tree k n p ↔ A k n p) →
      ∀ T, RInv ({ (D.getClass c).2 with tree := T } : DeckState F W) A := by
    intro A hA T
    refine h.mono hA (fun k n p hq => (hp.bound k n p hq).1) (Keeps.of_eq e1) ?_ ?_
    · rintro u ⟨b, m, hu⟩
      exact ⟨b, m, by rw [show ({ (D.getClass c).2 with tree := T } : DeckState F W).store = D.store from e4]; exact hu⟩
    · intro v x hx
      left
      rw [← e1]; exact hx
  rcases hf : (D.getClass c).1.factory with _ | specs
  · rw [enterBlock_none H D n c hf]
    apply hsame
    intro k n p
    show _ ↔ HasParam (D.getClass c).2.tree.moveDown k n p
    rw [e2]
    rfl
  · rw [enterBlock_some H D n c specs hf]
    have h0 : PInv (D.getClass c).2 (fun k n p => HasParam D.tree k n p ∨ (k = D.tree.blocks.length ∧ (n, p) ∈ ([] : List (String × BlockParam)))) := by
      refine hp.congr ?_ (by rw [e1]) (by rw [e3]) (by rw [e1]; exact hp.ext)
      rintro k n p (hp | ⟨-, hp⟩)
      · exact hp
      · simp at hp
    have r0 : RInv (D.getClass c).2 (fun k n p => HasParam D.tree k n p ∨ (k = D.tree.blocks.length ∧ (n, p) ∈ ([] : List (String × BlockParam)))) := by
      refine hsame _ ?_ (D.getClass c).2.tree
      intro k n p
      simp
    have h1 := rinv_params H (D.getClass c).2.store.cursor D.tree.blocks.length specs ((D.getClass c).2, []) h0 r0
      (hdist c _ specs (hd specs hf) hf) (by simp)
    have p1 := pinv_params H (D.getClass c).2.store.cursor D.tree.blocks.length specs ((D.getClass c).2, []) h0
    refine h1.mono ?_ (fun k n p hq => (p1.bound k n p hq).1) (Keeps.of_eq rfl) (fun u hu => hu) (fun v x hx => Or.inl hx)
    intro k m p
    rw [addChild_params, params_tree, e2]

theorem leads_declared {D : DeckState F W} {b : ℕ} {path : List String} {v : Var} (h : Leads D.store b path v) : Declared D v := by
  induction h with
  | var h => exact ⟨_, _, h⟩
  | child _ _ ih => exact ih

theorem build_declared {H : Host F W} {D : DeckState F W} (hinv : Vars.Inv D.store) {g : Grammar.Expression F} {e : Expr F W}
    (h : g.build (D.env H) = some e) : Built (Declared D) e := by
  refine build_expression (D.env H) ?_ g e h
  intro n p hp
  obtain ⟨hv, -⟩ := env_lookup hp
  rw [Vars.getVariable_iff hinv _ hinv.cursor _ n (written_splitName ':' n)] at hv
  obtain ⟨_, _, _, _, h⟩ := hv
  exact leads_declared h

theorem evaluate_mentioned {H : Host F W} {D : DeckState F W} {e : Expr F W} {x : Variable F W} (h : D.evaluate H e = some x)
    (e' : Expr F W) (hx : x.expression = some e') : e' = e := by
  unfold evaluate at h
  split at h
  · simp only [Option.map_eq_some_iff] at h
    obtain ⟨val, -, rfl⟩ := h
    simp [Variable.ofValue] at hx
  · simp only [Option.some.injEq] at h
    rw [← h] at hx
    simp only [Variable.ofExpr, Option.some.injEq] at hx
    exact hx.symm

theorem evaluate_writable {H : Host F W} {D : DeckState F W} {e : Expr F W} {x : Variable F W} (h : D.evaluate H e = some x) :
    x.readOnly = false := by
  unfold evaluate at h
  split at h
  · simp only [Option.map_eq_some_iff] at h
    obtain ⟨val, -, rfl⟩ := h
    rfl
  · simp only [Option.some.injEq] at h
    rw [← h]; rfl

theorem buildAll_declared {H : Host F W} {D : DeckState F W} (hinv : Vars.Inv D.store) :
    ∀ (ds : List (String × Option (Grammar.Expression F))) l, buildAll (D.env H) ds = some l →
      ∀ n e, (n, some e) ∈ l → Built (Declared D) e
  | [], l, h => by
      simp only [buildAll, Option.some.injEq] at h
      subst h
      simp
  | (n, none) :: ds, l, h => by
      simp only [buildAll, Option.map_eq_some_iff] at h
      obtain ⟨l', hl', rfl⟩ := h
      intro m e hm
      simp only [List.mem_cons, Prod.mk.injEq, reduceCtorEq, and_false, false_or] at hm
      exact buildAll_declared hinv ds l' hl' m e hm
  | (n, some g) :: ds, l, h => by
      simp only [buildAll, Option.bind_eq_some_iff, Option.map_eq_some_iff] at h
      obtain ⟨x, hx, l', hl', rfl⟩ := h
      intro m e hm
      simp only [List.mem_cons, Prod.mk.injEq, Option.some.injEq] at hm
      rcases hm with ⟨-, rfl⟩ | hm
      · exact build_declared hinv hx
      · exact buildAll_declared hinv ds l' hl' m e hm

theorem rinv_step {classes : List (String × ClassDesc F)} (hdist : DistinctNames classes) (H : Host F W) (D : DeckState F W)
    (hinv : Vars.Inv D.store) (hs : SInv classes D) (hp : PInv D (HasParam D.tree)) (h : RInv D (HasParam D.tree)) (s : Stmt F) :
    RInv (D.step H s).2 (HasParam (D.step H s).2.tree) := by
  have hbound := fun k n p hq => (hp.bound k n p hq).1
  cases s with
  | decl t ds =>
    show RInv (D.declare H t ds).2 (HasParam (D.declare H t ds).2.tree)
    have hk : Keeps D (D.declare H t ds).2 := declare_keeps H D t ds
    have hx : (∀ u, Declared D u → Declared (D.declare H t ds).2 u) ∧
        ∀ (v : ℕ) (x : Variable F W), (D.declare H t ds).2.heap[v]? = some x → D.heap[v]? = some x ∨
          (x.readOnly = false ∧ ∀ e, x.expression = some e → ∀ u ∈ mentioned e, Declared D u) := by
      unfold declare
      rcases hl : buildAll (D.env H) ds with _ | l
      · exact ⟨fun _ h => h, fun _ _ h => Or.inl h⟩
      · have hb := buildAll_declared hinv ds l hl
        simp only
        have : ∀ (l : List (String × Option (Expr F W))) (E : DeckState F W), (∀ n e, (n, some e) ∈ l → Built (Declared D) e) →
            (∀ u, Declared E u → Declared (chain (storeOne H t) l E).2 u) ∧ ∀ (v : ℕ) (x : Variable F W),
              (chain (storeOne H t) l E).2.heap[v]? = some x → E.heap[v]? = some x ∨
                (x.readOnly = false ∧ ∀ e, x.expression = some e → ∀ u ∈ mentioned e, Declared D u) := by
          intro l
          induction l with
          | nil => intro E _; exact ⟨fun _ h => h, fun _ _ h => Or.inl h⟩
          | cons d l ih =>
            intro E hb
            have one : (∀ u, Declared E u → Declared (storeOne H t E d).2 u) ∧ ∀ (v : ℕ) (x : Variable F W),
                (storeOne H t E d).2.heap[v]? = some x → E.heap[v]? = some x ∨
                  (x.readOnly = false ∧ ∀ e, x.expression = some e → ∀ u ∈ mentioned e, Declared D u) := by
              unfold storeOne
              split
              · exact ⟨fun _ h => h, fun _ _ h => Or.inl h⟩
              · rename_i e he
                split
                · exact ⟨fun _ h => h, fun _ _ h => Or.inl h⟩
                · rename_i x hx
                  split
                  · exact ⟨fun _ h => h, fun _ _ h => Or.inl h⟩
                  · split
                    · exact ⟨fun _ h => h, fun _ _ h => Or.inl h⟩
                    · rename_i st hst
                      refine ⟨?_, ?_⟩
                      · rintro u ⟨b, m, hu⟩
                        exact ⟨b, m, (grows_addVariableTo hst).declares hu⟩
                      · intro v y hy
                        rcases get_push hy with hy | ⟨-, rfl⟩
                        · exact Or.inl hy
                        · right
                          refine ⟨evaluate_writable hx, ?_⟩
                          intro e' he'
                          rw [evaluate_mentioned hx e' he']
                          exact (hb d.1 e (by rw [← he]; simp)).1
            rw [chain_cons]
            split
            · obtain ⟨i1, i2⟩ := ih (storeOne H t E d).2 (fun n e hm => hb n e (by simp [hm]))
              refine ⟨fun u hu => i1 u (one.1 u hu), ?_⟩
              intro v x hx
              rcases i2 v x hx with hx | hx
              · exact one.2 v x hx
              · exact Or.inr hx
            · exact one
        exact this l.reverse D (fun n e hm => hb n e (List.mem_reverse.mp hm))
    refine h.mono ?_ hbound hk hx.1 ?_
    · rw [(same_declare H D t ds hinv).2.2.1]
      exact fun _ _ _ => Iff.rfl
    · intro v x hv
      rcases hx.2 v x hv with h' | ⟨h1, h2⟩
      · exact Or.inl h'
      · exact Or.inr ⟨h1, fun e he u hu => hx.1 u (h2 e he u hu)⟩
  | assign n g =>
    show RInv (D.update H n g).2 (HasParam (D.update H n g).2.tree)
    have hk : Keeps D (D.update H n g).2 := update_keeps H D n g
    have hdec : ∀ u, Declared D u → Declared (D.update H n g).2 u := by
      rintro u ⟨b, m, hu⟩
      exact ⟨b, m, by rw [(same_update H D n g).1]; exact hu⟩
    refine h.mono ?_ hbound hk hdec ?_
    · rw [(same_update H D n g).2.1]
      exact fun _ _ _ => Iff.rfl
    · intro w z hz
      rcases hb : (D.update H n g).1 with _ | _
      · obtain ⟨k, -, hk⟩ := update_false hb
        rw [hk] at hz
        exact Or.inl hz
      · obtain ⟨e, v, x, y, x', h1, h2, h3, h4, h5, h6⟩ := update_true hb
        rw [h6] at hz
        simp only [List.getElem?_set] at hz
        split at hz
        · split at hz
          · simp only [Option.some.injEq] at hz
            right
            have ha := assign_spec h5
            refine ⟨by rw [← hz]; exact ha.2.2.2.1, ?_⟩
            intro e' he' u hu
            rw [← hz, ha.2.2.2.2.2.1] at he'
            rw [evaluate_mentioned h4 e' he'] at hu
            refine hdec u ((build_declared hinv h1).1 u ?_)
            unfold promoteAssign at hu
            split at hu
            · exact hu
            · exact hu
          · simp at hz
        · exact Or.inl hz
  | start c n =>
    show RInv (D.createBlock H c n).2 (HasParam (D.createBlock H c n).2.tree)
    unfold DeckState.createBlock
    split
    · exact h
    · split
      · exact h
      · rename_i st hst
        refine rinv_enterBlock hdist H { D with store := st } n c ?_ ?_ ?_
        · exact hs.mono rfl (fun _ _ h => h) (grows_createBlock hst) (Keeps.of_eq rfl)
        · exact hp.congr (fun _ _ _ h => h) le_rfl le_rfl hp.ext
        · refine h.mono (fun _ _ _ => Iff.rfl) hbound (Keeps.of_eq rfl) ?_ (fun _ _ h => Or.inl h)
          rintro u ⟨b, m, hu⟩
          exact ⟨b, m, (grows_createBlock hst).declares hu⟩
  | stop =>
    show RInv D.endBlock.2 (HasParam D.endBlock.2.tree)
    unfold endBlock
    split
    · exact h
    · refine h.mono ?_ hbound (Keeps.of_eq rfl) (fun _ h => h) (fun _ _ h => Or.inl h)
      intro k n p
      unfold HasParam
      have : D.tree.moveUp.blocks = D.tree.blocks := by
        unfold BlockTree.moveUp
        split <;> rfl
      show _ ↔ ∃ B, D.tree.moveUp.blocks[k]? = some B ∧ _
      rw [this]

theorem rinv_after (P : Program F W) (hdist : DistinctNames P.classes) (deck : List (Stmt F)) :
    RInv (P.after deck) (HasParam (P.after deck).tree) := by
  have hrun : ∀ (D : DeckState F W), RInv D (HasParam D.tree) → PInv D (HasParam D.tree) → SInv P.classes D → DInv D →
      RInv (chain (step P.host) deck D).2 (HasParam (chain (step P.host) deck D).2.tree) := by
    induction deck with
    | nil => intro D h _ _ _; exact h
    | cons s ss ih =>
      intro D h hp hs hinv
      have h1 := rinv_step hdist P.host D hinv.store hs hp h s
      rw [chain_cons]
      split
      · exact ih _ h1 (ext_step P.host D hinv.store hp s) (sinv_step hdist P.host D hinv.store hs s) (dinv_step P.host D s hinv)
      · exact h1
  refine hrun P.begin ?_ (pinv_after P []) (sinv_after P hdist []) (dinv_after P [])
  refine rinv_enterBlock hdist P.host _ _ _ ⟨⟨[], by simp [initial], by simp⟩, ?_⟩ ⟨?_, ?_, ?_⟩ ⟨?_, ?_, ?_⟩
  · intro k B hB
    simp [initial, BlockTree.empty] at hB
  · rintro k n p ⟨B, hB, -⟩
    simp [initial, BlockTree.empty] at hB
  · rintro k n p k' n' p' t ⟨B, hB, -⟩
    simp [initial, BlockTree.empty] at hB
  · intro v x e hx
    simp [initial] at hx
  · intro v x e hx
    simp [initial] at hx
  · intro v x hx
    simp [initial] at hx
  · rintro k n p t x ⟨B, hB, -⟩
    simp [initial, BlockTree.empty] at hB

end Schnek.Lemma.Blocks
