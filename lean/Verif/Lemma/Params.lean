import Verif.Lemma.BlockData
import Verif.Lemma.DeckSeq
import Verif.Props.Deck

namespace Schnek.Lemma.Blocks

open Schnek.Deck Schnek.Spec Schnek.Lemma.Deck Relation DeckState

variable {F W : Type}

/-- `p` is a parameter of block `k` -/
def HasParam (T : BlockTree) (k : ℕ) (n : String) (p : BlockParam) : Prop := ∃ B, T.blocks[k]? = some B ∧ (n, p) ∈ B.params

/-- about the parameters `A` -/
structure PInv (D : DeckState F W) (A : ℕ → String → BlockParam → Prop) : Prop where
  bound : ∀ k n p, A k n p → p.var < D.heap.length ∧ ∀ t, p.target = some t → t < D.nextExt
  inj : ∀ k n p k' n' p' t, A k n p → A k' n' p' → p.target = some t → p'.target = some t → k = k' ∧ n = n' ∧ p = p'
  ext : ∀ (v : ℕ) (x : Variable F W) e, D.heap[v]? = some x → x.expression = some e → externals e = [] ∨ x.readOnly = true

theorem PInv.congr {D D' : DeckState F W} {A A' : ℕ → String → BlockParam → Prop} (h : PInv D A)
    (hA : ∀ k n p, A' k n p → A k n p) (hl : D.heap.length ≤ D'.heap.length) (hx : D.nextExt ≤ D'.nextExt)
    (hh : ∀ (v : ℕ) (x : Variable F W) e, D'.heap[v]? = some x → x.expression = some e → externals e = [] ∨ x.readOnly = true) :
    PInv D' A' := by
  refine ⟨?_, ?_, hh⟩
  · intro k n p hp
    obtain ⟨h1, h2⟩ := h.bound k n p (hA k n p hp)
    exact ⟨lt_of_lt_of_le h1 (by first | omega | exact Nat.le_succ _), fun t ht => by have := h2 t ht; omega⟩
  · intro k n p k' n' p' t hp hp'
    exact h.inj k n p k' n' p' t (hA _ _ _ hp) (hA _ _ _ hp')

theorem pinv_addParameter (H : Host F W) (c K : ℕ) (s : DeckState F W × List (String × BlockParam)) (q : ParamSpec F)
    {A : ℕ → String → BlockParam → Prop} (h : PInv s.1 (fun k n p => A k n p ∨ (k = K ∧ (n, p) ∈ s.2)))  :
    PInv (addParameter H c s q).1 (fun k n p => A k n p ∨ (k = K ∧ (n, p) ∈ (addParameter H c s q).2)) := by
  have hsub : ∀ k n p, (A k n p ∨ (k = K ∧ (n, p) ∈ (addParameter H c s q).2)) →
      (A k n p ∨ (k = K ∧ (n, p) ∈ s.2)) ∨
        (k = K ∧ n = q.name ∧ p = ⟨s.1.heap.length, if q.constant then none else some s.1.nextExt⟩) := by
    rintro k n p (hp | ⟨hk, hp⟩)
    · exact Or.inl (Or.inl hp)
    · simp only [addParameter, setParam, List.mem_append, List.mem_filter, List.mem_singleton, Prod.mk.injEq] at hp
      rcases hp with hp | hp
      · exact Or.inl (Or.inr ⟨hk, hp.1⟩)
      · exact Or.inr ⟨hk, hp⟩
  have hheap : (addParameter H c s q).1.heap = s.1.heap ++ [paramVariable H q s.1.nextExt s.1.nextId] := rfl
  have hnext : (addParameter H c s q).1.nextExt = s.1.nextExt + 1 := rfl
  refine ⟨?_, ?_, ?_⟩
  · intro k n p hp
    rw [hheap, hnext, List.length_append, List.length_singleton]
    rcases hsub k n p hp with hp | ⟨-, -, rfl⟩
    · obtain ⟨h1, h2⟩ := h.bound k n p hp
      exact ⟨lt_of_lt_of_le h1 (by first | omega | exact Nat.le_succ _), fun t ht => by have := h2 t ht; omega⟩
    · refine ⟨by simp, ?_⟩
      intro t ht
      simp only at ht
      split at ht
      · simp at ht
      · simp only [Option.some.injEq] at ht; omega
  · intro k n p k' n' p' t hp hp' ht ht'
    have hnew : ∀ t : ℕ, (if q.constant then none else some s.1.nextExt) = some t → t = s.1.nextExt := by
      intro t ht
      split at ht
      · simp at ht
      · simpa using ht.symm
    rcases hsub k n p hp with hp | ⟨h1, h2, h3⟩ <;> rcases hsub k' n' p' hp' with hp' | ⟨h1', h2', h3'⟩
    · exact h.inj k n p k' n' p' t hp hp' ht ht'
    · subst h3'
      have e1 := (h.bound k n p hp).2 t ht
      have e2 := hnew t ht'
      omega
    · subst h3
      have e1 := (h.bound k' n' p' hp').2 t ht'
      have e2 := hnew t ht
      omega
    · exact ⟨by rw [h1, h1'], by rw [h2, h2'], by rw [h3, h3']⟩
  · intro v x e hx he
    rw [hheap] at hx
    rcases get_push hx with hx | ⟨-, rfl⟩
    · exact h.ext v x e hx he
    · unfold paramVariable at he ⊢
      split
      · right; rfl
      · rename_i hc
        split
        · right; rfl
        · rename_i hr
          rw [if_neg hc, if_neg hr] at he
          simp [Variable.ofValue] at he

theorem pinv_params (H : Host F W) (c K : ℕ) (specs : List (ParamSpec F)) {A : ℕ → String → BlockParam → Prop} :
    ∀ s : DeckState F W × List (String × BlockParam), PInv s.1 (fun k n p => A k n p ∨ (k = K ∧ (n, p) ∈ s.2)) →
      PInv (specs.foldl (addParameter H c) s).1 (fun k n p => A k n p ∨ (k = K ∧ (n, p) ∈ (specs.foldl (addParameter H c) s).2)) := by
  induction specs with
  | nil => intro s h; exact h
  | cons q qs ih => intro s h; rw [List.foldl_cons]; exact ih _ (pinv_addParameter H c K s q h)

theorem addChild_get (T : BlockTree) (B : Block) (k : ℕ) (A : Block) (h : (T.addChild B).blocks[k]? = some A) :
    (∃ A' : Block, T.blocks[k]? = some A' ∧ A.context = A'.context ∧ A.name = A'.name ∧ A.params = A'.params) ∨
      (k = T.blocks.length ∧ A.context = B.context ∧ A.name = B.name ∧ A.params = B.params) := by
  unfold BlockTree.addChild at h
  rcases hcur : T.cursor with _ | c
  · rw [hcur] at h
    rcases get_push h with h | ⟨hk, rfl⟩
    · exact Or.inl ⟨A, h, rfl, rfl, rfl⟩
    · exact Or.inr ⟨hk, rfl, rfl, rfl⟩
  · rw [hcur] at h
    rcases get_push h with h | ⟨hk, rfl⟩
    · simp only [List.getElem?_modify] at h
      rcases hA : T.blocks[k]? with _ | A'
      · rw [hA] at h; simp at h
      · rw [hA] at h
        have : A = _ := (Option.some.inj h).symm
        refine Or.inl ⟨A', rfl, ?_⟩
        rw [this]
        split <;> exact ⟨rfl, rfl, rfl⟩
    · refine Or.inr ⟨?_, rfl, rfl, rfl⟩
      simpa using hk

theorem pinv_enterBlock (H : Host F W) (D : DeckState F W) (n c : String) (h : PInv D (HasParam D.tree)) :
    PInv (enterBlock H D n c) (HasParam (enterBlock H D n c).tree) := by
  obtain ⟨l, hl, -⟩ := getClass_snd D c
  have e1 : (D.getClass c).2.heap = D.heap := by rw [hl]
  have e2 : (D.getClass c).2.tree = D.tree := by rw [hl]
  have e3 : (D.getClass c).2.nextExt = D.nextExt := by rw [hl]
  rcases hf : (D.getClass c).1.factory with _ | specs
  · rw [enterBlock_none H D n c hf]
    refine h.congr ?_ (by rw [e1]) (by rw [e3]) (by rw [e1]; exact h.ext)
    intro k n p hp
    rw [← e2]; exact hp
  · rw [enterBlock_some H D n c specs hf]
    have h0 : PInv (D.getClass c).2 (fun k n p => HasParam D.tree k n p ∨ (k = D.tree.blocks.length ∧ (n, p) ∈ ([] : List (String × BlockParam)))) := by
      refine h.congr ?_ (by rw [e1]) (by rw [e3]) (by rw [e1]; exact h.ext)
      rintro k n p (hp | ⟨-, hp⟩)
      · exact hp
      · simp at hp
    have h1 := pinv_params H (D.getClass c).2.store.cursor D.tree.blocks.length specs ((D.getClass c).2, []) h0
    refine h1.congr ?_ le_rfl le_rfl h1.ext
    rintro k m p ⟨B, hB, hp⟩
    rcases addChild_get _ _ k B hB with ⟨A', hA', -, -, he⟩ | ⟨hk, -, -, he⟩
    · rw [params_tree, e2] at hA'
      exact Or.inl ⟨A', hA', by rw [← he]; exact hp⟩
    · rw [params_tree, e2] at hk
      exact Or.inr ⟨hk, by rw [he] at hp; exact hp⟩

theorem evaluate_ext {H : Host F W} {D : DeckState F W} {e : Expr F W} {x : Variable F W} (h : D.evaluate H e = some x)
    (he : externals e = []) (e' : Expr F W) (hx : x.expression = some e') : externals e' = [] := by
  unfold evaluate at h
  split at h
  · simp only [Option.map_eq_some_iff] at h
    obtain ⟨val, -, rfl⟩ := h
    simp [Variable.ofValue] at hx
  · simp only [Option.some.injEq] at h
    rw [← h] at hx
    simp only [Variable.ofExpr, Option.some.injEq] at hx
    rw [← hx]; exact he

theorem ext_step (H : Host F W) (D : DeckState F W) (hinv : Vars.Inv D.store) (h : PInv D (HasParam D.tree)) (s : Stmt F) :
    PInv (D.step H s).2 (HasParam (D.step H s).2.tree) := by
  cases s with
  | decl t ds =>
    show PInv (D.declare H t ds).2 (HasParam (D.declare H t ds).2.tree)
    obtain ⟨m, hm⟩ := declare_heap H D t ds
    have hx : (D.declare H t ds).2.nextExt = D.nextExt ∧ ∀ (v : ℕ) (x : Variable F W) e, (D.declare H t ds).2.heap[v]? = some x →
        x.expression = some e → externals e = [] ∨ x.readOnly = true := by
      unfold declare
      rcases hl : buildAll (D.env H) ds with _ | l
      · exact ⟨rfl, h.ext⟩
      · have hb := (buildAll_spec ds l hl).1
        simp only
        have : ∀ (l : List (String × Option (Expr F W))) (D : DeckState F W), (∀ n e, (n, some e) ∈ l → externals e = []) →
            (∀ (v : ℕ) (x : Variable F W) e, D.heap[v]? = some x → x.expression = some e → externals e = [] ∨ x.readOnly = true) →
            (chain (storeOne H t) l D).2.nextExt = D.nextExt ∧ ∀ (v : ℕ) (x : Variable F W) e,
              (chain (storeOne H t) l D).2.heap[v]? = some x → x.expression = some e → externals e = [] ∨ x.readOnly = true := by
          intro l
          induction l with
          | nil => intro D _ h; exact ⟨rfl, h⟩
          | cons d l ih =>
            intro D hb h
            have one : (storeOne H t D d).2.nextExt = D.nextExt ∧ ∀ (v : ℕ) (x : Variable F W) e,
                (storeOne H t D d).2.heap[v]? = some x → x.expression = some e → externals e = [] ∨ x.readOnly = true := by
              unfold storeOne
              split
              · exact ⟨rfl, h⟩
              · rename_i e he
                split
                · exact ⟨rfl, h⟩
                · rename_i x hx
                  split
                  · exact ⟨rfl, h⟩
                  · split
                    · exact ⟨rfl, h⟩
                    · refine ⟨rfl, ?_⟩
                      intro v y e' hy he'
                      rcases get_push hy with hy | ⟨-, rfl⟩
                      · exact h v y e' hy he'
                      · left
                        exact evaluate_ext hx (hb d.1 e (by rw [← he]; simp)) e' he'
            rw [chain_cons]
            split
            · obtain ⟨i1, i2⟩ := ih (storeOne H t D d).2 (fun n e hm => hb n e (by simp [hm])) one.2
              exact ⟨by rw [i1, one.1], i2⟩
            · exact one
        exact this l.reverse D (fun n e hm => (hb n e (List.mem_reverse.mp hm)).2) h.ext
    refine h.congr ?_ (by rw [hm]; simp) (by rw [hx.1]) hx.2
    rw [(same_declare H D t ds hinv).2.2.1]
    exact fun _ _ _ h => h
  | assign n g =>
    show PInv (D.update H n g).2 (HasParam (D.update H n g).2.tree)
    rw [(same_update H D n g).2.1]
    rcases hb : (D.update H n g).1 with _ | _
    · obtain ⟨k, -, hk⟩ := update_false hb
      rw [hk]
      exact h.congr (fun _ _ _ h => h) le_rfl le_rfl h.ext
    · obtain ⟨e, v, x, y, x', h1, h2, h3, h4, h5, h6⟩ := update_true hb
      rw [h6]
      refine h.congr (fun _ _ _ h => h) (by simp) le_rfl ?_
      intro w z e' hz he'
      simp only [List.getElem?_set] at hz
      split at hz
      · split at hz
        · simp only [Option.some.injEq] at hz
          rw [← hz, (assign_spec h5).2.2.2.2.2.1] at he'
          left
          refine evaluate_ext h4 ?_ e' he'
          have := (build_lt h1).2
          unfold promoteAssign
          split
          · exact this
          · exact this
        · simp at hz
      · exact h.ext w z e' hz he'
  | start c n =>
    show PInv (D.createBlock H c n).2 (HasParam (D.createBlock H c n).2.tree)
    unfold DeckState.createBlock
    split
    · exact h
    · split
      · exact h
      · rename_i st hst
        exact pinv_enterBlock H { D with store := st } n c (h.congr (fun _ _ _ h => h) le_rfl le_rfl h.ext)
  | stop =>
    show PInv D.endBlock.2 (HasParam D.endBlock.2.tree)
    unfold endBlock
    split
    · exact h
    · refine h.congr ?_ le_rfl le_rfl h.ext
      rintro k n p ⟨B, hB, hp⟩
      refine ⟨B, ?_, hp⟩
      rw [← hB]
      show _ = D.tree.moveUp.blocks[k]?
      unfold BlockTree.moveUp
      split <;> rfl

theorem pinv_after (P : Program F W) (deck : List (Stmt F)) : PInv (P.after deck) (HasParam (P.after deck).tree) := by
  have hrun : ∀ (D : DeckState F W), PInv D (HasParam D.tree) → DInv D → PInv (chain (step P.host) deck D).2
      (HasParam (chain (step P.host) deck D).2.tree) := by
    induction deck with
    | nil => intro D h _; exact h
    | cons s ss ih =>
      intro D h hinv
      rw [chain_cons]
      split
      · exact ih _ (ext_step P.host D hinv.store h s) (dinv_step P.host D s hinv)
      · exact ext_step P.host D hinv.store h s
  refine hrun P.begin (pinv_enterBlock _ _ _ _ ⟨?_, ?_, ?_⟩) (dinv_after P [])
  · rintro k n p ⟨B, hB, -⟩
    simp [initial, BlockTree.empty] at hB
  · rintro k n p k' n' p' t ⟨B, hB, -⟩
    simp [initial, BlockTree.empty] at hB
  · intro v x e hx
    simp [initial] at hx

end Schnek.Lemma.Blocks
