import Verif.Lemma.ParamSpec

namespace Schnek.Lemma.Blocks

open Schnek.Deck Schnek.Spec Schnek.Lemma.Deck Relation DeckState

variable {F W : Type}

/-- the variable is as it was made for `q` -/
def Fresh (H : Host F W) (D : DeckState F W) (q : ParamSpec F) (v : ℕ) : Prop :=
  ∃ i j, D.heap[v]? = some (paramVariable H q i j)

theorem params_fresh (H : Host F W) (c : ℕ) (specs : List (ParamSpec F)) :
    ∀ s : DeckState F W × List (String × BlockParam), (specs.map ParamSpec.name).Nodup →
      (∃ m, (specs.foldl (addParameter H c) s).1.heap = s.1.heap ++ m) ∧
      (∀ n p, (n, p) ∈ (specs.foldl (addParameter H c) s).2 → n ∉ specs.map ParamSpec.name → (n, p) ∈ s.2) ∧
      ∀ q ∈ specs, ∀ p, (q.name, p) ∈ (specs.foldl (addParameter H c) s).2 → Fresh H (specs.foldl (addParameter H c) s).1 q p.var := by
  induction specs with
  | nil => intro s _; exact ⟨⟨[], by simp⟩, fun n p h _ => h, by simp⟩
  | cons q qs ih =>
    intro s hnd
    rw [List.map_cons, List.nodup_cons] at hnd
    obtain ⟨⟨m, hm⟩, i2, i3⟩ := ih (addParameter H c s q) hnd.2
    rw [List.foldl_cons]
    have hset : ∀ n p, (n, p) ∈ (addParameter H c s q).2 → ((n, p) ∈ s.2 ∧ n ≠ q.name) ∨
        (n = q.name ∧ p = ⟨s.1.heap.length, if q.constant then none else some s.1.nextExt⟩) := by
      intro n p h
      have h : (n, p) ∈ setParam s.2 q.name _ := h
      unfold setParam at h
      simpa using h
    refine ⟨⟨[paramVariable H q s.1.nextExt s.1.nextId] ++ m, ?_⟩, ?_, ?_⟩
    · rw [hm]
      show (s.1.heap ++ [paramVariable H q s.1.nextExt s.1.nextId]) ++ m = _
      rw [List.append_assoc]
    · intro n p h hn
      rw [List.map_cons, List.mem_cons, not_or] at hn
      rcases hset n p (i2 n p h hn.2) with h | h
      · exact h.1
      · exact absurd h.1 hn.1
    · intro q' hq' p h
      rcases List.mem_cons.mp hq' with rfl | hq'
      · rcases hset _ p (i2 _ p h hnd.1) with h | ⟨-, rfl⟩
        · exact absurd rfl h.2
        · refine ⟨s.1.nextExt, s.1.nextId, ?_⟩
          rw [hm]
          show ((s.1.heap ++ [paramVariable H q' s.1.nextExt s.1.nextId]) ++ m)[s.1.heap.length]? = _
          simp
      · exact i3 q' hq' p h

/-- the variable `v` is as it was made, if it is that of a parameter -/
def FInv (H : Host F W) (classes : List (String × ClassDesc F)) (v : ℕ) (D : DeckState F W) : Prop :=
  ∀ (k : ℕ) (B : Block) (Bv : BlockVars) (d : ClassDesc F) (specs : List (ParamSpec F)), D.tree.blocks[k]? = some B →
    D.store.blocks[B.context]? = some Bv → classes.lookup Bv.className = some d → d.factory = some specs →
    ∀ q ∈ specs, ∀ p, (q.name, p) ∈ B.params → p.var = v → Fresh H D q v

theorem FInv.mono {H : Host F W} {classes : List (String × ClassDesc F)} {v : ℕ} {D D' : DeckState F W} (h : FInv H classes v D)
    (hs : SInv classes D) (ht : ∀ (k : ℕ) (B : Block), D'.tree.blocks[k]? = some B → D.tree.blocks[k]? = some B)
    (hg : Grows D.store D'.store) (hv : ∀ x, D.heap[v]? = some x → D'.heap[v]? = some x) : FInv H classes v D' := by
  intro k B Bv d specs hB hBv hd hf q hq p hp hpv
  obtain ⟨Bw, -, -, h1, -⟩ := hs.blocks k B (ht k B hB)
  obtain ⟨Bw', h2, h3, -⟩ := hg _ Bw h1
  rw [hBv, Option.some.injEq] at h2
  subst h2
  obtain ⟨i, j, hh⟩ := h k B Bw d specs (ht k B hB) h1 (h3 ▸ hd) hf q hq p hp hpv
  exact ⟨i, j, hv _ hh⟩

theorem finv_enterBlock {H : Host F W} {classes : List (String × ClassDesc F)} (hdist : DistinctNames classes) (v : ℕ)
    (D : DeckState F W) (n c : String) (h : FInv H classes v D) (hs : SInv classes D)
    (hcur : ∃ Bv : BlockVars, D.store.blocks[D.store.cursor]? = some Bv ∧ Bv.className = c ∧ Bv.vars = []) :
    FInv H classes v (enterBlock H D n c) := by
  obtain ⟨l, hl, hl2, dd, hfind, hdd⟩ := getClass_snd D c
  obtain ⟨l0, hl0, hl0'⟩ := hs.known
  obtain ⟨Bv, hBv, hBc, hBvars⟩ := hcur
  have e1 : (D.getClass c).2.store = D.store := by rw [hl]
  have e2 : (D.getClass c).2.tree = D.tree := by rw [hl]
  have e3 : (D.getClass c).2.heap = D.heap := by rw [hl]
  rcases hf : (D.getClass c).1.factory with _ | specs
  · rw [enterBlock_none H D n c hf]
    refine h.mono hs ?_ ?_ ?_
    · intro k B hB
      rw [← e2]; exact hB
    · show Grows D.store (D.getClass c).2.store
      rw [e1]; exact Grows.refl _
    · intro x hx
      show (D.getClass c).2.heap[v]? = some x
      rw [e3]; exact hx
  · have hgrow := grows_enterBlock H D n c
    have hd : ∀ d, classes.lookup c = some d → d = (D.getClass c).1 := by
      intro d hd
      rw [hdd]
      unfold find at hfind
      rw [hl0, List.append_assoc, List.lookup_append, hd, Option.some_or, Option.some.injEq] at hfind
      exact hfind
    intro k B Bw d specs' hB hBw hlk hfac q hq p hp hpv
    have hB' := hB
    rw [enterBlock_some H D n c specs hf] at hB'
    rcases addChild_get _ _ k B hB' with ⟨A', hA', hctx, -, hpar⟩ | ⟨hk, hctx, -, hpar⟩
    · rw [params_tree, e2] at hA'
      obtain ⟨Bo, -, -, h1, -⟩ := hs.blocks k A' hA'
      obtain ⟨Bo', h2, h3, -⟩ := hgrow _ Bo h1
      rw [hctx, h2, Option.some.injEq] at hBw
      subst hBw
      obtain ⟨i, j, hh⟩ := h k A' Bo d specs' hA' h1 (h3 ▸ hlk) hfac q hq p (hpar ▸ hp) hpv
      obtain ⟨m, hm⟩ := enterBlock_heap H D n c
      refine ⟨i, j, ?_⟩
      rw [hm, List.getElem?_append_left (List.getElem?_eq_some_iff.mp hh).1]
      exact hh
    · simp only [e1] at hctx hpar
      obtain ⟨Bo', h3, h4, -⟩ := hgrow _ Bv hBv
      rw [hctx, h3, Option.some.injEq] at hBw
      subst hBw
      rw [h4, hBc] at hlk
      obtain rfl := hd d hlk
      rw [hf, Option.some.injEq] at hfac
      subst hfac
      obtain ⟨-, -, i3⟩ := params_fresh H D.store.cursor specs ((D.getClass c).2, []) (hdist c _ specs hlk hf)
      rw [hpar] at hp
      obtain ⟨i, j, hh⟩ := i3 q hq p hp
      rw [hpv] at hh
      refine ⟨i, j, ?_⟩
      rw [enterBlock_some H D n c specs hf]
      simp only [e1]
      exact hh

theorem finv_step {H : Host F W} {classes : List (String × ClassDesc F)} (hdist : DistinctNames classes) (v : ℕ)
    (D : DeckState F W) (hinv : Vars.Inv D.store) (h : FInv H classes v D) (hs : SInv classes D) (s : Stmt F)
    (hno : ¬ Assigns D s v) : FInv H classes v (D.step H s).2 := by
  have hv := step_frame H D hinv s v hno
  have hs' := sinv_step hdist H D hinv hs s
  cases s with
  | start c n =>
    show FInv H classes v (D.createBlock H c n).2
    unfold DeckState.createBlock
    split
    · exact h
    · split
      · exact h
      · rename_i st hst
        refine finv_enterBlock hdist v { D with store := st } n c ?_ ?_ ?_
        · exact h.mono hs (fun _ _ h => h) (grows_createBlock hst) (fun _ h => h)
        · exact hs.mono rfl (fun _ _ h => h) (grows_createBlock hst) (Keeps.of_eq rfl)
        · obtain ⟨hc, -, -⟩ := Vars.createBlock_cursor hst
          have := Vars.createBlock_blocks hst D.store.blocks.length
          rw [if_pos rfl] at this
          simp only [hc]
          exact ⟨_, this, rfl, rfl⟩
  | decl t ds =>
    obtain ⟨-, h2, h3, h4⟩ := same_declare H D t ds hinv
    refine h.mono hs ?_ ?_ hv
    · intro k B hB
      rw [← h3]; exact hB
    · show Grows D.store (D.declare H t ds).2.store
      unfold declare
      split
      · exact Grows.refl _
      · rename_i l _
        have : ∀ (l : List (String × Option (Expr F W))) (D : DeckState F W), Grows D.store (chain (storeOne H t) l D).2.store := by
          intro l
          induction l with
          | nil => intro D; exact Grows.refl _
          | cons d l ih =>
            intro D
            have one : Grows D.store (storeOne H t D d).2.store := by
              unfold storeOne
              repeat' (first | split | exact Grows.refl _)
              rename_i st hst
              exact grows_addVariableTo hst
            rw [chain_cons]
            split
            · exact one.trans (ih _)
            · exact one
        exact this _ D
  | assign n e =>
    obtain ⟨h1, h2, h3⟩ := same_update H D n e
    refine h.mono hs ?_ ?_ hv
    · intro k B hB; rw [← h2]; exact hB
    · show Grows D.store (D.update H n e).2.store
      rw [h1]; exact Grows.refl _
  | stop =>
    refine h.mono hs ?_ ?_ hv
    · intro k B hB
      rw [← hB]
      show _ = D.endBlock.2.tree.blocks[k]?
      unfold endBlock
      split
      · rfl
      · show _ = D.tree.moveUp.blocks[k]?
        unfold BlockTree.moveUp
        split <;> rfl
    · show Grows D.store D.endBlock.2.store
      unfold endBlock
      split
      · exact Grows.refl _
      · exact Grows.refl _

theorem finv_after (P : Program F W) (hdist : DistinctNames P.classes) (deck : List (Stmt F)) (v : ℕ)
    (hno : ∀ pre s post, deck = pre ++ s :: post → (P.begin.run P.host pre).1 = true → ¬ Assigns (P.begin.run P.host pre).2 s v) :
    FInv P.host P.classes v (P.after deck) := by
  have hrun : ∀ (D : DeckState F W), FInv P.host P.classes v D → SInv P.classes D → DInv D →
      (∀ pre s post, deck = pre ++ s :: post → (D.run P.host pre).1 = true → ¬ Assigns (D.run P.host pre).2 s v) →
      FInv P.host P.classes v (chain (step P.host) deck D).2 := by
    clear hno
    induction deck with
    | nil => intro D h _ _ _; exact h
    | cons s ss ih =>
      intro D h hs hinv hno
      have h0 : ¬ Assigns D s v := hno [] s ss rfl rfl
      have h1 := finv_step hdist v D hinv.store h hs s h0
      rw [chain_cons]
      split
      · rename_i hok
        refine ih _ h1 (sinv_step hdist P.host D hinv.store hs s) (dinv_step P.host D s hinv) ?_
        intro pre s' post hp hpre
        have := hno (s :: pre) s' post (by rw [hp]; rfl)
        unfold run at this hpre ⊢
        rw [chain_cons, if_pos hok] at this
        exact this hpre
      · exact h1
  refine hrun P.begin ?_ (sinv_after P hdist []) (dinv_after P []) hno
  refine finv_enterBlock hdist v _ _ _ ?_ ⟨⟨[], by simp [initial], by simp⟩, ?_⟩ ⟨_, rfl, rfl, rfl⟩
  · intro k B Bv d specs hB
    simp [initial, BlockTree.empty] at hB
  · intro k B hB
    simp [initial, BlockTree.empty] at hB

end Schnek.Lemma.Blocks
