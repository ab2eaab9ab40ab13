import Verif.Lemma.Params

namespace Schnek.Lemma.Blocks

open Schnek.Deck Schnek.Spec Schnek.Lemma.Deck Relation DeckState

variable {F W : Type}

theorem lookup_mem {α : Type} {l : List (String × α)} {n : String} {a : α} (h : l.lookup n = some a) : (n, a) ∈ l := by
  induction l with
  | nil => simp at h
  | cons p l ih =>
    rw [List.lookup_cons] at h
    split at h
    · rename_i he
      rw [beq_iff_eq] at he
      rw [he, ← Option.some.inj h]
      simp
    · exact List.mem_cons_of_mem _ (ih h)

/-- blocks and variables are only added -/
def Grows (S S' : Storage) : Prop := ∀ (b : ℕ) (B : BlockVars), S.blocks[b]? = some B →
  ∃ B' : BlockVars, S'.blocks[b]? = some B' ∧ B'.className = B.className ∧ ∀ nv ∈ B.vars, nv ∈ B'.vars

theorem Grows.refl (S : Storage) : Grows S S := fun _ B h => ⟨B, h, rfl, fun _ h => h⟩

theorem Grows.trans {S S' S'' : Storage} (h : Grows S S') (h' : Grows S' S'') : Grows S S'' := by
  intro b B hB
  obtain ⟨B', h1, h2, h3⟩ := h b B hB
  obtain ⟨B'', h4, h5, h6⟩ := h' b B' h1
  exact ⟨B'', h4, by rw [h5, h2], fun nv hn => h6 nv (h3 nv hn)⟩

theorem Grows.declares {S S' : Storage} (h : Grows S S') {b : ℕ} {n : String} {v : ℕ} (hd : Declares S b n v) : Declares S' b n v := by
  obtain ⟨B, hB, hm⟩ := hd
  obtain ⟨B', h1, -, h3⟩ := h b B hB
  exact ⟨B', h1, h3 _ hm⟩

theorem grows_addVariableTo {S T : Storage} {b : ℕ} {n : String} {v : Var} (h : S.addVariableTo b n v = some T) : Grows S T := by
  intro d B hB
  have := Vars.addVariableTo_blocks h d
  rw [hB] at this
  split at this
  · exact ⟨_, this, rfl, fun nv hn => by simp [hn]⟩
  · exact ⟨B, this, rfl, fun _ h => h⟩

theorem grows_createBlock {S T : Storage} {n c : String} (h : S.createBlock n c = some T) : Grows S T := by
  intro d B hB
  obtain ⟨B', h1, -, -, h2, h3, -⟩ := Vars.createBlock_old h hB
  exact ⟨B', h1, h3, fun nv hn => by rw [h2]; exact hn⟩

theorem grows_addParameter (H : Host F W) (c : ℕ) (s : DeckState F W × List (String × BlockParam)) (q : ParamSpec F) :
    Grows s.1.store (addParameter H c s q).1.store := by
  show Grows _ ((s.1.store.addVariableTo c q.name s.1.heap.length).getD s.1.store)
  rcases h : s.1.store.addVariableTo c q.name s.1.heap.length with _ | T
  · exact Grows.refl _
  · exact grows_addVariableTo h

/-- what is known about the parameter for `q` -/
def ParamOk (D : DeckState F W) (c : ℕ) (q : ParamSpec F) (p : BlockParam) : Prop :=
  p.target.isSome = !q.constant ∧ Declares D.store c q.name p.var ∧
    ∃ x, D.heap[p.var]? = some x ∧ x.ty = q.current.ty ∧ x.readOnly = (q.constant || q.readOnly)

theorem ParamOk.mono {D D' : DeckState F W} {c : ℕ} {q : ParamSpec F} {p : BlockParam} (h : ParamOk D c q p)
    (hg : Grows D.store D'.store) (hk : Keeps D D') : ParamOk D' c q p := by
  obtain ⟨h1, h2, x, h3, h4, h5⟩ := h
  obtain ⟨x', h6, h7, h8, -⟩ := hk _ x h3
  exact ⟨h1, hg.declares h2, x', h6, by rw [h7, h4], by rw [h8, h5]⟩

theorem addParameter_keeps (H : Host F W) (c : ℕ) (s : DeckState F W × List (String × BlockParam)) (q : ParamSpec F) :
    Keeps s.1 (addParameter H c s q).1 := Keeps.append _ rfl

theorem addParameter_ok (H : Host F W) (c : ℕ) (s : DeckState F W × List (String × BlockParam)) (q : ParamSpec F)
    (hc : c < s.1.store.blocks.length) (hnew : ∀ v, ¬ Declares s.1.store c q.name v) :
    ∃ p, (∀ m p', (m, p') ∈ (addParameter H c s q).2 ↔ ((m, p') ∈ s.2 ∧ m ≠ q.name) ∨ (m = q.name ∧ p' = p)) ∧
      ParamOk (addParameter H c s q).1 c q p ∧
      ∀ m v, m ≠ q.name → Declares (addParameter H c s q).1.store c m v → Declares s.1.store c m v := by
  have hvar : s.1.store.varOf c q.name = none := by
    unfold Storage.varOf
    rw [List.getElem?_eq_getElem hc, Option.bind_some, Vars.find_none]
    intro hm
    obtain ⟨⟨n, v⟩, hm, rfl⟩ := List.mem_map.mp hm
    exact hnew v ⟨_, List.getElem?_eq_getElem hc, hm⟩
  obtain ⟨T, hT⟩ : ∃ T, s.1.store.addVariableTo c q.name s.1.heap.length = some T := by
    unfold Storage.addVariableTo
    rw [hvar]
    exact ⟨_, rfl⟩
  have hst : (addParameter H c s q).1.store = T := by
    show (s.1.store.addVariableTo c q.name s.1.heap.length).getD s.1.store = T
    rw [hT]; rfl
  have hTb := Vars.addVariableTo_blocks hT c
  rw [if_pos rfl, List.getElem?_eq_getElem hc, Option.map_some] at hTb
  refine ⟨⟨s.1.heap.length, if q.constant then none else some s.1.nextExt⟩, ?_, ⟨?_, ?_, ?_⟩, ?_⟩
  · intro m p'
    show _ ∈ setParam s.2 q.name _ ↔ _
    unfold setParam
    simp
  · simp only
    cases q.constant <;> rfl
  · rw [hst]
    exact ⟨_, hTb, by simp⟩
  · refine ⟨paramVariable H q s.1.nextExt s.1.nextId, ?_, ?_, ?_⟩
    · show (s.1.heap ++ [paramVariable H q s.1.nextExt s.1.nextId])[s.1.heap.length]? = _
      simp
    · unfold paramVariable
      split
      · rfl
      · split
        · rfl
        · simp only [Variable.ofValue]
          rcases hd : q.default with _ | d
          · simp only [Option.getD_none]
            cases q.current <;> rfl
          · simp only [Option.getD_some]
            exact q.typed d hd
    · unfold paramVariable
      split
      · rename_i h; rw [h]; rfl
      · rename_i h
        split
        · rename_i h'; rw [h']; simp [Variable.ofExpr]
        · rename_i h'
          simp [Variable.ofValue, h, h']
  · intro m v hm hd
    rw [hst] at hd
    obtain ⟨B, hB, hmem⟩ := hd
    rw [hTb, Option.some.injEq] at hB
    subst hB
    simp only [List.mem_append, List.mem_singleton, Prod.mk.injEq] at hmem
    rcases hmem with hmem | ⟨rfl, -⟩
    · exact ⟨_, List.getElem?_eq_getElem hc, hmem⟩
    · exact absurd rfl hm

theorem params_ok (H : Host F W) (c : ℕ) (specs : List (ParamSpec F)) (hnd : (specs.map ParamSpec.name).Nodup) :
    ∀ s : DeckState F W × List (String × BlockParam), c < s.1.store.blocks.length →
      (∀ q ∈ specs, ∀ v, ¬ Declares s.1.store c q.name v) →
      (∀ n p, (n, p) ∈ s.2 → n ∉ specs.map ParamSpec.name → (n, p) ∈ (specs.foldl (addParameter H c) s).2) ∧
      Grows s.1.store (specs.foldl (addParameter H c) s).1.store ∧ Keeps s.1 (specs.foldl (addParameter H c) s).1 ∧
      (∀ q ∈ specs, ∃ p, (q.name, p) ∈ (specs.foldl (addParameter H c) s).2 ∧ ParamOk (specs.foldl (addParameter H c) s).1 c q p) ∧
      ∀ n p, (n, p) ∈ (specs.foldl (addParameter H c) s).2 → (n, p) ∈ s.2 ∨
        ∃ q ∈ specs, q.name = n ∧ ParamOk (specs.foldl (addParameter H c) s).1 c q p := by
  induction specs with
  | nil => intro s _ _; exact ⟨fun n p h _ => h, Grows.refl _, Keeps.of_eq rfl, by simp, fun n p h => Or.inl h⟩
  | cons q qs ih =>
    intro s hc hnew
    rw [List.map_cons, List.nodup_cons] at hnd
    obtain ⟨p, hp1, hp2, hp3⟩ := addParameter_ok H c s q hc (hnew q (by simp))
    have hg := grows_addParameter H c s q
    have hc' : c < (addParameter H c s q).1.store.blocks.length := by
      obtain ⟨B', h1, -⟩ := hg c _ (List.getElem?_eq_getElem hc)
      exact (List.getElem?_eq_some_iff.mp h1).1
    obtain ⟨i1, i2, i3, i4, i5⟩ := ih hnd.2 (addParameter H c s q) hc' (by
      intro q' hq' v hd
      refine hnew q' (by simp [hq']) v (hp3 q'.name v ?_ hd)
      intro he
      exact hnd.1 (he ▸ List.mem_map_of_mem hq'))
    rw [List.foldl_cons]
    refine ⟨?_, hg.trans i2, (addParameter_keeps H c s q).trans i3, ?_, ?_⟩
    · intro n p' hm hn
      rw [List.map_cons, List.mem_cons, not_or] at hn
      exact i1 n p' ((hp1 n p').mpr (Or.inl ⟨hm, hn.1⟩)) hn.2
    · intro q' hq'
      rcases List.mem_cons.mp hq' with rfl | hq'
      · exact ⟨p, i1 _ p ((hp1 _ p).mpr (Or.inr ⟨rfl, rfl⟩)) hnd.1, hp2.mono i2 i3⟩
      · exact i4 q' hq'
    · intro n p' hm
      rcases i5 n p' hm with hm | ⟨q', hq', h1, h2⟩
      · rcases (hp1 n p').mp hm with ⟨hm, -⟩ | ⟨h1, h2⟩
        · exact Or.inl hm
        · exact Or.inr ⟨q, by simp, h1.symm, by rw [h2]; exact hp2.mono i2 i3⟩
      · exact Or.inr ⟨q', by simp [hq'], h1, h2⟩

/-- the parameters of every block are those of its class -/
structure SInv (classes : List (String × ClassDesc F)) (D : DeckState F W) : Prop where
  known : ∃ l, D.classes = classes ++ l ∧ ∀ p ∈ l, p.2.factory = none
  blocks : ∀ (k : ℕ) (B : Block), D.tree.blocks[k]? = some B → ∃ (Bv : BlockVars) (d : ClassDesc F) (specs : List (ParamSpec F)),
    D.store.blocks[B.context]? = some Bv ∧ classes.lookup Bv.className = some d ∧ d.factory = some specs ∧
    (∀ q ∈ specs, ∃ p, (q.name, p) ∈ B.params ∧ ParamOk D B.context q p) ∧
    ∀ n p, (n, p) ∈ B.params → ∃ q ∈ specs, q.name = n ∧ ParamOk D B.context q p

theorem SInv.mono {classes : List (String × ClassDesc F)} {D D' : DeckState F W} (h : SInv classes D)
    (hc : D'.classes = D.classes) (ht : ∀ (k : ℕ) (B : Block), D'.tree.blocks[k]? = some B → D.tree.blocks[k]? = some B)
    (hg : Grows D.store D'.store) (hk : Keeps D D') : SInv classes D' := by
  refine ⟨by rw [hc]; exact h.known, ?_⟩
  intro k B hB
  obtain ⟨Bv, d, specs, h1, hd, hf, h2, h5⟩ := h.blocks k B (ht k B hB)
  obtain ⟨Bv', h3, h4, -⟩ := hg _ Bv h1
  refine ⟨Bv', d, specs, h3, by rw [h4]; exact hd, hf, ?_, ?_⟩
  · intro q hq
    obtain ⟨p, hp1, hp2⟩ := h2 q hq
    exact ⟨p, hp1, hp2.mono hg hk⟩
  · intro n p hp
    obtain ⟨q, hq, hn, hp⟩ := h5 n p hp
    exact ⟨q, hq, hn, hp.mono hg hk⟩

theorem grows_enterBlock (H : Host F W) (D : DeckState F W) (n c : String) : Grows D.store (enterBlock H D n c).store := by
  obtain ⟨l, hl, -⟩ := getClass_snd D c
  have e1 : (D.getClass c).2.store = D.store := by rw [hl]
  rcases hf : (D.getClass c).1.factory with _ | specs
  · rw [enterBlock_none H D n c hf]
    show Grows D.store (D.getClass c).2.store
    rw [e1]; exact Grows.refl _
  · rw [enterBlock_some H D n c specs hf]
    have : ∀ (specs : List (ParamSpec F)) s, Grows s.1.store (specs.foldl (addParameter H D.store.cursor) s).1.store := by
      intro specs
      induction specs with
      | nil => intro s; exact Grows.refl _
      | cons q qs ih => intro s; exact (grows_addParameter H _ s q).trans (ih _)
    have h := this specs ((D.getClass c).2, [])
    simp only [e1] at h ⊢
    exact h

theorem sinv_enterBlock {classes : List (String × ClassDesc F)} (hdist : DistinctNames classes) (H : Host F W) (D : DeckState F W)
    (n c : String) (h : SInv classes D)
    (hcur : ∃ Bv : BlockVars, D.store.blocks[D.store.cursor]? = some Bv ∧ Bv.className = c ∧ Bv.vars = []) :
    SInv classes (enterBlock H D n c) := by
  obtain ⟨l, hl, hl2, dd, hfind, hdd⟩ := getClass_snd D c
  obtain ⟨l0, hl0, hl0'⟩ := h.known
  obtain ⟨Bv, hBv, hBc, hBvars⟩ := hcur
  have e1 : (D.getClass c).2.store = D.store := by rw [hl]
  have e2 : (D.getClass c).2.tree = D.tree := by rw [hl]
  have e3 : (D.getClass c).2.heap = D.heap := by rw [hl]
  have e4 : (D.getClass c).2.classes = D.classes ++ l := by rw [hl]
  have hd : ∀ specs, (D.getClass c).1.factory = some specs → classes.lookup c = some (D.getClass c).1 := by
    intro specs hs
    rw [hdd] at hs ⊢
    unfold find at hfind
    rw [hl0, List.append_assoc, List.lookup_append] at hfind
    rcases hlk : classes.lookup c with _ | d'
    · rw [hlk, Option.none_or] at hfind
      have hmem : (c, dd) ∈ l0 ++ l := lookup_mem hfind
      rw [List.mem_append] at hmem
      rcases hmem with hm | hm
      · have := hl0' _ hm; rw [hs] at this; simp at this
      · have := hl2 _ hm; rw [hs] at this; simp at this
    · rw [hlk, Option.some_or] at hfind
      exact hfind
  rcases hf : (D.getClass c).1.factory with _ | specs
  · rw [enterBlock_none H D n c hf]
    have h' : SInv classes { (D.getClass c).2 with classes := D.classes } := by
      refine h.mono rfl ?_ ?_ ?_
      · intro k B hB; rw [← e2]; exact hB
      · show Grows D.store (D.getClass c).2.store
        rw [e1]; exact Grows.refl _
      · exact Keeps.of_eq e3
    refine ⟨⟨l0 ++ l, by show (D.getClass c).2.classes = _; rw [e4, hl0, List.append_assoc], ?_⟩, h'.blocks⟩
    intro p hp
    rcases List.mem_append.mp hp with hp | hp
    · exact hl0' p hp
    · exact hl2 p hp
  · have hgrow := grows_enterBlock H D n c
    have hkeep : Keeps D (enterBlock H D n c) := by
      obtain ⟨m, hm⟩ := enterBlock_heap H D n c
      exact Keeps.append m hm
    have hcls : ∃ l, (enterBlock H D n c).classes = classes ++ l ∧ ∀ p ∈ l, p.2.factory = none := by
      rw [enterBlock_some H D n c specs hf]
      have : ∀ (specs : List (ParamSpec F)) cc s, (specs.foldl (addParameter H cc) s).1.classes = s.1.classes := by
        intro specs cc
        induction specs with
        | nil => intro s; rfl
        | cons q qs ih => intro s; rw [List.foldl_cons, ih]; rfl
      refine ⟨l0 ++ l, (this specs _ ((D.getClass c).2, [])).trans (by rw [e4, hl0, List.append_assoc]), ?_⟩
      intro p hp
      rcases List.mem_append.mp hp with hp | hp
      · exact hl0' p hp
      · exact hl2 p hp
    refine ⟨hcls, ?_⟩
    intro k B hB
    have hB' := hB
    rw [enterBlock_some H D n c specs hf] at hB'
    rcases addChild_get _ _ k B hB' with ⟨A', hA', hctx, -, hpar⟩ | ⟨hk, hctx, -, hpar⟩
    · rw [params_tree, e2] at hA'
      obtain ⟨Bw, d, sp, h1, hdl, hfac, h2, h5⟩ := h.blocks k A' hA'
      obtain ⟨Bw', h3, h4, -⟩ := hgrow _ Bw h1
      rw [hctx, hpar]
      refine ⟨Bw', d, sp, h3, by rw [h4]; exact hdl, hfac, ?_, ?_⟩
      · intro q hq
        obtain ⟨p, hp1, hp2⟩ := h2 q hq
        exact ⟨p, hp1, hp2.mono hgrow hkeep⟩
      · intro m p hp
        obtain ⟨q, hq, hn, hp⟩ := h5 m p hp
        exact ⟨q, hq, hn, hp.mono hgrow hkeep⟩
    · simp only [e1] at hctx hpar
      obtain ⟨Bw', h3, h4, -⟩ := hgrow _ Bv hBv
      rw [hctx, hpar]
      obtain ⟨-, -, -, i4, i5⟩ := params_ok H D.store.cursor specs (hdist c _ specs (hd specs hf) hf) ((D.getClass c).2, [])
        (by simp only [e1]; exact (List.getElem?_eq_some_iff.mp hBv).1) (by
          rintro q' - v ⟨B', hB', hm⟩
          simp only [e1] at hB'
          rw [hBv, Option.some.injEq] at hB'
          rw [← hB', hBvars] at hm
          simp at hm)
      have hok : ∀ q p, ParamOk (specs.foldl (addParameter H D.store.cursor) ((D.getClass c).2, [])).1 D.store.cursor q p →
          ParamOk (enterBlock H D n c) D.store.cursor q p := by
        intro q p hp
        rw [enterBlock_some H D n c specs hf]
        simp only [e1]
        exact hp
      refine ⟨Bw', _, specs, h3, by rw [h4, hBc]; exact hd specs hf, hf, ?_, ?_⟩
      · intro q hq
        obtain ⟨p, hp1, hp2⟩ := i4 q hq
        exact ⟨p, hp1, hok q p hp2⟩
      · intro m p hp
        rcases i5 m p hp with hp | ⟨q, hq, hn, hp⟩
        · simp at hp
        · exact ⟨q, hq, hn, hok q p hp⟩

theorem sinv_step {classes : List (String × ClassDesc F)} (hdist : DistinctNames classes) (H : Host F W) (D : DeckState F W)
    (hinv : Vars.Inv D.store) (h : SInv classes D) (s : Stmt F) : SInv classes (D.step H s).2 := by
  have hk := step_keeps H D s
  cases s with
  | decl t ds =>
    obtain ⟨-, h2, h3, h4⟩ := same_declare H D t ds hinv
    refine h.mono h4 ?_ ?_ hk
    · intro k B hB
      rw [← h3]; exact hB
    · show Grows D.store (D.declare H t ds).2.store
      unfold declare
      split
      · exact Grows.refl _
      · rename_i l _
        have : ∀ (l : List (String × Option (Expr F W))) (D : DeckState F W), Grows D.store (chain (storeOne H t) l D).2.store := by
          intro l
          induction l with
          | nil => intro D; exact Grows.refl _
          | cons d l ih =>
            intro D
            have one : Grows D.store (storeOne H t D d).2.store := by
              unfold storeOne
              repeat' (first | split | exact Grows.refl _)
              rename_i st hst
              exact grows_addVariableTo hst
            rw [chain_cons]
            split
            · exact one.trans (ih _)
            · exact one
        exact this _ D
  | assign n e =>
    obtain ⟨h1, h2, h3⟩ := same_update H D n e
    refine h.mono h3 ?_ ?_ hk
    · intro k B hB; rw [← h2]; exact hB
    · show Grows D.store (D.update H n e).2.store
      rw [h1]; exact Grows.refl _
  | start c n =>
    show SInv classes (D.createBlock H c n).2
    unfold DeckState.createBlock
    split
    · exact h
    · split
      · exact h
      · rename_i st hst
        refine sinv_enterBlock hdist H { D with store := st } n c ?_ ?_
        · exact h.mono rfl (fun _ _ h => h) (grows_createBlock hst) (Keeps.of_eq rfl)
        · obtain ⟨hc, -, -⟩ := Vars.createBlock_cursor hst
          have := Vars.createBlock_blocks hst D.store.blocks.length
          rw [if_pos rfl] at this
          simp only [hc]
          exact ⟨_, this, rfl, rfl⟩
  | stop =>
    show SInv classes D.endBlock.2
    unfold endBlock
    split
    · exact h
    · refine h.mono rfl ?_ (Grows.refl _) (Keeps.of_eq rfl)
      intro k B hB
      rw [← hB]
      show _ = D.tree.moveUp.blocks[k]?
      unfold BlockTree.moveUp
      split <;> rfl

theorem sinv_after (P : Program F W) (hdist : DistinctNames P.classes) (deck : List (Stmt F)) : SInv P.classes (P.after deck) := by
  have hrun : ∀ (D : DeckState F W), SInv P.classes D → DInv D → SInv P.classes (chain (step P.host) deck D).2 := by
    induction deck with
    | nil => intro D h _; exact h
    | cons s ss ih =>
      intro D h hinv
      rw [chain_cons]
      split
      · exact ih _ (sinv_step hdist P.host D hinv.store h s) (dinv_step P.host D s hinv)
      · exact sinv_step hdist P.host D hinv.store h s
  refine hrun P.begin (sinv_enterBlock hdist P.host _ _ _ ⟨⟨[], by simp [initial], by simp⟩, ?_⟩ ⟨_, rfl, rfl, rfl⟩) (dinv_after P [])
  intro k B hB
  simp [initial, BlockTree.empty] at hB

end Schnek.Lemma.Blocks
