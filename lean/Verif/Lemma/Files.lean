import Verif.Lemma.ParamSpec
import Verif.Lemma.DeckFinish
import Verif.Spec.Files

namespace Schnek.Lemma.Files

open Schnek.Deck Schnek.Spec Schnek.Lemma.Deck Schnek.Lemma.Blocks Relation DeckState

variable {F W : Type}

/-- what is kept of a variable -/
def Persist (x x' : Variable F W) : Prop :=
  x'.ty = x.ty ∧ x'.readOnly = x.readOnly ∧
    (x.readOnly = true → x'.expression = x.expression ∧ x'.fixed = x.fixed ∧ (x.fixed = true → x'.value = x.value))

theorem Persist.refl (x : Variable F W) : Persist x x := ⟨rfl, rfl, fun _ => ⟨rfl, rfl, fun _ => rfl⟩⟩

theorem Persist.trans {x y z : Variable F W} (h : Persist x y) (h' : Persist y z) : Persist x z := by
  obtain ⟨a1, a2, a3⟩ := h
  obtain ⟨b1, b2, b3⟩ := h'
  refine ⟨b1.trans a1, b2.trans a2, fun hr => ?_⟩
  obtain ⟨c1, c2, c3⟩ := a3 hr
  obtain ⟨d1, d2, d3⟩ := b3 (by rw [a2]; exact hr)
  exact ⟨d1.trans c1, d2.trans c2, fun hf => (d3 (by rw [c2]; exact hf)).trans (c3 hf)⟩

/-- reading only adds -/
structure Later (D D' : DeckState F W) : Prop where
  grows : Grows D.store D'.store
  persist : ∀ (v : ℕ) (x : Variable F W), D.heap[v]? = some x → ∃ x' : Variable F W, D'.heap[v]? = some x' ∧ Persist x x'
  ext : ∀ t < D.nextExt, D'.ext t = D.ext t
  next : D.nextExt ≤ D'.nextExt
  len : D.heap.length ≤ D'.heap.length
  fresh : ∀ b n v, Declares D'.store b n v → v < D.heap.length → Declares D.store b n v
  cls : ∃ l, D'.classes = D.classes ++ l

theorem Later.of_eq {D D' : DeckState F W} (h1 : D'.store.blocks = D.store.blocks) (h2 : D'.heap = D.heap) (h3 : D'.ext = D.ext)
    (h4 : D'.nextExt = D.nextExt) (h5 : D'.classes = D.classes) : Later D D' where
  grows := by
    intro b B hB
    exact ⟨B, by rw [h1]; exact hB, rfl, fun _ h => h⟩
  persist := by
    intro v x hx
    exact ⟨x, by rw [h2]; exact hx, .refl x⟩
  ext := by
    intro t _
    rw [h3]
  next := by rw [h4]
  len := by rw [h2]
  fresh := by
    rintro b n v ⟨B, hB, hm⟩ _
    exact ⟨B, by rw [← h1]; exact hB, hm⟩
  cls := ⟨[], by rw [h5, List.append_nil]⟩

theorem Later.refl (D : DeckState F W) : Later D D := .of_eq rfl rfl rfl rfl rfl

theorem Later.trans {D D' D'' : DeckState F W} (h : Later D D') (h' : Later D' D'') : Later D D'' where
  grows := h.grows.trans h'.grows
  persist := by
    intro v x hx
    obtain ⟨x', h1, h2⟩ := h.persist v x hx
    obtain ⟨x'', h3, h4⟩ := h'.persist v x' h1
    exact ⟨x'', h3, h2.trans h4⟩
  ext := by
    intro t ht
    rw [h'.ext t (Nat.lt_of_lt_of_le ht h.next), h.ext t ht]
  next := Nat.le_trans h.next h'.next
  len := Nat.le_trans h.len h'.len
  fresh := fun b n v hd hv => h.fresh b n v (h'.fresh b n v hd (Nat.lt_of_lt_of_le hv h.len)) hv
  cls := by
    obtain ⟨l, h1⟩ := h.cls
    obtain ⟨l', h2⟩ := h'.cls
    exact ⟨l ++ l', by rw [h2, h1, List.append_assoc]⟩

theorem persist_append {D D' : DeckState F W} (l : List (Variable F W)) (h : D'.heap = D.heap ++ l) :
    ∀ (v : ℕ) (x : Variable F W), D.heap[v]? = some x → ∃ x' : Variable F W, D'.heap[v]? = some x' ∧ Persist x x' := by
  intro v x hx
  refine ⟨x, ?_, .refl x⟩
  rw [h, List.getElem?_append_left (List.getElem?_eq_some_iff.mp hx).1]
  exact hx

/-- adding a variable -/
theorem later_push {D D' : DeckState F W} {b : ℕ} {n : String} {x : Variable F W} {S : Storage}
    (hS : D.store.addVariableTo b n D.heap.length = some S) (h1 : D'.store = S) (h2 : D'.heap = D.heap ++ [x])
    (h3 : ∀ t < D.nextExt, D'.ext t = D.ext t) (h4 : D.nextExt ≤ D'.nextExt) (h5 : D'.classes = D.classes) : Later D D' where
  grows := by rw [h1]; exact grows_addVariableTo hS
  persist := persist_append [x] h2
  ext := h3
  next := h4
  len := by rw [h2]; simp
  fresh := by
    intro b' n' v hd hv
    rw [h1] at hd
    rcases (Vars.addVariableTo_declares hS b' n' v).mp hd with h | ⟨-, -, -, rfl⟩
    · exact h
    · exact absurd hv (Nat.lt_irrefl _)
  cls := ⟨[], by rw [h5, List.append_nil]⟩

theorem later_addParameter (H : Host F W) (c : ℕ) (s : DeckState F W × List (String × BlockParam)) (q : ParamSpec F) :
    Later s.1 (addParameter H c s q).1 := by
  have hext : ∀ t < s.1.nextExt, (addParameter H c s q).1.ext t = s.1.ext t := by
    intro t ht
    show Function.update s.1.ext s.1.nextExt _ t = _
    rw [Function.update_of_ne (Nat.ne_of_lt ht)]
  have hnext : s.1.nextExt ≤ (addParameter H c s q).1.nextExt := Nat.le_succ _
  rcases h : s.1.store.addVariableTo c q.name s.1.heap.length with _ | T
  · have hst : (addParameter H c s q).1.store = s.1.store := by
      show (s.1.store.addVariableTo c q.name s.1.heap.length).getD s.1.store = _
      rw [h]; rfl
    refine ⟨by rw [hst]; exact Grows.refl _, persist_append [_] rfl, hext, hnext, ?_, ?_, [], by simp [addParameter]⟩
    · show _ ≤ (s.1.heap ++ [_]).length
      simp
    · intro b n v hd _
      rw [hst] at hd
      exact hd
  · refine later_push h ?_ rfl hext hnext rfl
    show (s.1.store.addVariableTo c q.name s.1.heap.length).getD s.1.store = _
    rw [h]; rfl

theorem later_params (H : Host F W) (c : ℕ) (specs : List (ParamSpec F)) :
    ∀ s : DeckState F W × List (String × BlockParam), Later s.1 (specs.foldl (addParameter H c) s).1 := by
  induction specs with
  | nil => intro s; exact .refl _
  | cons q qs ih => intro s; exact (later_addParameter H c s q).trans (ih _)

theorem later_enterBlock (H : Host F W) (D : DeckState F W) (n c : String) : Later D (enterBlock H D n c) := by
  obtain ⟨l, hl, -⟩ := getClass_snd D c
  have h0 : Later D (D.getClass c).2 := by
    rw [hl]
    exact ⟨Grows.refl _, fun v x hx => ⟨x, hx, .refl x⟩, fun _ _ => rfl, Nat.le_refl _, Nat.le_refl _, fun _ _ _ h _ => h, l, rfl⟩
  rcases hf : (D.getClass c).1.factory with _ | specs
  · rw [enterBlock_none H D n c hf]
    exact h0.trans (.of_eq rfl rfl rfl rfl rfl)
  · rw [enterBlock_some H D n c specs hf]
    exact (h0.trans (later_params H _ specs ((D.getClass c).2, []))).trans (.of_eq rfl rfl rfl rfl rfl)

theorem later_storeOne (H : Host F W) (t : Ty) (D : DeckState F W) (d : String × Option (Expr F W)) :
    Later D (storeOne H t D d).2 := by
  unfold storeOne
  split
  · exact .refl _
  · split
    · exact .refl _
    · split
      · exact .of_eq rfl rfl rfl rfl rfl
      · split
        · exact .of_eq rfl rfl rfl rfl rfl
        · rename_i st hst
          exact later_push hst rfl rfl (fun _ _ => rfl) (Nat.le_refl _) rfl

theorem later_chain {α : Type} (f : DeckState F W → α → Bool × DeckState F W) (hf : ∀ D a, Later D (f D a).2) :
    ∀ (l : List α) (D : DeckState F W), Later D (chain f l D).2 := by
  intro l
  induction l with
  | nil => intro D; exact .refl _
  | cons a l ih =>
    intro D
    rw [chain_cons]
    split
    · exact (hf D a).trans (ih _)
    · exact hf D a

theorem later_declare (H : Host F W) (D : DeckState F W) (t : Ty) (ds) : Later D (D.declare H t ds).2 := by
  unfold declare
  split
  · exact .refl _
  · exact later_chain _ (later_storeOne H t) _ D

theorem later_update (H : Host F W) (D : DeckState F W) (n : String) (e) : Later D (D.update H n e).2 := by
  obtain ⟨h1, -, h3⟩ := same_update H D n e
  have hk := update_keeps H D n e
  have hl : (D.update H n e).2.heap.length = D.heap.length ∧ (D.update H n e).2.ext = D.ext ∧ (D.update H n e).2.nextExt = D.nextExt := by
    rcases hb : (D.update H n e).1 with _ | _
    · obtain ⟨k, -, h'⟩ := update_false hb
      rw [h']; exact ⟨rfl, rfl, rfl⟩
    · obtain ⟨e', w, y, z, y', -, hw, -, -, -, h'⟩ := update_true hb
      rw [h']; exact ⟨by simp, rfl, rfl⟩
  refine ⟨by rw [h1]; exact Grows.refl _, ?_, by rw [hl.2.1]; exact fun _ _ => rfl, by rw [hl.2.2], by rw [hl.1], ?_, [], by rw [h3, List.append_nil]⟩
  · intro v x hx
    obtain ⟨x', hx', a1, a2, a3⟩ := hk v x hx
    exact ⟨x', hx', a1, a2, fun hr => by rw [a3 hr]; exact ⟨rfl, rfl, fun _ => rfl⟩⟩
  · intro b m v hd _
    rw [h1] at hd
    exact hd

theorem later_createBlock (H : Host F W) (D : DeckState F W) (c n : String) : Later D (D.createBlock H c n).2 := by
  unfold DeckState.createBlock
  split
  · exact .refl _
  · split
    · exact .refl _
    · rename_i st hst
      refine Later.trans (D' := { D with store := st }) ⟨grows_createBlock hst, fun v x hx => ⟨x, hx, .refl x⟩, fun _ _ => rfl, Nat.le_refl _,
        Nat.le_refl _, fun b m v hd _ => (Vars.createBlock_declares hst b m v).mp hd, [], by simp⟩ (later_enterBlock H _ n c)

theorem later_endBlock (D : DeckState F W) : Later D D.endBlock.2 := by
  unfold endBlock
  split
  · exact .refl _
  · exact .of_eq rfl rfl rfl rfl rfl

theorem later_step (H : Host F W) (D : DeckState F W) (s : Stmt F) : Later D (D.step H s).2 := by
  cases s with
  | decl t ds => exact later_declare H D t ds
  | assign n e => exact later_update H D n e
  | start c n => exact later_createBlock H D c n
  | stop => exact later_endBlock D

theorem later_run (H : Host F W) (D : DeckState F W) (deck : List (Stmt F)) : Later D (D.run H deck).2 :=
  later_chain _ (later_step H) deck D

/-! ### the end of a file -/

theorem finish_shape {H : Host F W} {D D' : DeckState F W} (h : D.finish H = some D') : ∃ σ, D' = D.withDummy.setValues σ := by
  unfold DeckState.finish at h
  obtain ⟨M, -, h⟩ := Option.bind_eq_some_iff.mp h
  obtain ⟨σ, -, h⟩ := Option.map_eq_some_iff.mp h
  exact ⟨σ, h.symm⟩

theorem later_finish {H : Host F W} {D D' : DeckState F W} (hi : DInv D) (h : D.finish H = some D') : Later D D' := by
  obtain ⟨h1, -, -, h4, h5, -⟩ := (finish_spec H hi).1 D' h
  obtain ⟨σ, hσ⟩ := finish_shape h
  refine ⟨by rw [h1]; exact Grows.refl _, ?_, h4, ?_, ?_, by rw [h1]; exact fun _ _ _ h _ => h, [], by rw [hσ]; simp [setValues, withDummy]⟩
  · intro v x hx
    obtain ⟨val, e1, e2⟩ := h5 v x hx
    refine ⟨_, e1, rfl, rfl, fun _ => ⟨rfl, rfl, fun hf => ?_⟩⟩
    rcases e2 with e2 | ⟨e, -, x', hx', hf', -⟩
    · exact e2
    · rw [hx, Option.some.injEq] at hx'
      rw [← hx', hf] at hf'
      cases hf'
  · rw [hσ]
    exact Nat.le_succ _
  · rw [hσ]
    show _ ≤ (D.withDummy.heap.mapIdx _).length
    simp [withDummy]

theorem dinv_finish {H : Host F W} {D D' : DeckState F W} (hi : DInv D) (h : D.finish H = some D') : DInv D' := by
  obtain ⟨-, -, -, -, h5, -⟩ := (finish_spec H hi).1 D' h
  obtain ⟨σ, hσ⟩ := finish_shape h
  have hd := dinv_withDummy hi
  have hget : ∀ (v : ℕ) (y : Variable F W), D'.heap[v]? = some y → ∃ x : Variable F W, D.withDummy.heap[v]? = some x ∧
      y = { x with value := σ.value v } := by
    intro v y hy
    rw [hσ] at hy
    simp only [setValues, List.getElem?_mapIdx, Option.map_eq_some_iff] at hy
    obtain ⟨x, hx, rfl⟩ := hy
    exact ⟨x, hx, rfl⟩
  have hst : D'.store = D.withDummy.store := by rw [hσ]; rfl
  have hn : D'.nextId = D.withDummy.nextId := by rw [hσ]; rfl
  refine ⟨by rw [hst]; exact hd.store, ?_, by rw [hst]; exact hd.once, ?_, ?_, ?_, ?_, by rw [hn]; exact hd.next⟩
  · intro b n v hv
    rw [hst] at hv
    have := hd.bound b n v hv
    rw [hσ]
    simpa [setValues] using this
  · intro v y hy
    obtain ⟨x, hx, rfl⟩ := hget v y hy
    have ht := hd.typed v x hx
    refine ⟨fun hf => ?_, ht.2⟩
    have hf : x.fixed = true := hf
    rcases get_push (show (D.heap ++ [_])[v]? = some x from hx) with hx' | ⟨-, rfl⟩
    · obtain ⟨val, e1, e2⟩ := h5 v x hx'
      rw [hy, Option.some.injEq] at e1
      have e1 : σ.value v = val := congrArg Variable.value e1
      rcases e2 with e2 | ⟨e, -, x', hx'', hf', -⟩
      · show (σ.value v).ty = x.ty
        rw [e1, e2]
        exact ht.1 hf
      · rw [hx', Option.some.injEq] at hx''
        rw [← hx'', hf] at hf'
        cases hf'
    · simp [Variable.ofExpr] at hf
  · intro v y hy
    obtain ⟨x, hx, rfl⟩ := hget v y hy
    exact hd.nonneg v x hx
  · intro v y hy
    obtain ⟨x, hx, rfl⟩ := hget v y hy
    rw [hn]
    exact hd.lt v x hx
  · intro v w y z hy hz he
    obtain ⟨x, hx, rfl⟩ := hget v y hy
    obtain ⟨x', hx', rfl⟩ := hget w z hz
    exact hd.inj v w x x' hx hx' he

theorem readFile_spec (H : Host F W) (D : DeckState F W) (hi : DInv D) (deck : List (Stmt F)) :
    DInv (D.readFile H deck).2 ∧ Later (D.run H deck).2 (D.readFile H deck).2 := by
  have h1 := dinv_run H D deck hi
  unfold readFile
  split
  · rename_i D' hr
    rw [hr] at h1
    split
    · rename_i D'' hf
      exact ⟨dinv_finish h1 hf, by rw [hr]; exact later_finish h1 hf⟩
    · exact ⟨h1, by rw [hr]; exact .refl _⟩
  · rename_i D' hr
    rw [hr] at h1 ⊢
    exact ⟨h1, .refl _⟩

theorem later_again (H : Host F W) (D : DeckState F W) : Later D (D.again H) := by
  unfold again
  split
  · exact (Later.of_eq (D := D) (D' := { D with tree := BlockTree.empty }) rfl rfl rfl rfl rfl).trans (later_enterBlock H _ _ _)
  · exact .of_eq rfl rfl rfl rfl rfl

theorem dinv_again (H : Host F W) (D : DeckState F W) (hi : DInv D) : DInv (D.again H) := by
  have h0 : DInv { D with tree := BlockTree.empty } := hi.congr rfl rfl (Int.le_refl _)
  unfold again
  split
  · exact dinv_enterBlock H _ _ _ h0
  · exact h0

theorem dinv_next (P : Program F W) (previous : List (List (Stmt F))) : ∀ D, DInv D →
    DInv (previous.foldl (fun D file => (D.readFile P.host file).2.again P.host) D) := by
  induction previous with
  | nil => intro D h; exact h
  | cons f fs ih => intro D h; exact ih _ (dinv_again _ _ (readFile_spec _ _ h f).1)

theorem dinv_beginNext (P : Program F W) (previous : List (List (Stmt F))) : DInv (P.beginNext previous) :=
  dinv_next P previous P.begin (dinv_after P [])

theorem later_next (P : Program F W) (previous : List (List (Stmt F))) : ∀ D, DInv D →
    Later D (previous.foldl (fun D file => (D.readFile P.host file).2.again P.host) D) := by
  induction previous with
  | nil => intro D h; exact .refl _
  | cons f fs ih =>
    intro D h
    obtain ⟨h1, h2⟩ := readFile_spec P.host D h f
    exact (((later_run P.host D f).trans h2).trans (later_again _ _)).trans (ih _ (dinv_again _ _ h1))

theorem beginNext_append (P : Program F W) (previous : List (List (Stmt F))) (f : List (Stmt F)) (more : List (List (Stmt F))) :
    P.beginNext (previous ++ f :: more) =
      more.foldl (fun D file => (D.readFile P.host file).2.again P.host) (((P.beginNext previous).readFile P.host f).2.again P.host) := by
  unfold Program.beginNext
  rw [List.foldl_append, List.foldl_cons]

theorem later_files (P : Program F W) (previous : List (List (Stmt F))) (f : List (Stmt F)) (more : List (List (Stmt F)))
    (deck : List (Stmt F)) : Later (P.afterNext previous f) (P.afterNext (previous ++ f :: more) deck) := by
  obtain ⟨h1, h2⟩ := readFile_spec P.host _ (dinv_beginNext P previous) f
  unfold Program.afterNext
  rw [beginNext_append]
  exact ((h2.trans (later_again _ _)).trans (later_next P more _ (dinv_again _ _ h1))).trans (later_run _ _ deck)

/-! ### the program's variables -/

/-- what a member of a block holds until its parameters are evaluated -/
def initial? (q : ParamSpec F) : Val F := if q.readOnly = true then q.default.getD q.current else q.current

theorem params_ext (H : Host F W) (c : ℕ) (specs : List (ParamSpec F)) :
    ∀ s : DeckState F W × List (String × BlockParam), ∀ n p t, (n, p) ∈ (specs.foldl (addParameter H c) s).2 → p.target = some t →
      (n, p) ∈ s.2 ∨ ∃ q ∈ specs, q.name = n ∧ t < (specs.foldl (addParameter H c) s).1.nextExt ∧
        (specs.foldl (addParameter H c) s).1.ext t = initial? q := by
  induction specs with
  | nil => intro s n p t h _; exact Or.inl h
  | cons q qs ih =>
    intro s n p t h ht
    rw [List.foldl_cons] at h ⊢
    rcases ih _ n p t h ht with h | ⟨q', h1, h2⟩
    · have h : (n, p) ∈ setParam s.2 q.name _ := h
      unfold setParam at h
      rcases List.mem_append.mp h with h | h
      · exact Or.inl (List.mem_of_mem_filter h)
      · right
        simp only [List.mem_singleton, Prod.mk.injEq] at h
        obtain ⟨rfl, rfl⟩ := h
        simp only at ht
        have hc : q.constant = false := by
          rcases hc : q.constant with _ | _
          · rfl
          · rw [hc] at ht; simp at ht
        rw [hc, if_neg (by simp), Option.some.injEq] at ht
        subst ht
        have hl := later_params H c qs (addParameter H c s q)
        have hlt : s.1.nextExt < (addParameter H c s q).1.nextExt := Nat.lt_succ_self _
        refine ⟨q, by simp, rfl, Nat.lt_of_lt_of_le hlt hl.next, ?_⟩
        rw [hl.ext _ hlt]
        show Function.update s.1.ext s.1.nextExt _ s.1.nextExt = _
        rw [Function.update_self, initial?]
        by_cases hr : q.readOnly = true
        · rw [if_pos ⟨hr, by rw [hc]; simp⟩, if_pos hr]
        · rw [if_neg (fun h => hr h.1), if_neg hr]
    · exact Or.inr ⟨q', by simp [h1], h2⟩

/-- members of blocks have not been changed -/
def EInv (classes : List (String × ClassDesc F)) (D : DeckState F W) : Prop :=
  (∃ l, D.classes = classes ++ l ∧ ∀ p ∈ l, p.2.factory = none) ∧
  ∀ (k : ℕ) (B : Block), D.tree.blocks[k]? = some B → ∃ (Bv : BlockVars) (d : ClassDesc F) (specs : List (ParamSpec F)),
    D.store.blocks[B.context]? = some Bv ∧ classes.lookup Bv.className = some d ∧ d.factory = some specs ∧
    ∀ n p t, (n, p) ∈ B.params → p.target = some t → ∃ q ∈ specs, q.name = n ∧ t < D.nextExt ∧ D.ext t = initial? q

theorem EInv.mono {classes : List (String × ClassDesc F)} {D D' : DeckState F W} (h : EInv classes D) (hc : D'.classes = D.classes)
    (ht : ∀ (k : ℕ) (B : Block), D'.tree.blocks[k]? = some B → D.tree.blocks[k]? = some B) (hl : Later D D') : EInv classes D' := by
  refine ⟨by rw [hc]; exact h.1, fun k B hB => ?_⟩
  obtain ⟨Bv, d, specs, h1, h2, h3, h4⟩ := h.2 k B (ht k B hB)
  obtain ⟨Bv', g1, g2, -⟩ := hl.grows _ Bv h1
  refine ⟨Bv', d, specs, g1, by rw [g2]; exact h2, h3, fun n p t hp hpt => ?_⟩
  obtain ⟨q, f1, f2, f3, f4⟩ := h4 n p t hp hpt
  exact ⟨q, f1, f2, Nat.lt_of_lt_of_le f3 hl.next, by rw [hl.ext t f3, f4]⟩

theorem einv_enterBlock {classes : List (String × ClassDesc F)} (H : Host F W) (D : DeckState F W) (n c : String) (h : EInv classes D)
    (hcur : ∃ Bv : BlockVars, D.store.blocks[D.store.cursor]? = some Bv ∧ Bv.className = c) : EInv classes (enterBlock H D n c) := by
  obtain ⟨l, hl, hl2, dd, hfind, hdd⟩ := getClass_snd D c
  obtain ⟨l0, hl0, hl0'⟩ := h.1
  obtain ⟨Bv, hBv, hBc⟩ := hcur
  have e1 : (D.getClass c).2.store = D.store := by rw [hl]
  have e2 : (D.getClass c).2.tree = D.tree := by rw [hl]
  have e4 : (D.getClass c).2.classes = D.classes ++ l := by rw [hl]
  have hd : ∀ specs, (D.getClass c).1.factory = some specs → classes.lookup c = some (D.getClass c).1 := by
    intro specs hs
    rw [hdd] at hs ⊢
    unfold find at hfind
    rw [hl0, List.append_assoc, List.lookup_append] at hfind
    rcases hlk : classes.lookup c with _ | d'
    · rw [hlk, Option.none_or] at hfind
      have hmem : (c, dd) ∈ l0 ++ l := lookup_mem hfind
      rw [List.mem_append] at hmem
      rcases hmem with hm | hm
      · have := hl0' _ hm; rw [hs] at this; simp at this
      · have := hl2 _ hm; rw [hs] at this; simp at this
    · rw [hlk, Option.some_or] at hfind
      exact hfind
  have hall : ∀ p ∈ l0 ++ l, p.2.factory = none := by
    intro p hp
    rcases List.mem_append.mp hp with hp | hp
    · exact hl0' p hp
    · exact hl2 p hp
  have hlater := later_enterBlock H D n c
  rcases hf : (D.getClass c).1.factory with _ | specs
  · have h' : EInv classes { enterBlock H D n c with classes := D.classes } := by
      refine h.mono rfl ?_ ⟨hlater.grows, hlater.persist, hlater.ext, hlater.next, hlater.len, hlater.fresh, [], by simp⟩
      intro k B hB
      rw [← e2]
      rw [enterBlock_none H D n c hf] at hB
      exact hB
    refine ⟨⟨l0 ++ l, ?_, hall⟩, h'.2⟩
    rw [enterBlock_none H D n c hf]
    show (D.getClass c).2.classes = _
    rw [e4, hl0, List.append_assoc]
  · have hcls : (enterBlock H D n c).classes = classes ++ (l0 ++ l) := by
      rw [enterBlock_some H D n c specs hf]
      have : ∀ (specs : List (ParamSpec F)) cc s, (specs.foldl (addParameter H cc) s).1.classes = s.1.classes := by
        intro specs cc
        induction specs with
        | nil => intro s; rfl
        | cons q qs ih => intro s; rw [List.foldl_cons, ih]; rfl
      exact (this specs _ ((D.getClass c).2, [])).trans (by rw [e4, hl0, List.append_assoc])
    refine ⟨⟨l0 ++ l, hcls, hall⟩, ?_⟩
    intro k B hB
    have hB' := hB
    rw [enterBlock_some H D n c specs hf] at hB'
    rcases addChild_get _ _ k B hB' with ⟨A', hA', hctx, -, hpar⟩ | ⟨hk, hctx, -, hpar⟩
    · rw [params_tree, e2] at hA'
      obtain ⟨Bw, d, sp, h1, hdl, hfac, h4⟩ := h.2 k A' hA'
      obtain ⟨Bw', h3, h5, -⟩ := hlater.grows _ Bw h1
      rw [hctx, hpar]
      refine ⟨Bw', d, sp, h3, by rw [h5]; exact hdl, hfac, fun m p t hp hpt => ?_⟩
      obtain ⟨q, f1, f2, f3, f4⟩ := h4 m p t hp hpt
      exact ⟨q, f1, f2, Nat.lt_of_lt_of_le f3 hlater.next, by rw [hlater.ext t f3, f4]⟩
    · simp only [e1] at hctx hpar
      obtain ⟨Bw', h3, h4, -⟩ := hlater.grows _ Bv hBv
      rw [hctx, hpar]
      refine ⟨Bw', _, specs, h3, by rw [h4, hBc]; exact hd specs hf, hf, fun m p t hp hpt => ?_⟩
      rcases params_ext H D.store.cursor specs ((D.getClass c).2, []) m p t hp hpt with h | ⟨q, f1, f2, f3, f4⟩
      · simp at h
      · refine ⟨q, f1, f2, ?_, ?_⟩
        · rw [enterBlock_some H D n c specs hf]
          simp only [e1]
          exact f3
        · rw [enterBlock_some H D n c specs hf]
          simp only [e1]
          exact f4

theorem einv_step {classes : List (String × ClassDesc F)} (H : Host F W) (D : DeckState F W)
    (hinv : Vars.Inv D.store) (h : EInv classes D) (s : Stmt F) : EInv classes (D.step H s).2 := by
  have hl := later_step H D s
  cases s with
  | decl t ds =>
    obtain ⟨-, -, h3, h4⟩ := same_declare H D t ds hinv
    refine h.mono h4 ?_ hl
    intro k B hB
    rw [← h3]; exact hB
  | assign n e =>
    obtain ⟨h1, h2, h3⟩ := same_update H D n e
    refine h.mono h3 ?_ hl
    intro k B hB; rw [← h2]; exact hB
  | start c n =>
    show EInv classes (D.createBlock H c n).2
    unfold DeckState.createBlock
    split
    · exact h
    · split
      · exact h
      · rename_i st hst
        refine einv_enterBlock H { D with store := st } n c ?_ ?_
        · exact h.mono rfl (fun _ _ h => h) ⟨grows_createBlock hst, fun v x hx => ⟨x, hx, .refl x⟩, fun _ _ => rfl, Nat.le_refl _,
            Nat.le_refl _, fun b m v hd _ => (Vars.createBlock_declares hst b m v).mp hd, [], by simp⟩
        · obtain ⟨hc, -, -⟩ := Vars.createBlock_cursor hst
          have := Vars.createBlock_blocks hst D.store.blocks.length
          rw [if_pos rfl] at this
          simp only [hc]
          exact ⟨_, this, rfl⟩
  | stop =>
    refine h.mono ?_ ?_ hl
    · show D.endBlock.2.classes = _
      unfold endBlock
      split <;> rfl
    · intro k B hB
      have hB : D.endBlock.2.tree.blocks[k]? = some B := hB
      unfold endBlock at hB
      split at hB
      · exact hB
      · rw [← hB]
        show _ = D.tree.moveUp.blocks[k]?
        unfold BlockTree.moveUp
        split <;> rfl

theorem einv_after (P : Program F W) (deck : List (Stmt F)) : EInv P.classes (P.after deck) := by
  have hrun : ∀ (D : DeckState F W), EInv P.classes D → DInv D → EInv P.classes (chain (step P.host) deck D).2 := by
    induction deck with
    | nil => intro D h _; exact h
    | cons s ss ih =>
      intro D h hinv
      rw [chain_cons]
      split
      · exact ih _ (einv_step P.host D hinv.store h s) (dinv_step P.host D s hinv)
      · exact einv_step P.host D hinv.store h s
  refine hrun P.begin (einv_enterBlock P.host _ _ _ ⟨⟨[], by simp [initial], by simp⟩, ?_⟩ ⟨_, rfl, rfl⟩) (dinv_after P [])
  intro k B hB
  simp [initial, BlockTree.empty] at hB

/-! ### the root block of a further file -/

theorem params_mem (H : Host F W) (c : ℕ) (specs : List (ParamSpec F)) :
    ∀ s : DeckState F W × List (String × BlockParam), ∀ n p, (n, p) ∈ s.2 → n ∉ specs.map ParamSpec.name →
      (n, p) ∈ (specs.foldl (addParameter H c) s).2 := by
  induction specs with
  | nil => intro s n p h _; exact h
  | cons q qs ih =>
    intro s n p h hn
    rw [List.map_cons, List.mem_cons, not_or] at hn
    refine ih _ n p ?_ hn.2
    show _ ∈ setParam s.2 q.name _
    unfold setParam
    simp [h, hn.1]

theorem params_declares (H : Host F W) (c : ℕ) (specs : List (ParamSpec F)) :
    ∀ s : DeckState F W × List (String × BlockParam), c < s.1.store.blocks.length → ∀ q ∈ specs,
      ∃ v, Declares (specs.foldl (addParameter H c) s).1.store c q.name v := by
  induction specs with
  | nil => intro s _ q hq; cases hq
  | cons q qs ih =>
    intro s hc q' hq'
    rw [List.foldl_cons]
    rcases List.mem_cons.mp hq' with rfl | hq'
    · have : ∃ v, Declares (addParameter H c s q').1.store c q'.name v := by
        have hst : (addParameter H c s q').1.store = (s.1.store.addVariableTo c q'.name s.1.heap.length).getD s.1.store := rfl
        rcases h : s.1.store.addVariableTo c q'.name s.1.heap.length with _ | T
        · rw [hst, h]
          unfold Storage.addVariableTo at h
          split at h
          · rename_i hs
            obtain ⟨v, hv⟩ := Option.isSome_iff_exists.mp hs
            refine ⟨v, ?_⟩
            unfold Storage.varOf at hv
            obtain ⟨B, hB, hv⟩ := Option.bind_eq_some_iff.mp hv
            exact ⟨B, hB, lookup_mem hv⟩
          · cases h
        · rw [hst, h]
          exact ⟨_, (Vars.addVariableTo_declares h _ _ _).mpr (Or.inr ⟨rfl, hc, rfl, rfl⟩)⟩
      obtain ⟨v, hv⟩ := this
      exact ⟨v, (later_params H c qs _).grows.declares hv⟩
    · refine ih _ ?_ q' hq'
      obtain ⟨B, hB, -⟩ := (later_addParameter H c s q).grows c _ (List.getElem?_eq_getElem hc)
      exact (List.getElem?_eq_some_iff.mp hB).1

theorem params_orphan (H : Host F W) (c : ℕ) (specs : List (ParamSpec F)) (q : ParamSpec F) (hq : q ∈ specs) (hqc : q.constant = false) :
    ∀ s : DeckState F W × List (String × BlockParam), DInv s.1 → (specs.map ParamSpec.name).Nodup → (∃ v, Declares s.1.store c q.name v) →
      ∃ v t, (q.name, ⟨v, some t⟩) ∈ (specs.foldl (addParameter H c) s).2 ∧ v < (specs.foldl (addParameter H c) s).1.heap.length ∧
        ∀ b n, ¬ Declares (specs.foldl (addParameter H c) s).1.store b n v := by
  induction specs with
  | nil => cases hq
  | cons q' qs ih =>
    intro s hi hnd hdecl
    rw [List.map_cons, List.nodup_cons] at hnd
    rw [List.foldl_cons]
    have hdi := dinv_addParameter H c s q' hi
    have hl := later_params H c qs (addParameter H c s q')
    by_cases he : q = q'
    · subst he
      obtain ⟨v0, hv0⟩ := hdecl
      have hnone : s.1.store.addVariableTo c q.name s.1.heap.length = none := by
        unfold Storage.addVariableTo
        rw [(Vars.varOf_iff hi.store c q.name v0).mpr hv0]
        rfl
      have hlen : s.1.heap.length < (addParameter H c s q).1.heap.length := by
        show _ < (s.1.heap ++ [_]).length
        simp
      refine ⟨s.1.heap.length, s.1.nextExt, ?_, Nat.lt_of_lt_of_le hlen hl.len, ?_⟩
      · refine params_mem H c qs _ _ _ ?_ hnd.1
        show _ ∈ setParam s.2 q.name _
        unfold setParam
        simp [hqc]
      · intro b n hd
        have := hl.fresh b n _ hd hlen
        have hst : (addParameter H c s q).1.store = s.1.store := by
          show (s.1.store.addVariableTo c q.name s.1.heap.length).getD s.1.store = _
          rw [hnone]; rfl
        rw [hst] at this
        exact absurd (hi.bound b n _ this) (Nat.lt_irrefl _)
    · have hq : q ∈ qs := (List.mem_cons.mp hq).resolve_left he
      obtain ⟨v, hv⟩ := hdecl
      exact ih hq _ hdi hnd.2 ⟨v, (later_addParameter H c s q').grows.declares hv⟩

theorem run_orphan (H : Host F W) (D : DeckState F W) (hi : DInv D) (v : ℕ) (x : Variable F W) (hx : D.heap[v]? = some x)
    (hv : ∀ b n, ¬ Declares D.store b n v) (deck : List (Stmt F)) : (D.run H deck).2.heap[v]? = some x := by
  refine run_frame H D hi deck v x hx ?_
  intro pre s post _ _ hass
  obtain ⟨n, e, path, -, -, e', -, -, -, hl⟩ := hass
  have : ∃ b n, Declares (D.run H pre).2.store b n v := by
    clear hx hv
    induction hl with
    | var h => exact ⟨_, _, h⟩
    | child _ _ ih => exact ih
  obtain ⟨b, n, hd⟩ := this
  exact hv b n ((later_run H D pre).fresh b n v hd (List.getElem?_eq_some_iff.mp hx).1)

theorem run_root (H : Host F W) (D : DeckState F W) (hi : DInv D) (ps : List (String × BlockParam))
    (h : ∃ B : Block, D.tree.blocks[0]? = some B ∧ B.params = ps) (deck : List (Stmt F)) :
    ∃ B : Block, (D.run H deck).2.tree.blocks[0]? = some B ∧ B.params = ps := by
  let Q : BlockTree → Prop := fun T => ∃ B : Block, T.blocks[0]? = some B ∧ B.params = ps
  have add : ∀ T n c l, Q T → Q (T.addChild ⟨n, c, none, [], l⟩) := by
    rintro T n c l ⟨B, hB, hp⟩
    have hlen : 0 < T.blocks.length := (List.getElem?_eq_some_iff.mp hB).1
    have hlen' : 0 < (T.addChild ⟨n, c, none, [], l⟩).blocks.length := by simp [BlockTree.addChild]
    have hA := List.getElem?_eq_getElem hlen'
    rcases addChild_get T _ 0 _ hA with ⟨A', hA', -, -, hpar⟩ | ⟨hk, -⟩
    · rw [hB, Option.some.injEq] at hA'
      exact ⟨_, hA, by rw [hpar, ← hA', hp]⟩
    · omega
  have down : ∀ T : BlockTree, Q T → Q T.moveDown := fun T h => h
  have up : ∀ T : BlockTree, Q T → Q T.moveUp := by
    intro T h
    unfold BlockTree.moveUp
    split <;> exact h
  have key : ∀ (deck : List (Stmt F)) (D : DeckState F W), DInv D → Q D.tree → Q (chain (step H) deck D).2.tree := by
    intro deck
    induction deck with
    | nil => intro D _ h; exact h
    | cons s ss ih =>
      intro D hi h
      rw [chain_cons]
      split
      · exact ih _ (dinv_step H D s hi) (tree_step add down up H h hi.store s)
      · exact tree_step add down up H h hi.store s
  exact key deck D hi h

theorem evalParam_heap {H : Host F W} {D D' : DeckState F W} {p : BlockParam} (h : D.evalParam H p = some D') (v : ℕ) (x : Variable F W)
    (hx : D.heap[v]? = some x) : ∃ x', D'.heap[v]? = some x' ∧ x'.initialised = x.initialised := by
  unfold evalParam at h
  split at h
  · cases h; exact ⟨x, hx, rfl⟩
  · split at h
    · cases h
    · rename_i y hy
      split at h
      · cases h
      · split at h
        · cases h; exact ⟨x, hx, rfl⟩
        · split at h
          · cases h; exact ⟨x, hx, rfl⟩
          · split at h
            · cases h
            · cases h
              by_cases e : p.var = v
              · subst e
                rw [hx, Option.some.injEq] at hy
                subst hy
                refine ⟨_, List.getElem?_set_self (List.getElem?_eq_some_iff.mp hx).1, rfl⟩
              · exact ⟨x, by simp only; rw [List.getElem?_set_ne e]; exact hx, rfl⟩

theorem evalParams_none (H : Host F W) (v : ℕ) : ∀ (l : List (String × BlockParam)) (D : DeckState F W),
    (∃ n t, (n, ⟨v, some t⟩) ∈ l) → (∃ x : Variable F W, D.heap[v]? = some x ∧ x.initialised = false) →
    l.foldlM (fun D p => D.evalParam H p.2) D = none := by
  intro l
  induction l with
  | nil => rintro D ⟨n, t, h⟩; cases h
  | cons p l ih =>
    rintro D ⟨n, t, h⟩ ⟨x, hx, hxi⟩
    rw [List.foldlM_cons]
    rcases he : D.evalParam H p.2 with _ | D1
    · rfl
    · show l.foldlM _ D1 = none
      obtain ⟨x', hx', hi'⟩ := evalParam_heap he v x hx
      rcases List.mem_cons.mp h with rfl | h
      · unfold evalParam at he
        simp only [hx, hxi, if_true] at he
        cases he
      · exact ih D1 ⟨n, t, h⟩ ⟨x', hx', by rw [hi', hxi]⟩

end Schnek.Lemma.Files
