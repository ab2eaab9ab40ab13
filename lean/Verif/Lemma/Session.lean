import Verif.Lemma.SessionDeck
import Verif.Lemma.ParamEval
import Verif.Lemma.Files
import Verif.Spec.Session

namespace Schnek.Lemma.Session

open Schnek.Deck Schnek.Deck.DepMap Schnek.Spec Schnek.Lemma.Deck Schnek.Lemma.Blocks Schnek.Lemma.Files Relation DeckState

variable {F W : Type}

/-- what the proofs use of a file that has been read -/
structure Read (D : DeckState F W) : Prop where
  inv : DInv D
  mention : ∀ v e, DefinedBy D v e → ∀ u ∈ mentioned e, Declared D u
  handle : ∀ v e, DefinedBy D v e → ∀ t ∈ externals e, t < D.nextExt ∧ ∃ p, Handle D p ∧ p.readOnly = true ∧ p.var = v ∧ p.target = t
  own : ∀ p, Handle D p → p.readOnly = true → ∃ ty, DefinedBy D p.var (.ext ty p.target)
  declared : ∀ p, Handle D p → Declared D p.var
  lt : ∀ p, Handle D p → p.target < D.nextExt
  inj : ∀ p q, Handle D p → Handle D q → p.target = q.target → p = q
  acyclic : ∀ v, ¬ TransGen (DependsOn D) v v

theorem definedBy_finish {H : Host F W} {D D' : DeckState F W} (hi : DInv D) (h : D.finish H = some D') (v : ℕ) (e : Expr F W) :
    DefinedBy D' v e ↔ DefinedBy D v e := by
  obtain ⟨h1, -, -, -, h5, -⟩ := (finish_spec H hi).1 D' h
  unfold DefinedBy Declared
  rw [h1]
  constructor
  · rintro ⟨⟨b, n, hd⟩, x, hx, hf, he⟩
    obtain ⟨y, hy⟩ : ∃ y, D.heap[v]? = some y := ⟨_, List.getElem?_eq_getElem (hi.bound b n v hd)⟩
    obtain ⟨val, hv, -⟩ := h5 v y hy
    rw [hv, Option.some.injEq] at hx
    subst hx
    exact ⟨⟨b, n, hd⟩, y, hy, hf, he⟩
  · rintro ⟨hd, x, hx, hf, he⟩
    obtain ⟨val, hv, -⟩ := h5 v x hx
    exact ⟨hd, _, hv, hf, he⟩

theorem handle_iff {P : Program F W} {deck : List (Stmt F)} {D' : DeckState F W} (h : P.begin.parse P.host deck = some D')
    (p : Param) : Handle D' p ↔ ∃ (k : ℕ) (n : String) (q : BlockParam) (x : Variable F W), HasParam (P.after deck).tree k n q ∧
      (P.after deck).heap[q.var]? = some x ∧ q.target = some p.target ∧ p.var = q.var ∧ p.readOnly = x.readOnly := by
  obtain ⟨-, c2, -, c4, -⟩ := Props.C59_values_current P deck D' h
  constructor
  · rintro ⟨k, B, n, q, x, hB, hq, hx, h1, h2, h3⟩
    rw [c4] at hB
    have hlt := ((pinv_after P deck).bound k n q ⟨B, hB, hq⟩).1
    obtain ⟨y, hy⟩ : ∃ y, (P.after deck).heap[q.var]? = some y := ⟨_, List.getElem?_eq_getElem hlt⟩
    obtain ⟨val, hv, -⟩ := c2 _ y hy
    rw [hv, Option.some.injEq] at hx
    subst hx
    exact ⟨k, n, q, y, ⟨B, hB, hq⟩, hy, h1, h2, h3⟩
  · rintro ⟨k, n, q, x, ⟨B, hB, hq⟩, hx, h1, h2, h3⟩
    obtain ⟨val, hv, -⟩ := c2 _ x hx
    exact ⟨k, B, n, q, _, by rw [c4]; exact hB, hq, hv, h1, h2, h3⟩

theorem read_of {P : Program F W} (hnames : DistinctNames P.classes) {deck : List (Stmt F)} {D' : DeckState F W}
    (h : P.begin.parse P.host deck = some D') : Read D' := by
  have hfin := (Props.parse_some h).2
  have hi := dinv_after P deck
  have hp := pinv_after P deck
  have hr := rinv_after P hnames deck
  have hdef := fun v e => definedBy_finish hi hfin v e
  have hst : D'.store = (P.after deck).store := ((finish_spec P.host hi).1 D' hfin).1
  have hnx : (P.after deck).nextExt ≤ D'.nextExt := by
    obtain ⟨σ, rfl⟩ := finish_shape hfin
    exact Nat.le_succ _
  refine ⟨dinv_finish hi hfin, ?_, ?_, ?_, ?_, ?_, ?_, ?_⟩
  · intro v e hd u hu
    obtain ⟨-, x, hx, -, he⟩ := (hdef v e).mp hd
    obtain ⟨b, n, hb⟩ := hr.mention v x e hx he u hu
    exact ⟨b, n, by rw [hst]; exact hb⟩
  · intro v e hd t ht
    obtain ⟨-, x, hx, hf, he⟩ := (hdef v e).mp hd
    have hro : x.readOnly = true := by
      rcases hp.ext v x e hx he with h' | h'
      · rw [h'] at ht; simp at ht
      · exact h'
    obtain ⟨ty, t', k, n, q, h1, h2, h3, h4⟩ := hr.held v x hx hro hf
    rw [he, Option.some.injEq] at h1
    subst h1
    simp only [externals, List.mem_singleton] at ht
    subst ht
    have hlt := (hp.bound k n q h2).2 t h4
    refine ⟨by omega, ⟨v, t, true⟩, (handle_iff h _).mpr ⟨k, n, q, x, h2, by rw [h3]; exact hx, h4, h3.symm, hro.symm⟩, rfl, rfl, rfl⟩
  · intro p hh hro
    obtain ⟨k, n, q, x, h1, h2, h3, h4, h5⟩ := (handle_iff h p).mp hh
    obtain ⟨hf, ty, he⟩ := hr.own k n q _ x h1 h3 h2 (h5 ▸ hro)
    refine ⟨ty, (hdef _ _).mpr ⟨?_, x, by rw [h4]; exact h2, hf, he⟩⟩
    obtain ⟨B, hB, hq⟩ := h1
    obtain ⟨Bv, d, specs, a1, a2, a3, a4, a5⟩ := (sinv_after P hnames deck).blocks k B hB
    obtain ⟨s, hs, -, b1, b2, -⟩ := a5 n q hq
    exact ⟨_, _, by rw [h4]; exact b2⟩
  · intro p hh
    obtain ⟨k, n, q, x, ⟨B, hB, hq⟩, h2, h3, h4, h5⟩ := (handle_iff h p).mp hh
    obtain ⟨Bv, d, specs, a1, a2, a3, a4, a5⟩ := (sinv_after P hnames deck).blocks k B hB
    obtain ⟨s, hs, -, b1, b2, -⟩ := a5 n q hq
    exact ⟨_, _, by rw [h4, hst]; exact b2⟩
  · intro p hh
    obtain ⟨k, n, q, x, h1, h2, h3, h4, h5⟩ := (handle_iff h p).mp hh
    have := (hp.bound k n q h1).2 _ h3
    omega
  · intro p p' hh hh' ht
    obtain ⟨k, n, q, x, h1, h2, h3, h4, h5⟩ := (handle_iff h p).mp hh
    obtain ⟨k', n', q', x', h1', h2', h3', h4', h5'⟩ := (handle_iff h p').mp hh'
    obtain ⟨-, -, e⟩ := hp.inj k n q k' n' q' _ h1 h1' h3 (by rw [h3', ht])
    subst e
    rw [h2, Option.some.injEq] at h2'
    subst h2'
    cases p; cases p'
    simp only at ht h4 h5 h4' h5'
    simp only [ht, h4, h5, h4', h5']
  · intro v hv
    have hc := (Props.C59_cycles P deck (Props.parse_some h).1).not
    rw [not_exists] at hc
    refine (hc.mp (by rw [h]; simp)) v ?_
    refine TransGen.mono ?_ _ _ hv
    rintro a b ⟨⟨e, he⟩, e', he', hm⟩
    exact ⟨⟨e, (hdef _ _).mp he⟩, e', (hdef _ _).mp he', hm⟩

/-! ## the map -/

theorem not_tree {D : DeckState F W} (h : DInv D) :
    D.heap.length ∉ allVars (blockTree D.withDummy.store D.withDummy.store.blocks.length 0) := by
  intro hm
  obtain ⟨d, m, hd⟩ := (mem_root (show Vars.Inv D.withDummy.store from h.store) _).mp hm
  have := h.bound d m _ hd
  omega

theorem map_exists {D : DeckState F W} (h : DInv D) : ∃ M, MapOf D M :=
  create_some D.withDummy.state (goodIds (dinv_withDummy h)) D.withDummy.expr D.heap.length _
    (nodup_blockTree (show Vars.Inv D.withDummy.store from h.store) h.once D.withDummy.store.blocks.length 0 (by omega)) (not_tree h)

abbrev tree (D : DeckState F W) : Tree := blockTree D.withDummy.store D.withDummy.store.blocks.length 0

theorem expr_dummy (D : DeckState F W) : D.withDummy.expr D.heap.length = .ext .int D.nextExt := by
  simp [expr, withDummy, Variable.ofExpr]

theorem defined_lt {D : DeckState F W} (h : DInv D) {v : ℕ} {e : Expr F W} (hd : DefinedBy D v e) : v < D.heap.length := by
  obtain ⟨⟨d, m, hd⟩, -⟩ := hd
  exact h.bound d m v hd

/-- every node is the dummy or has a definition -/
theorem node_cases {D : DeckState F W} (h : DInv D) {v : ℕ} (hn : Node D.withDummy.state D.heap.length (tree D) v) :
    (v = D.heap.length ∧ D.withDummy.expr v = .ext .int D.nextExt) ∨ ∃ e, DefinedBy D v e ∧ D.withDummy.expr v = e := by
  by_cases hv : v = D.heap.length
  · exact Or.inl ⟨hv, by rw [hv]; exact expr_dummy D⟩
  · obtain ⟨e, he⟩ := (node_iff h v hv).mp hn
    exact Or.inr ⟨e, he, expr_of h he⟩

theorem node_of {D : DeckState F W} (h : DInv D) {v : ℕ} {e : Expr F W} (hd : DefinedBy D v e) :
    Node D.withDummy.state D.heap.length (tree D) v :=
  (node_iff h v (Nat.ne_of_lt (defined_lt h hd))).mpr ⟨e, hd⟩

theorem value_withDummy {D : DeckState F W} {v : ℕ} (h : v < D.heap.length) : D.withDummy.state.value v = D.state.value v := by
  simp only [state, withDummy_get h]

/-- the session as a history of the updater, and what it leaves alone -/
structure SInv' (O : FloatOps F) (D : DeckState F W) (M : DepMap) (U : Updater) (σ : State F W) : Prop where
  history : History O D.withDummy.expr M D.heap.length (tree D) U σ
  fixed : σ.fixed = D.withDummy.state.fixed
  id : σ.id = D.withDummy.state.id
  value : ∀ v, ¬ Node D.withDummy.state D.heap.length (tree D) v → σ.value v = D.withDummy.state.value v
  params : ∀ p ∈ U.params, Handle D p ∧ p.readOnly = false
  dummy : σ.ext D.nextExt = .int 0

theorem separate_of {D : DeckState F W} (hD : Read D) {σ : State F W} (hf : σ.fixed = D.withDummy.state.fixed) {p : Param}
    (hp : Handle D p) (hr : p.readOnly = false) :
    Separate σ D.withDummy.expr D.heap.length (tree D) p := by
  intro v hv hx
  rw [show Node σ D.heap.length (tree D) v ↔ Node D.withDummy.state D.heap.length (tree D) v by
    unfold Node NonConstant; rw [hf]] at hv
  rcases node_cases hD.inv hv with ⟨-, he⟩ | ⟨e, hd, he⟩
  · rw [he] at hx
    simp only [externals, List.mem_singleton] at hx
    have := hD.lt p hp
    omega
  · rw [he] at hx
    obtain ⟨-, q, hq, hqr, -, ht⟩ := hD.handle v e hd _ hx
    rw [hD.inj p q hp hq ht.symm, hqr] at hr
    simp at hr

theorem node_congr' {D : DeckState F W} {σ : State F W} (hf : σ.fixed = D.withDummy.state.fixed) (v : ℕ) :
    Node σ D.heap.length (tree D) v ↔ Node D.withDummy.state D.heap.length (tree D) v := by
  unfold Node NonConstant
  rw [hf]

theorem session_inv {O : FloatOps F} {D : DeckState F W} (hD : Read D) {M : DepMap} (hM : MapOf D M)
    (hev : ∀ v e, DefinedBy D v e → e.eval O D.state = some (D.state.value v)) {U : Updater} {σ : State F W}
    (h : Session O D M U σ) : SInv' O D M U σ := by
  induction h with
  | start f hf =>
    refine ⟨?_, rfl, rfl, fun _ _ => rfl, by simp [Updater.create], Function.update_self ..⟩
    have hg := goodIds (dinv_withDummy hD.inv)
    refine .create _ ?_ ?_ ⟨hg.inj, hg.nonneg⟩ ⟨_, expr_dummy D⟩
    · rw [Dep.create_congr (σ := D.withDummy.state) (σ' := { D.withDummy.state with ext := Function.update f D.nextExt (.int 0) })
        (hid := rfl) (hf := rfl)]
      exact hM
    · intro v hv
      rw [node_congr' (by rfl)] at hv
      unfold Current
      rcases node_cases hD.inv hv with ⟨hv', he⟩ | ⟨e, hd, he⟩
      · rw [he]
        subst hv'
        have : D.withDummy.state.value D.heap.length = .int 0 := by
          simp [state, withDummy, Variable.ofExpr]
        rw [Expr.eval]
        simp [this, Function.update_self, Val.ty]
      · rw [he]
        have hlt := defined_lt hD.inv hd
        show _ = some (D.withDummy.state.value v)
        rw [value_withDummy hlt, ← hev v e hd]
        refine Props.C32_dependencies_complete O D.state _ e ?_ ?_ (fun _ => rfl)
        · intro u hu
          have hm := (deps_mentioned D.state (goodIds hD.inv) u e).mp hu
          obtain ⟨b, n, hb⟩ := hD.mention v e hd u hm
          exact value_withDummy (hD.inv.bound b n u hb)
        · intro x hx
          obtain ⟨hlt, p, hp, hr, -, rfl⟩ := hD.handle v e hd x hx
          show Function.update f D.nextExt (.int 0) p.target = D.ext p.target
          rw [Function.update_of_ne (by omega)]
          exact hf p hp hr
  | @independent U U' σ p _ hp ha ih =>
    have hr : p.readOnly = true := by
      unfold Updater.addIndependent at ha
      split at ha
      · assumption
      · simp at ha
    obtain ⟨ty, hd⟩ := hD.own p hp hr
    have hpar : U'.params = U.params := by
      rw [Updater.addIndependent, if_pos hr, Option.some.injEq] at ha
      rw [← ha]
    exact ⟨.independent p ih.history ((node_congr' ih.fixed _).mpr (node_of hD.inv hd)) ha, ih.fixed, ih.id, ih.value,
      by rw [hpar]; exact ih.params, ih.dummy⟩
  | @dependent U σ p _ hp hr ih =>
    have hsep := separate_of hD ih.fixed hp hr
    have hmem : p.var ∈ allVars (tree D) := by
      obtain ⟨b, n, hb⟩ := hD.declared p hp
      exact (mem_root (show Vars.Inv D.withDummy.store from hD.inv.store) _).mpr ⟨b, n, hb⟩
    refine ⟨.dependent p ih.history hmem hsep ?_, ?_, ?_, ?_, ?_, ?_⟩
    · intro _ q hq hne ht
      exact hne (hD.inj q p (ih.params q hq).1 hp ht)
    · unfold Updater.addDependent
      split
      · unfold Param.update
        split <;> exact ih.fixed
      · exact ih.fixed
    · unfold Updater.addDependent
      split
      · unfold Param.update
        split <;> exact ih.id
      · exact ih.id
    · unfold Updater.addDependent
      split
      · unfold Param.update
        split <;> exact ih.value
      · exact ih.value
    · intro q hq
      unfold Updater.addDependent at hq
      split at hq
      · exact ih.params q hq
      · simp only at hq
        split at hq
        · exact ih.params q hq
        · rcases List.mem_append.mp hq with hq | hq
          · exact ih.params q hq
          · rw [List.mem_singleton] at hq
            rw [hq]
            exact ⟨hp, hr⟩
    · have := hD.lt p hp
      unfold Updater.addDependent
      split
      · unfold Param.update
        split
        · exact ih.dummy
        · simp only
          rw [Function.update_of_ne (by omega)]
          exact ih.dummy
      · exact ih.dummy
  | @clear U σ _ ih => exact ⟨.clear ih.history, ih.fixed, ih.id, ih.value, by simp [Updater.clearDependent], ih.dummy⟩
  | @change U σ f w _ hc ih =>
    refine ⟨.change ih.history ⟨rfl, rfl, rfl, ?_⟩, ih.fixed, ih.id, ih.value, ih.params, Function.update_self ..⟩
    intro v hv hi x hx
    rw [node_congr' ih.fixed] at hv
    rcases node_cases hD.inv hv with ⟨hv', he⟩ | ⟨e, hd, he⟩
    · exact absurd (Dep.history_inv ih.history).dummyIndep (hv' ▸ hi)
    · rw [he] at hx
      obtain ⟨hlt, p, hp, hr, rfl, rfl⟩ := hD.handle v e hd x hx
      show Function.update f D.nextExt (.int 0) p.target = σ.ext p.target
      rw [Function.update_of_ne (by omega)]
      exact hc p hp hr hi
  | @update U U' σ σ' n _ hu ih =>
    obtain ⟨-, -, h3, -, -, -, -, h8, h9, h10, h11⟩ := (Dep.history_inv ih.history).update n hu
    refine ⟨.update n ih.history hu, by rw [h9]; exact ih.fixed, by rw [h8]; exact ih.id, ?_, by rw [h3]; exact ih.params, ?_⟩
    rotate_left
    · rw [h10 _ fun p hp => by have := hD.lt p (ih.params p hp).1; omega]
      exact ih.dummy
    intro v hv
    rw [h11 v, ih.value v hv]
    intro hrel
    exact hv ((node_congr' ih.fixed v).mp (Dep.relevant_node (Dep.history_inv ih.history) hrel))
  | @failed U U' σ σ' n _ hu ih =>
    obtain ⟨-, -, -, h3, -, h8, h9, h10, -, h11, -⟩ := (Dep.history_inv ih.history).failed n hu
    refine ⟨.failed n ih.history hu, by rw [h9]; exact ih.fixed, by rw [h8]; exact ih.id, ?_, by rw [h3]; exact ih.params,
      by rw [h10]; exact ih.dummy⟩
    intro v hv
    rw [h11 v, ih.value v hv]
    intro hrel
    exact hv ((node_congr' ih.fixed v).mp (Dep.relevant_node (Dep.history_inv ih.history) hrel))

/-! ## values -/

theorem wf_dependsOn {D : DeckState F W} (hD : Read D) : WellFounded (DependsOn D) := by
  have hb : ∀ {u v}, DependsOn D u v → u < D.heap.length ∧ v < D.heap.length := by
    rintro u v ⟨⟨e, he⟩, e', he', -⟩
    exact ⟨defined_lt hD.inv he, defined_lt hD.inv he'⟩
  let r : Fin D.heap.length → Fin D.heap.length → Prop := fun a b => TransGen (DependsOn D) a.1 b.1
  have hr : WellFounded r := by
    have : IsTrans _ r := ⟨fun a b c h1 h2 => TransGen.trans h1 h2⟩
    have : Std.Irrefl r := ⟨fun a h => hD.acyclic _ h⟩
    exact Finite.wellFounded_of_trans_of_irrefl r
  have hacc : ∀ v (hv : v < D.heap.length), Acc (DependsOn D) v := by
    have : ∀ a : Fin D.heap.length, Acc (DependsOn D) a.1 := by
      intro a
      induction a using hr.induction with
      | _ a ih =>
        refine ⟨_, fun u hu => ?_⟩
        exact ih ⟨u, (hb hu).1⟩ (.single hu)
    exact fun v hv => this ⟨v, hv⟩
  refine ⟨fun v => ⟨_, fun u hu => hacc u (hb hu).1⟩⟩

theorem edge_of {D : DeckState F W} (hD : Read D) {σ : State F W} (hf : σ.fixed = D.withDummy.state.fixed)
    (hid : σ.id = D.withDummy.state.id) {u v : ℕ} (h : DependsOn D u v) : Edge σ D.withDummy.expr D.heap.length (tree D) u v := by
  rw [Dep.edge_congr (σ := D.withDummy.state) (σ' := σ) hid hf]
  refine (edge_iff hD.inv u v ?_).mpr h
  obtain ⟨⟨e, he⟩, -⟩ := h
  exact Nat.ne_of_lt (defined_lt hD.inv he)

theorem valueOf_current {O : FloatOps F} {D : DeckState F W} (hD : Read D) {M : DepMap} {U : Updater} {σ : State F W}
    (h : SInv' O D M U σ) (d : ℕ) (hcur : ∀ u, Upstream σ D.withDummy.expr D.heap.length (tree D) u d → Current O D.withDummy.expr σ u)
    (v : ℕ) : Upstream σ D.withDummy.expr D.heap.length (tree D) v d → (∃ e, DefinedBy D v e) → ValueOf O D σ v (σ.value v) := by
  induction v using (wf_dependsOn hD).induction with
  | _ v ih =>
    rintro hup ⟨e, he⟩
    have hc := hcur v hup
    unfold Current at hc
    rw [expr_of hD.inv he] at hc
    refine .formula σ.value he ?_ hc
    intro u hu
    obtain ⟨b, n, hb⟩ := hD.mention v e he u hu
    have hlt := hD.inv.bound b n u hb
    obtain ⟨x, hx⟩ : ∃ x, D.heap[u]? = some x := ⟨_, List.getElem?_eq_getElem hlt⟩
    by_cases hf : x.fixed = true
    · have : σ.value u = x.value := by
        rw [h.value u, value_withDummy hlt, (state_some hx).1]
        intro hn
        rcases node_cases hD.inv hn with ⟨h', -⟩ | ⟨e', ⟨-, x', hx', hf', -⟩, -⟩
        · omega
        · rw [hx, Option.some.injEq] at hx'
          rw [← hx', hf] at hf'
          simp at hf'
      rw [this]
      exact .constant hx hf
    · have hf : x.fixed = false := by simpa using hf
      obtain ⟨e', he', -⟩ := (hD.inv.typed u x hx).2 hf
      have hdef : DefinedBy D u e' := ⟨⟨b, n, hb⟩, x, hx, hf, he'⟩
      have hdep : DependsOn D u v := ⟨⟨e', hdef⟩, e, he, hu⟩
      exact ih u hdep (ReflTransGen.head (edge_of hD h.fixed h.id hdep) hup) ⟨e', hdef⟩

/-- an expression looks at the variables and the external values it mentions, and at the world -/
theorem eval_mentioned (O : FloatOps F) {σ τ : State F W} (e : Expr F W) (hv : ∀ u ∈ mentioned e, τ.value u = σ.value u)
    (hx : ∀ x ∈ externals e, τ.ext x = σ.ext x) (hw : τ.world = σ.world) : e.eval O τ = e.eval O σ := by
  let σ1 : State F W := { σ with id := fun v => (v : ℤ) }
  have hg : GoodIds σ1 := ⟨fun a b h => by simpa [σ1] using h, fun v => by simp [σ1]⟩
  have h1 : e.eval O τ = e.eval O σ1 :=
    Props.C32_dependencies_complete O σ1 τ e (fun u hu => hv u ((deps_mentioned σ1 hg u e).mp hu)) hx (fun _ => hw)
  rw [h1]
  exact Props.C32_dependencies_complete O σ σ1 e (fun _ _ => rfl) (fun _ _ => rfl) (fun _ => rfl)

/-- the value in another state in which the program's read-only variables are the same -/
theorem valueOf_congr {O : FloatOps F} {D : DeckState F W} (hD : Read D) {σ τ : State F W} (hw : τ.world = σ.world)
    (hx : ∀ p, Handle D p → p.readOnly = true → τ.ext p.target = σ.ext p.target) {v : ℕ} {a : Val F} (h : ValueOf O D σ v a) :
    ValueOf O D τ v a := by
  induction h with
  | constant h1 h2 => exact .constant h1 h2
  | @formula v e a f hd _ he ih =>
    refine .formula f hd ih ?_
    rw [← he]
    refine eval_mentioned O e (fun _ _ => rfl) ?_ hw
    intro x hxm
    obtain ⟨-, p, hp, hr, -, rfl⟩ := hD.handle v e hd x hxm
    exact hx p hp hr

end Schnek.Lemma.Session
