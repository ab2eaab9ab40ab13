import Verif.Lemma.Session
import Verif.Lemma.Expression

/-!
# Formulas of a setup file and the variables of the program (C141)
-/

namespace Schnek.Props

open Schnek.Deck Schnek.Deck.DepMap Schnek.Spec Schnek.Lemma.Deck Schnek.Lemma.Session Relation DeckState

variable {F W : Type}

/-- C141: a dependency map can be made of every file that has been read. -/
theorem C141_map_exists (P : Program F W) (hnames : DistinctNames P.classes) (deck : List (Stmt F)) (D : DeckState F W)
    (h : P.begin.parse P.host deck = some D) : ∃ M, MapOf D M := map_exists (read_of hnames h).inv

/-- C141: the value that the file gives to a variable is determined by the variables of the program (and what functions look at). -/
theorem C141_value_unique (P : Program F W) (hnames : DistinctNames P.classes) (deck : List (Stmt F)) (D : DeckState F W)
    (h : P.begin.parse P.host deck = some D) (σ τ : State F W)
    (hw : τ.world = σ.world) (hx : ∀ p, Handle D p → p.readOnly = true → τ.ext p.target = σ.ext p.target) (v : ℕ) (a b : Val F)
    (ha : ValueOf P.host.ops D σ v a) (hb : ValueOf P.host.ops D τ v b) : a = b := by
  have hD := read_of hnames h
  induction ha generalizing b with
  | @constant v x hv hf =>
    cases hb with
    | constant hv' hf' => rw [hv, Option.some.injEq] at hv'; rw [hv']
    | formula f hd _ _ =>
      obtain ⟨-, x', hx', hf', -⟩ := hd
      rw [hv, Option.some.injEq] at hx'
      rw [← hx', hf] at hf'
      simp at hf'
  | @formula v e a f hd _ he ih =>
    cases hb with
    | constant hv' hf' =>
      obtain ⟨-, x', hx', hf'', -⟩ := hd
      rw [hv', Option.some.injEq] at hx'
      rw [← hx', hf'] at hf''
      simp at hf''
    | @formula _ e' _ g hd' hm' he' =>
      have hee : e = e' := by
        obtain ⟨-, x, hx, -, h1⟩ := hd
        obtain ⟨-, x', hx', -, h2⟩ := hd'
        rw [hx, Option.some.injEq] at hx'
        rw [← hx', h1, Option.some.injEq] at h2
        exact h2
      subst hee
      have : e.eval P.host.ops { τ with value := g } = e.eval P.host.ops { σ with value := f } := by
        refine eval_mentioned P.host.ops e (fun u hu => (ih u hu _ (hm' u hu)).symm) ?_ hw
        · intro x hxm
          obtain ⟨-, p, hp, hr, -, rfl⟩ := hD.handle v e hd x hxm
          exact hx p hp hr
      rw [this, he, Option.some.injEq] at he'
      exact he'

/-- C141: whatever the program has done before, after `update` each of its variables that belongs to a dependent parameter has the
value that the file gives to that parameter for the present values of the read-only parameters. -/
theorem C141_follows_partial (P : Program F W) (hnames : DistinctNames P.classes) (deck : List (Stmt F)) (D : DeckState F W)
    (h : P.begin.parse P.host deck = some D) (heval : ∀ v e, DefinedBy D v e → e.eval P.host.ops D.state ≠ none)
    (M : DepMap) (hM : MapOf D M) (U U' : Updater) (σ σ' : State F W) (hs : Session P.host.ops D M U σ) (n : ℕ)
    (hu : U.update P.host.ops D.withDummy.expr M n σ = some (U', σ')) (p : Param) (hp : p ∈ U.params) :
    ValueOf P.host.ops D σ' p.var (σ'.ext p.target) ∧
      (∀ q, Handle D q → q.readOnly = true → σ'.ext q.target = σ.ext q.target) := by
  have hD := read_of hnames h
  have hev : ∀ v e, DefinedBy D v e → e.eval P.host.ops D.state = some (D.state.value v) := by
    intro v e hd
    obtain ⟨c1, -⟩ := C59_values_current P deck D h
    rcases c1 v e ((definedBy_finish (dinv_after P deck) (parse_some h).2 v e).mp hd) with h' | ⟨h', -⟩
    · exact h'
    · exact absurd h' (heval v e hd)
  have hi := session_inv hD hM hev hs
  have hi' := session_inv hD hM hev (.update n hs hu)
  obtain ⟨h1, h2⟩ := C35_dependents_current P.host.ops _ M _ _ U U' σ σ' hi.history n hu
  obtain ⟨hdep, hval⟩ := h2 p hp
  obtain ⟨hh, hr⟩ := hi.params p hp
  obtain ⟨-, -, -, -, -, -, -, k1, k2, k3, -⟩ := (Lemma.Dep.history_inv hi.history).update n hu
  refine ⟨?_, ?_⟩
  · rw [hval hr]
    have hnode := (Lemma.Dep.history_inv hi.history).depNode p.var hdep
    rw [node_congr' hi.fixed] at hnode
    have hdef : ∃ e, DefinedBy D p.var e := by
      rcases node_cases hD.inv hnode with ⟨h', -⟩ | ⟨e, he, -⟩
      · obtain ⟨b, n, hb⟩ := hD.declared p hh
        have := hD.inv.bound b n _ hb
        omega
      · exact ⟨e, he⟩
    refine valueOf_current hD hi' p.var ?_ p.var .refl hdef
    intro u hup
    refine h1 p.var hdep u ?_
    unfold Upstream at hup ⊢
    rw [Lemma.Dep.edge_congr k1 k2] at hup
    exact hup
  · intro q hq hqr
    refine k3 q.target ?_
    intro p' hp' ht
    obtain ⟨hh', hr'⟩ := hi.params p' hp'
    rw [hD.inj p' q hh' hq ht, hqr] at hr'
    simp at hr'

/-- C141: every `update` ends, with a result or with the exception of a formula that cannot be evaluated. -/
theorem C141_update_ends (P : Program F W) (hnames : DistinctNames P.classes) (deck : List (Stmt F)) (D : DeckState F W)
    (h : P.begin.parse P.host deck = some D) (heval : ∀ v e, DefinedBy D v e → e.eval P.host.ops D.state ≠ none)
    (M : DepMap) (hM : MapOf D M) (U : Updater) (σ : State F W) (hs : Session P.host.ops D M U σ) :
    ∃ N, ∀ n, N ≤ n → (∃ r, U.update P.host.ops D.withDummy.expr M n σ = some r) ∨
      ∃ U' σ' v e, U.updateThrow P.host.ops D.withDummy.expr M n σ = some (U', σ') ∧ DefinedBy D v e ∧ e.eval P.host.ops σ' = none := by
  have hD := read_of hnames h
  have hev : ∀ v e, DefinedBy D v e → e.eval P.host.ops D.state = some (D.state.value v) := by
    intro v e hd
    obtain ⟨c1, -⟩ := C59_values_current P deck D h
    rcases c1 v e ((definedBy_finish (dinv_after P deck) (parse_some h).2 v e).mp hd) with h' | ⟨h', -⟩
    · exact h'
    · exact absurd h' (heval v e hd)
  have hi := session_inv hD hM hev hs
  have hinv := Lemma.Dep.history_inv hi.history
  have hac : ∀ v, ¬ TransGen (Edge σ D.withDummy.expr D.heap.length (tree D)) v v := by
    intro v hv
    rw [Lemma.Dep.edge_congr (σ := D.withDummy.state) (σ' := σ) hi.id hi.fixed] at hv
    obtain ⟨w, hw⟩ := (cycle_iff hD.inv).mp ⟨v, hv⟩
    exact hD.acyclic w hw
  obtain ⟨l, ⟨N, hN⟩, -, -, -, -⟩ := C34_update_list σ D.withDummy.expr D.heap.length (tree D) M hinv.ids hinv.created U.independent
    U.dependent hinv.indepNode hinv.depNode (fun v _ => hac v)
  refine ⟨N, fun n hn => ?_⟩
  obtain ⟨V, hV⟩ : ∃ V, (if U.isValid then some U
      else (M.updateList (U.independent.image σ.id) (U.dependent.image σ.id) n).map
        fun l => { U with updateList := l, isValid := true }) = some V := by
    rw [hN n hn]
    split <;> exact ⟨_, rfl⟩
  obtain ⟨-, -, -, -, -, hl⟩ := hinv.prepared n hV
  rcases he : evaluateAll P.host.ops D.withDummy.expr M V.updateList σ with _ | τ
  · right
    have := (Lemma.Dep.evaluateThrow_isSome V.updateList σ hl.keys).mpr he
    obtain ⟨τ, hτ⟩ := Option.isSome_iff_exists.mp this
    have hthrow : U.updateThrow P.host.ops D.withDummy.expr M n σ = some (V, τ) := by
      unfold Updater.updateThrow
      rw [hV, Option.bind_some, hτ]
      rfl
    obtain ⟨-, -, -, -, -, -, -, hext, -, -, L₁, b, L₂, hL, hb, -⟩ := hinv.failed n hthrow
    refine ⟨V, τ, b, ?_⟩
    have hbn : Node D.withDummy.state D.heap.length (tree D) b := by
      rw [← node_congr' hi.fixed]
      refine Lemma.Dep.relevant_node hinv ((hl.mem b).mp ?_)
      rw [hL]; simp
    rcases node_cases hD.inv hbn with ⟨-, h'⟩ | ⟨e, hd, h'⟩
    · rw [h'] at hb
      simp [Expr.eval, hext, hi.dummy, Val.ty] at hb
    · exact ⟨e, hthrow, hd, by rw [← h']; exact hb⟩
  · left
    refine ⟨(V, V.params.foldl Param.update τ), ?_⟩
    unfold Updater.update
    rw [hV, Option.bind_some, he]
    rfl

/-- C141: if the file makes the parameter a constant, the program's variable gets the value at once. -/
theorem C141_constant_at_once (P : Program F W) (hnames : DistinctNames P.classes) (deck : List (Stmt F)) (D : DeckState F W)
    (h : P.begin.parse P.host deck = some D) (heval : ∀ v e, DefinedBy D v e → e.eval P.host.ops D.state ≠ none)
    (M : DepMap) (hM : MapOf D M) (U : Updater) (σ : State F W) (hs : Session P.host.ops D M U σ) (p : Param) (hp : Handle D p)
    (hr : p.readOnly = false) (x : Variable F W) (hx : D.heap[p.var]? = some x) :
    (x.fixed = true → (U.addDependent σ p).1 = U ∧ (U.addDependent σ p).2.ext p.target = x.value ∧
      ValueOf P.host.ops D (U.addDependent σ p).2 p.var x.value) ∧
    (x.fixed = false → p ∈ (U.addDependent σ p).1.params ∧ (U.addDependent σ p).2 = σ) := by
  have hD := read_of hnames h
  have hev : ∀ v e, DefinedBy D v e → e.eval P.host.ops D.state = some (D.state.value v) := by
    intro v e hd
    obtain ⟨c1, -⟩ := C59_values_current P deck D h
    rcases c1 v e ((definedBy_finish (dinv_after P deck) (parse_some h).2 v e).mp hd) with h' | ⟨h', -⟩
    · exact h'
    · exact absurd h' (heval v e hd)
  have hi := session_inv hD hM hev hs
  have hlt := (List.getElem?_eq_some_iff.mp hx).1
  have hfx : σ.fixed p.var = x.fixed := by
    rw [hi.fixed, (state_some (by rw [withDummy_get hlt]; exact hx)).2.1]
  constructor
  · intro hf
    have hv : σ.value p.var = x.value := by
      rw [hi.value p.var, (state_some (by rw [withDummy_get hlt]; exact hx)).1]
      intro hn
      rcases node_cases hD.inv hn with ⟨h', -⟩ | ⟨e', ⟨-, x', hx', hf', -⟩, -⟩
      · omega
      · rw [hx, Option.some.injEq] at hx'
        rw [← hx', hf] at hf'
        simp at hf'
    unfold Updater.addDependent Param.update
    rw [hfx, if_pos hf, hr]
    refine ⟨rfl, ?_, .constant hx hf⟩
    simp [hv]
  · intro hf
    unfold Updater.addDependent
    rw [hfx, hf]
    refine ⟨?_, rfl⟩
    simp only [Bool.false_eq_true, if_false]
    split
    · assumption
    · simp

end Schnek.Props
