import Verif.Lemma.Dependencies
import Mathlib.Data.List.Induction

namespace Schnek.Lemma.Dep

open Schnek.Deck Schnek.Deck.DepMap Schnek.Spec Relation

variable {F W : Type}

/-! ## what depends on the ids only -/

section

variable (σ σ' : State F W) (h : σ'.id = σ.id)
include h

mutual

theorem deps_congr : (e : Expr F W) → e.deps σ' = e.deps σ
  | .value _ => rfl
  | .ref _ v => by simp only [Expr.deps, h]
  | .ext _ _ => rfl
  | .unary _ e => by simp only [Expr.deps, deps_congr e]
  | .binary _ es => by simp only [Expr.deps, terms_deps_congr es]
  | .cast _ e => by simp only [Expr.deps, deps_congr e]
  | .call f args => by simp only [Expr.deps, args_deps_congr args]

theorem terms_deps_congr : (ts : Terms F W) → ts.deps σ' = ts.deps σ
  | .nil => rfl
  | .cons _ e ts => by simp only [Terms.deps, deps_congr e, terms_deps_congr ts]

theorem args_deps_congr : (as : Args F W) → as.deps σ' = as.deps σ
  | .nil => rfl
  | .cons e es => by simp only [Args.deps, deps_congr e, args_deps_congr es]

end

end

section

variable {σ σ' : State F W} (hid : σ'.id = σ.id) (hf : σ'.fixed = σ.fixed) (expr : Var → Expr F W) (dummy : Var) (t : Tree)

theorem node_congr (hf : σ'.fixed = σ.fixed) : Node σ' dummy t = Node σ dummy t := by
  funext v; simp only [Node, NonConstant, hf]

include hid hf

theorem edge_congr : Edge σ' expr dummy t = Edge σ expr dummy t := by
  funext u v
  simp only [Edge, NonConstant, Uses, hf, hid, deps_congr σ σ' hid, node_congr dummy t hf]

theorem addVar_congr : addVar σ' expr dummy = addVar σ expr dummy := by
  funext D v
  have : entry σ' expr dummy v = entry σ expr dummy v := by
    simp only [entry, deps_congr σ σ' hid, hid]
  simp only [addVar, hf, hid, this]

theorem create_congr : DepMap.create σ' expr dummy t = DepMap.create σ expr dummy t := by
  simp only [DepMap.create, constructMap, addTree_eq, addVar_congr hid hf expr dummy]
  rw [show initial σ' dummy = initial σ dummy by simp only [initial, hid]]

end

/-! ## more iterations do not change the result -/

theorem search_mono (next : ℤ → List ℤ) : ∀ (n : ℕ) (work : List ℤ) (seen R : Finset ℤ),
    search next n work seen = some R → ∀ m, n ≤ m → search next m work seen = some R := by
  intro n
  induction n with
  | zero => intro work seen R h; simp [search] at h
  | succ n ih =>
      intro work seen R h m hm
      obtain ⟨m, rfl⟩ : ∃ k, m = k + 1 := ⟨m - 1, by omega⟩
      cases work with
      | nil => simpa [search] using h
      | cons id work =>
          rw [search] at h ⊢
          exact ih _ _ _ h m (by omega)

theorem updateList_mono (D : DepMap) (I P : Finset ℤ) (n m : ℕ) (l : List ℤ) (h : D.updateList I P n = some l) (hm : n ≤ m) :
    D.updateList I P m = some l := by
  simp only [DepMap.updateList, Option.bind_eq_some_iff] at h ⊢
  obtain ⟨R, hR, S, hS, hl⟩ := h
  exact ⟨R, search_mono _ _ _ _ _ hR m hm, S, search_mono _ _ _ _ _ hS m hm, hl⟩

/-! ## evaluating the list -/

theorem current_congr (O : FloatOps F) (expr : Var → Expr F W) (σ σ' : State F W) (v : Var)
    (hv : ∀ u, σ.id u ∈ (expr v).deps σ → σ'.value u = σ.value u) (hw : -1 ∈ (expr v).deps σ → σ'.world = σ.world)
    (hx : ∀ x ∈ externals (expr v), σ'.ext x = σ.ext x) (hvv : σ'.value v = σ.value v) (h : Current O expr σ v) :
    Current O expr σ' v := by
  unfold Current at h ⊢
  rw [Lemma.Deck.expr_deps O σ σ' (expr v) hv hw hx, h, hvv]

theorem evaluate_list (O : FloatOps F) (expr : Var → Expr F W) : ∀ (L : List Var) (σ σ' : State F W),
    L.foldlM (evaluateExpression O expr) σ = some σ' → L.Nodup →
    (∀ L₁ b L₂, L = L₁ ++ b :: L₂ → ∀ a ∈ L, σ.id a ∈ (expr b).deps σ → a ∈ L₁) →
    σ'.id = σ.id ∧ σ'.fixed = σ.fixed ∧ σ'.ext = σ.ext ∧ σ'.world = σ.world ∧ (∀ v ∉ L, σ'.value v = σ.value v) ∧
      ∀ v ∈ L, Current O expr σ' v := by
  intro L
  induction L using List.reverseRecOn with
  | nil =>
      intro σ σ' h _ _
      simp only [List.foldlM_nil, Option.pure_def, Option.some.injEq] at h
      subst h
      simp
  | append_singleton L b ih =>
      intro σ σ' h hn ht
      rw [List.foldlM_append] at h
      simp only [Option.bind_eq_bind, Option.bind_eq_some_iff, List.foldlM_cons, List.foldlM_nil, Option.pure_def] at h
      obtain ⟨σ₁, h1, σ₂, h2, h3⟩ := h
      simp only [Option.some.injEq] at h3
      subst h3
      have hbL : b ∉ L := fun hb => (List.nodup_append.mp hn).2.2 b hb b (by simp) rfl
      obtain ⟨e1, e2, e3, e4, e5, e6⟩ := ih σ σ₁ h1 (List.nodup_append.mp hn).1 (by
        rintro L₁ c L₂ rfl a ha hac
        exact ht L₁ c (L₂ ++ [b]) (by simp) a (List.mem_append_left _ ha) hac)
      simp only [evaluateExpression, Option.map_eq_some_iff] at h2
      obtain ⟨x, hx, rfl⟩ := h2
      have hval : ∀ u, u ≠ b → Function.update σ₁.value b x u = σ₁.value u := fun u hu => Function.update_of_ne hu _ _
      refine ⟨e1, e2, e3, e4, ?_, ?_⟩
      · intro v hv
        simp only [List.mem_append, List.mem_singleton, not_or] at hv
        simp only [hval v hv.2, e5 v hv.1]
      · intro v hv
        have hdep : σ.id b ∉ (expr v).deps σ := by
          intro hd
          rcases List.mem_append.mp hv with hv | hv
          · obtain ⟨L₁, L₂, rfl⟩ := List.append_of_mem hv
            exact hbL (List.mem_append_left _ (ht L₁ v (L₂ ++ [b]) (by simp) b (by simp) hd))
          · simp only [List.mem_singleton] at hv
            subst hv
            exact hbL (ht L v [] rfl v (by simp) hd)
        have hdeps : ∀ u, σ₁.id u ∈ (expr v).deps σ₁ → Function.update σ₁.value b x u = σ₁.value u := by
          intro u hu
          refine hval u ?_
          rintro rfl
          rw [deps_congr σ σ₁ e1, e1] at hu
          exact hdep hu
        rcases List.mem_append.mp hv with hv' | hv'
        · exact current_congr O expr σ₁ _ v hdeps (fun _ => rfl) (fun _ _ => rfl)
            (hval v (fun e => hbL (e ▸ hv'))) (e6 v hv')
        · simp only [List.mem_singleton] at hv'
          subst hv'
          unfold Current
          rw [Lemma.Deck.expr_deps O σ₁ { σ₁ with value := Function.update σ₁.value v x } (expr v) hdeps (fun _ => rfl)
            (fun _ _ => rfl), hx]
          simp

theorem evaluateAll_eq (O : FloatOps F) (expr : Var → Expr F W) (D : DepMap) : ∀ (l : List ℤ) (σ σ' : State F W),
    evaluateAll O expr D l σ = some σ' → (l.map D.var).foldlM (evaluateExpression O expr) σ = some σ' := by
  intro l
  induction l with
  | nil => intro σ σ' h; exact h
  | cons k l ih =>
      intro σ σ' h
      simp only [evaluateAll, List.foldlM_cons, Option.bind_eq_bind, Option.bind_eq_some_iff] at h
      obtain ⟨σ₁, h1, h2⟩ := h
      split_ifs at h1
      simp only [List.map_cons, List.foldlM_cons, Option.bind_eq_bind, Option.bind_eq_some_iff]
      exact ⟨σ₁, h1, ih σ₁ σ' h2⟩

/-! ## updating the parameters -/

theorem params_update : ∀ (ps : List Param) (σ : State F W),
    let σ' := ps.foldl Param.update σ
    σ'.value = σ.value ∧ σ'.id = σ.id ∧ σ'.fixed = σ.fixed ∧ σ'.world = σ.world ∧
      (∀ x, (∀ p ∈ ps, p.target ≠ x) → σ'.ext x = σ.ext x) := by
  intro ps
  induction ps with
  | nil => intro σ; simp
  | cons p ps ih =>
      intro σ
      simp only [List.foldl_cons]
      obtain ⟨h1, h2, h3, h4, h5⟩ := ih (Param.update σ p)
      have e : (Param.update σ p).value = σ.value ∧ (Param.update σ p).id = σ.id ∧ (Param.update σ p).fixed = σ.fixed ∧
          (Param.update σ p).world = σ.world := by
        unfold Param.update; split_ifs <;> simp
      refine ⟨h1.trans e.1, h2.trans e.2.1, h3.trans e.2.2.1, h4.trans e.2.2.2, ?_⟩
      intro x hx
      rw [h5 x (fun q hq => hx q (List.mem_cons_of_mem _ hq))]
      unfold Param.update
      split_ifs
      · rfl
      · exact Function.update_of_ne (fun h => hx p (by simp) h.symm) _ _

theorem params_values : ∀ (ps : List Param) (σ : State F W),
    (∀ p ∈ ps, ∀ q ∈ ps, p ≠ q → p.readOnly = false → q.readOnly = false → p.target ≠ q.target) →
    ∀ p ∈ ps, p.readOnly = false → (ps.foldl Param.update σ).ext p.target = σ.value p.var := by
  intro ps
  induction ps using List.reverseRecOn with
  | nil => intro σ _ p hp; simp at hp
  | append_singleton ps q ih =>
      intro σ hd p hp hr
      rw [List.foldl_append]
      simp only [List.foldl_cons, List.foldl_nil]
      obtain ⟨h1, -, -, -, -⟩ := params_update ps σ
      by_cases hpq : p = q
      · subst hpq
        simp [Param.update, hr, h1]
      · have hp' : p ∈ ps := by
          rcases List.mem_append.mp hp with h | h
          · exact h
          · exact (hpq (by simpa using h)).elim
        have := ih σ (fun a ha b hb => hd a (List.mem_append_left _ ha) b (List.mem_append_left _ hb)) p hp' hr
        generalize hτ : ps.foldl Param.update σ = τ at this
        unfold Param.update
        split_ifs with hq
        · exact this
        · simp only
          rw [Function.update_of_ne, this]
          exact hd p (List.mem_append_left _ hp') q (by simp) hpq hr (by simpa using hq)

/-! ## the invariant -/

structure Inv (O : FloatOps F) (expr : Var → Expr F W) (D : DepMap) (dummy : Var) (t : Tree) (U : Updater) (σ : State F W) :
    Prop where
  created : DepMap.create σ expr dummy t = some D
  ids : GoodIds σ
  dummyExpr : ∃ x, expr dummy = .ext .int x
  indepNode : ∀ i ∈ U.independent, Node σ dummy t i
  dummyIndep : dummy ∈ U.independent
  depNode : ∀ d ∈ U.dependent, Node σ dummy t d
  untouched : ∀ v, Node σ dummy t v → (∀ i ∈ U.independent, ¬ ReflTransGen (Edge σ expr dummy t) i v) → Current O expr σ v
  valid : U.isValid = true → ∃ n, D.updateList (U.independent.image σ.id) (U.dependent.image σ.id) n = some U.updateList
  paramDep : ∀ p ∈ U.params, p.var ∈ U.dependent
  separate : ∀ p ∈ U.params, Separate σ expr dummy t p
  distinct : ∀ p ∈ U.params, ∀ q ∈ U.params, p ≠ q → p.readOnly = false → q.readOnly = false → p.target ≠ q.target

section

variable {O : FloatOps F} {expr : Var → Expr F W} {D : DepMap} {dummy : Var} {t : Tree} {U : Updater} {σ : State F W}

theorem uses_edge (hd : ∃ x, expr dummy = .ext .int x) {u v : Var} (hu : Node σ dummy t u) (hv : Node σ dummy t v)
    (h : Uses σ expr dummy u v) : Edge σ expr dummy t u v := by
  refine ⟨hu, ?_, h⟩
  rcases hv with rfl | hv
  · obtain ⟨x, hx⟩ := hd
    rcases h with h | ⟨_, h⟩
    · rw [hx] at h; simp [Expr.deps] at h
    · rw [hx] at h; simp [Expr.deps] at h
  · exact hv

/-- changing only what the independent variables look at -/
theorem Inv.frame (h : Inv O expr D dummy t U σ) (σ' : State F W) (hid : σ'.id = σ.id) (hf : σ'.fixed = σ.fixed)
    (hcur : ∀ v, Node σ dummy t v → (∀ i ∈ U.independent, ¬ ReflTransGen (Edge σ expr dummy t) i v) → Current O expr σ' v) :
    Inv O expr D dummy t U σ' where
  created := by rw [create_congr hid hf]; exact h.created
  ids := ⟨by rw [hid]; exact h.ids.inj, by rw [hid]; exact h.ids.nonneg⟩
  dummyExpr := h.dummyExpr
  indepNode := by rw [node_congr dummy t hf]; exact h.indepNode
  dummyIndep := h.dummyIndep
  depNode := by rw [node_congr dummy t hf]; exact h.depNode
  untouched := by rw [node_congr dummy t hf, edge_congr hid hf]; exact hcur
  valid := by rw [hid]; exact h.valid
  paramDep := h.paramDep
  separate := by simp only [Separate, node_congr dummy t hf]; exact h.separate
  distinct := h.distinct

theorem Inv.create (h1 : DepMap.create σ expr dummy t = some D) (h2 : ∀ v, Node σ dummy t v → Current O expr σ v)
    (h3 : GoodIds σ) (h4 : ∃ x, expr dummy = .ext .int x) : Inv O expr D dummy t (Updater.create dummy) σ where
  created := h1
  ids := h3
  dummyExpr := h4
  indepNode := by intro i hi; simp only [Updater.create, Finset.mem_singleton] at hi; exact .inl hi
  dummyIndep := by simp [Updater.create]
  depNode := by simp [Updater.create]
  untouched := fun v hv _ => h2 v hv
  valid := by
    intro _
    refine ⟨1, ?_⟩
    simp [Updater.create, DepMap.updateList, DepMap.predecessors, DepMap.followers, search, DepMap.updateOrder, orderLoop]
  paramDep := by simp [Updater.create]
  separate := by simp [Updater.create]
  distinct := by simp [Updater.create]

theorem Inv.update (h : Inv O expr D dummy t U σ) {U' : Updater} {σ' : State F W} (n : ℕ)
    (hu : U.update O expr D n σ = some (U', σ')) :
    Inv O expr D dummy t U' σ' ∧ U'.dependent = U.dependent ∧ U'.params = U.params ∧ U'.independent = U.independent ∧
      (∀ d ∈ U'.dependent, ∀ u, Upstream σ' expr dummy t u d → Current O expr σ' u) ∧
      (∀ p ∈ U'.params, p.readOnly = false → σ'.ext p.target = σ'.value p.var) ∧
      σ'.world = σ.world ∧ σ'.id = σ.id ∧ σ'.fixed = σ.fixed ∧
      (∀ x, (∀ p ∈ U.params, p.target ≠ x) → σ'.ext x = σ.ext x) ∧
      (∀ v, ¬ Relevant σ expr dummy t U.independent U.dependent v → σ'.value v = σ.value v) := by
  simp only [Updater.update, Option.bind_eq_some_iff, Option.map_eq_some_iff, Prod.mk.injEq] at hu
  obtain ⟨V, hV, σ₁, hσ₁, rfl, rfl⟩ := hu
  -- the list is that for the present variables
  have hVs : V.independent = U.independent ∧ V.dependent = U.dependent ∧ V.params = U.params ∧ V.isValid = true ∧
      ∃ n, D.updateList (U.independent.image σ.id) (U.dependent.image σ.id) n = some V.updateList := by
    split_ifs at hV with hv
    · simp only [Option.some.injEq] at hV
      subst hV
      exact ⟨rfl, rfl, rfl, hv, h.valid hv⟩
    · simp only [Option.map_eq_some_iff] at hV
      obtain ⟨l, hl, rfl⟩ := hV
      exact ⟨rfl, rfl, rfl, rfl, n, hl⟩
  obtain ⟨hi, hd, hp, hvalid, m, hm⟩ := hVs
  have hC := Dep.created σ expr dummy t D h.ids h.created
  obtain ⟨N, hN, -⟩ := updateList_var h.ids hC U.independent U.dependent h.indepNode h.depNode
  obtain ⟨l1, l2, l3, -⟩ := hN (max N m) (le_max_left _ _) V.updateList (updateList_mono D _ _ m _ _ hm (le_max_right _ _))
  have hrelNode : ∀ v, Relevant σ expr dummy t U.independent U.dependent v → Node σ dummy t v := by
    rintro v ⟨⟨i, hi, hiv⟩, _⟩
    rcases ReflTransGen.cases_tail hiv with rfl | ⟨y, _, hy⟩
    · exact h.indepNode _ hi
    · exact .inr hy.2.1
  have heval : (V.updateList.map D.var).foldlM (evaluateExpression O expr) σ = some σ₁ :=
    evaluateAll_eq O expr D _ _ _ hσ₁
  obtain ⟨e1, e2, e3, e4, e5, e6⟩ := evaluate_list O expr _ σ σ₁ heval l1 (by
    intro L₁ b L₂ hL a ha hab
    have hra := (l2 a).mp ha
    have hrb := (l2 b).mp (by rw [hL]; simp)
    exact l3 L₁ b L₂ hL a (uses_edge h.dummyExpr (hrelNode a hra) (hrelNode b hrb) (.inl hab)) hra)
  -- variables that do not depend on the independent ones
  have hunt : ∀ v, Node σ dummy t v → (∀ i ∈ U.independent, ¬ ReflTransGen (Edge σ expr dummy t) i v) →
      Current O expr σ₁ v := by
    intro v hv hnot
    refine current_congr O expr σ σ₁ v ?_ (fun _ => e4) (fun x _ => by rw [e3]) ?_ (h.untouched v hv hnot)
    · intro u hu
      refine e5 u (fun hul => ?_)
      have hru := (l2 u).mp hul
      obtain ⟨i, hi, hiu⟩ := hru.1
      exact hnot i hi (.tail hiu (uses_edge h.dummyExpr (hrelNode u hru) hv (.inl hu)))
    · refine e5 v (fun hvl => ?_)
      obtain ⟨i, hi, hiv⟩ := ((l2 v).mp hvl).1
      exact hnot i hi hiv
  have hup : ∀ d ∈ U.dependent, ∀ u, Upstream σ expr dummy t u d → Node σ dummy t u → Current O expr σ₁ u := by
    intro d hd u hud hnu
    by_cases hr : Relevant σ expr dummy t U.independent U.dependent u
    · exact e6 u ((l2 u).mpr hr)
    · exact hunt u hnu (fun i hi hiu => hr ⟨⟨i, hi, hiu⟩, d, hd, hud⟩)
  -- parameters
  obtain ⟨p1, p2, p3, p4, p5⟩ := params_update V.params σ₁
  have hpar : ∀ v, Node σ dummy t v → Current O expr σ₁ v → Current O expr (V.params.foldl Param.update σ₁) v := by
    intro v hv hc
    refine current_congr O expr σ₁ _ v (fun u _ => by rw [p1]) (fun _ => p4) ?_ (by rw [p1]) hc
    intro x hx
    refine p5 x ?_
    rintro p hpm rfl
    rw [hp] at hpm
    exact h.separate p hpm v hv hx
  have hid := p2.trans e1
  have hf := p3.trans e2
  have hinv : Inv O expr D dummy t V σ := by
    refine ⟨h.created, h.ids, h.dummyExpr, ?_, ?_, ?_, ?_, ?_, ?_, ?_, ?_⟩
    · rw [hi]; exact h.indepNode
    · rw [hi]; exact h.dummyIndep
    · rw [hd]; exact h.depNode
    · rw [hi]; exact h.untouched
    · intro _; rw [hi, hd]; exact ⟨m, hm⟩
    · rw [hp, hd]; exact h.paramDep
    · rw [hp]; exact h.separate
    · rw [hp]; exact h.distinct
  refine ⟨hinv.frame _ hid hf ?_, hd, hp, hi, ?_, ?_, p4.trans e4, hid, hf, ?_, ?_⟩
  · rw [hi]; exact fun v hv hnot => hpar v hv (hunt v hv hnot)
  · intro d hdm u hud
    rw [hd] at hdm
    rw [Upstream, edge_congr hid hf] at hud
    have hnu : Node σ dummy t u := by
      rcases ReflTransGen.cases_head hud with rfl | ⟨y, hy, _⟩
      · exact h.depNode _ hdm
      · exact hy.1
    exact hpar u hnu (hup d hdm u hud hnu)
  · intro p hpm hr
    rw [params_values V.params σ₁ (by rw [hp]; exact h.distinct) p hpm hr, p1]
  · intro x hx
    rw [p5 x (by rw [hp]; exact hx), e3]
  · intro v hv
    rw [p1]
    exact e5 v (fun hvl => hv ((l2 v).mp hvl))

/-! ## failures -/

theorem evaluateAll_append (l₁ l₂ : List ℤ) (σ : State F W) :
    evaluateAll O expr D (l₁ ++ l₂) σ = (evaluateAll O expr D l₁ σ).bind (evaluateAll O expr D l₂) := by
  simp only [evaluateAll, List.foldlM_append]
  rfl

theorem evaluateAll_cons (k : ℤ) (l : List ℤ) (σ : State F W) :
    evaluateAll O expr D (k :: l) σ = (if k ∈ D.keys then evaluateExpression O expr σ (D.var k) else none).bind (evaluateAll O expr D l) := by
  simp only [evaluateAll, List.foldlM_cons]
  rfl

theorem evaluateThrow_spec : ∀ (l : List ℤ) (σ σ' : State F W),
    evaluateThrow O expr D l σ = some σ' ↔ ∃ l₁ k l₂, l = l₁ ++ k :: l₂ ∧ evaluateAll O expr D l₁ σ = some σ' ∧ k ∈ D.keys ∧
      evaluateExpression O expr σ' (D.var k) = none := by
  intro l
  induction l with
  | nil => intro σ σ'; simp [evaluateThrow]
  | cons j l ih =>
      intro σ σ'
      rw [evaluateThrow]
      constructor
      · intro h
        split_ifs at h with hj
        rcases he : evaluateExpression O expr σ (D.var j) with _ | τ
        · rw [he] at h
          simp only [Option.some.injEq] at h
          subst h
          exact ⟨[], j, l, rfl, rfl, hj, he⟩
        · rw [he] at h
          obtain ⟨l₁, k, l₂, rfl, h2, h3, h4⟩ := (ih τ σ').mp h
          refine ⟨j :: l₁, k, l₂, rfl, ?_, h3, h4⟩
          rw [evaluateAll_cons, if_pos hj, he]
          exact h2
      · rintro ⟨l₁, k, l₂, h1, h2, h3, h4⟩
        cases l₁ with
        | nil =>
            simp only [List.nil_append, List.cons.injEq] at h1
            obtain ⟨rfl, rfl⟩ := h1
            have h2 : some σ = some σ' := h2
            simp only [Option.some.injEq] at h2
            subst h2
            rw [if_pos h3, h4]
        | cons i l₁ =>
            simp only [List.cons_append, List.cons.injEq] at h1
            obtain ⟨rfl, rfl⟩ := h1
            rw [evaluateAll_cons, Option.bind_eq_some_iff] at h2
            obtain ⟨τ, h2, h5⟩ := h2
            split_ifs at h2 with hj
            rw [if_pos hj, h2]
            exact (ih τ σ').mpr ⟨l₁, k, l₂, rfl, h5, h3, h4⟩

theorem evaluateThrow_isSome : ∀ (l : List ℤ) (σ : State F W), (∀ k ∈ l, k ∈ D.keys) →
    ((evaluateThrow O expr D l σ).isSome ↔ evaluateAll O expr D l σ = none) := by
  intro l
  induction l with
  | nil => intro σ _; simp [evaluateThrow, evaluateAll]
  | cons j l ih =>
      intro σ h
      have hj := h j (by simp)
      rw [evaluateThrow, evaluateAll_cons, if_pos hj, if_pos hj]
      rcases evaluateExpression O expr σ (D.var j) with _ | τ
      · simp
      · exact ih τ fun k hk => h k (by simp [hk])

/-- evaluating a list gives the same, whatever the variables in the list have held before -/
theorem evaluate_agree (O : FloatOps F) (expr : Var → Expr F W) : ∀ (L : List Var) (σ τ : State F W), L.Nodup →
    (∀ L₁ b L₂, L = L₁ ++ b :: L₂ → ∀ a ∈ L, σ.id a ∈ (expr b).deps σ → a ∈ L₁) →
    τ.id = σ.id → τ.fixed = σ.fixed → τ.ext = σ.ext → τ.world = σ.world → (∀ v ∉ L, τ.value v = σ.value v) →
    L.foldlM (evaluateExpression O expr) τ = L.foldlM (evaluateExpression O expr) σ := by
  intro L
  induction L with
  | nil =>
      intro σ τ _ _ h1 h2 h3 h4 h5
      have : τ = σ := by
        cases σ; cases τ
        simp only [State.mk.injEq] at *
        exact ⟨funext fun v => h5 v (by simp), h2, h1, h3, h4⟩
      rw [this]
  | cons b L ih =>
      intro σ τ hn ht h1 h2 h3 h4 h5
      have hb : b ∉ L := (List.nodup_cons.mp hn).1
      have he : (expr b).eval O τ = (expr b).eval O σ := by
        refine Lemma.Deck.expr_deps O σ τ (expr b) ?_ (fun _ => h4) (fun x _ => by rw [h3])
        intro u hu
        refine h5 u fun huL => ?_
        have := ht [] b L rfl u huL hu
        simp at this
      simp only [List.foldlM_cons, Option.bind_eq_bind, evaluateExpression, he]
      rcases (expr b).eval O σ with _ | x
      · rfl
      · simp only [Option.map_some, Option.bind_some]
        refine ih _ _ (List.nodup_cons.mp hn).2 ?_ h1 h2 h3 h4 ?_
        · rintro L₁ c L₂ hL a ha hac
          rw [deps_congr σ { σ with value := Function.update σ.value b x } rfl] at hac
          have := ht (b :: L₁) c L₂ (by rw [hL]; rfl) a (by simp [ha]) hac
          rcases List.mem_cons.mp this with rfl | h
          · exact absurd ha hb
          · exact h
        · intro v hv
          by_cases hvb : v = b
          · subst hvb; simp
          · simp only [Function.update_of_ne hvb]
            exact h5 v (by simp [hv, hvb])

theorem evaluateAll_of_keys (O : FloatOps F) (expr : Var → Expr F W) (D : DepMap) : ∀ (l : List ℤ) (σ : State F W),
    (∀ k ∈ l, k ∈ D.keys) → evaluateAll O expr D l σ = (l.map D.var).foldlM (evaluateExpression O expr) σ := by
  intro l
  induction l with
  | nil => intro σ _; rfl
  | cons k l ih =>
      intro σ h
      rw [evaluateAll_cons, if_pos (h k (by simp)), List.map_cons, List.foldlM_cons]
      exact congrArg _ (funext fun τ => ih τ fun j hj => h j (by simp [hj]))

/-- the list that an updater works with -/
structure ListFor (D : DepMap) (expr : Var → Expr F W) (dummy : Var) (t : Tree) (U : Updater) (σ : State F W) (l : List ℤ) : Prop where
  nodup : (l.map D.var).Nodup
  mem : ∀ v, v ∈ l.map D.var ↔ Relevant σ expr dummy t U.independent U.dependent v
  order : ∀ L₁ b L₂, l.map D.var = L₁ ++ b :: L₂ → ∀ a ∈ l.map D.var, σ.id a ∈ (expr b).deps σ → a ∈ L₁
  keys : ∀ k ∈ l, k ∈ D.keys
  edges : ∀ L₁ b L₂, l.map D.var = L₁ ++ b :: L₂ → ∀ a, Edge σ expr dummy t a b → Relevant σ expr dummy t U.independent U.dependent a → a ∈ L₁

theorem relevant_node (h : Inv O expr D dummy t U σ) {v : Var} (hv : Relevant σ expr dummy t U.independent U.dependent v) :
    Node σ dummy t v := by
  obtain ⟨⟨i, hi, hiv⟩, _⟩ := hv
  rcases ReflTransGen.cases_tail hiv with rfl | ⟨y, _, hy⟩
  · exact h.indepNode _ hi
  · exact .inr hy.2.1

/-- what `update` works with after the list has been made, if necessary -/
theorem Inv.prepared (h : Inv O expr D dummy t U σ) {V : Updater} (n : ℕ)
    (hV : (if U.isValid then some U
      else (D.updateList (U.independent.image σ.id) (U.dependent.image σ.id) n).map
        fun l => { U with updateList := l, isValid := true }) = some V) :
    Inv O expr D dummy t V σ ∧ V.independent = U.independent ∧ V.dependent = U.dependent ∧ V.params = U.params ∧ V.isValid = true ∧
      ListFor D expr dummy t U σ V.updateList := by
  have hVs : V.independent = U.independent ∧ V.dependent = U.dependent ∧ V.params = U.params ∧ V.isValid = true ∧
      ∃ n, D.updateList (U.independent.image σ.id) (U.dependent.image σ.id) n = some V.updateList := by
    split_ifs at hV with hv
    · simp only [Option.some.injEq] at hV
      subst hV
      exact ⟨rfl, rfl, rfl, hv, h.valid hv⟩
    · simp only [Option.map_eq_some_iff] at hV
      obtain ⟨l, hl, rfl⟩ := hV
      exact ⟨rfl, rfl, rfl, rfl, n, hl⟩
  obtain ⟨hi, hd, hp, hvalid, m, hm⟩ := hVs
  have hC := Dep.created σ expr dummy t D h.ids h.created
  obtain ⟨N, hN, -⟩ := updateList_var h.ids hC U.independent U.dependent h.indepNode h.depNode
  obtain ⟨l1, l2, l3, l4⟩ := hN (max N m) (le_max_left _ _) V.updateList (updateList_mono D _ _ m _ _ hm (le_max_right _ _))
  refine ⟨?_, hi, hd, hp, hvalid, l1, l2, ?_, l4, l3⟩
  · refine ⟨h.created, h.ids, h.dummyExpr, ?_, ?_, ?_, ?_, ?_, ?_, ?_, ?_⟩
    · rw [hi]; exact h.indepNode
    · rw [hi]; exact h.dummyIndep
    · rw [hd]; exact h.depNode
    · rw [hi]; exact h.untouched
    · intro _; rw [hi, hd]; exact ⟨m, hm⟩
    · rw [hp, hd]; exact h.paramDep
    · rw [hp]; exact h.separate
    · rw [hp]; exact h.distinct
  · intro L₁ b L₂ hL a ha hab
    have hra := (l2 a).mp ha
    have hrb := (l2 b).mp (by rw [hL]; simp)
    exact l3 L₁ b L₂ hL a (uses_edge h.dummyExpr (relevant_node h hra) (relevant_node h hrb) (.inl hab)) hra

theorem Inv.failed (h : Inv O expr D dummy t U σ) {U' : Updater} {σ' : State F W} (n : ℕ)
    (hu : U.updateThrow O expr D n σ = some (U', σ')) :
    Inv O expr D dummy t U' σ' ∧ U'.independent = U.independent ∧ U'.dependent = U.dependent ∧ U'.params = U.params ∧ U'.isValid = true ∧
      σ'.id = σ.id ∧ σ'.fixed = σ.fixed ∧ σ'.ext = σ.ext ∧ σ'.world = σ.world ∧
      (∀ v, ¬ Relevant σ expr dummy t U.independent U.dependent v → σ'.value v = σ.value v) ∧
      ∃ L₁ b L₂, U'.updateList.map D.var = L₁ ++ b :: L₂ ∧ (expr b).eval O σ' = none ∧
        (∀ v ∉ L₁, σ'.value v = σ.value v) ∧ (∀ v ∈ L₁, Current O expr σ' v) := by
  simp only [Updater.updateThrow, Option.bind_eq_some_iff, Option.map_eq_some_iff, Prod.mk.injEq] at hu
  obtain ⟨V, hV, σ₁, hσ₁, rfl, rfl⟩ := hu
  obtain ⟨hinv, hi, hd, hp, hvalid, hl⟩ := h.prepared n hV
  obtain ⟨l₁, k, l₂, e1, e2, e3, e4⟩ := (evaluateThrow_spec _ _ _).mp hσ₁
  have hL : V.updateList.map D.var = l₁.map D.var ++ D.var k :: l₂.map D.var := by rw [e1]; simp
  have hsub : ∀ v ∈ l₁.map D.var, v ∈ V.updateList.map D.var := by
    intro v hv
    rw [hL]
    exact List.mem_append_left _ hv
  obtain ⟨f1, f2, f3, f4, f5, f6⟩ := evaluate_list O expr _ σ σ₁ (evaluateAll_eq O expr D _ _ _ e2) (by
      have := hl.nodup
      rw [hL] at this
      exact (List.nodup_append.mp this).1) (by
    intro L₁ b L₂ hb a ha hab
    exact hl.order L₁ b (L₂ ++ D.var k :: l₂.map D.var) (by rw [hL, hb]; simp) a (hsub a ha) hab)
  refine ⟨hinv.frame _ f1 f2 ?_, hi, hd, hp, hvalid, f1, f2, f3, f4, ?_, l₁.map D.var, D.var k, l₂.map D.var, hL, ?_, f5, f6⟩
  · rw [hi]
    intro v hv hnot
    refine current_congr O expr σ σ₁ v ?_ (fun _ => f4) (fun x _ => by rw [f3]) ?_ (h.untouched v hv hnot)
    · intro u hu
      refine f5 u (fun hul => ?_)
      have hru := (hl.mem u).mp (hsub u hul)
      obtain ⟨i, hi, hiu⟩ := hru.1
      exact hnot i hi (.tail hiu (uses_edge h.dummyExpr (relevant_node h hru) hv (.inl hu)))
    · refine f5 v (fun hvl => ?_)
      obtain ⟨i, hi, hiv⟩ := ((hl.mem v).mp (hsub v hvl)).1
      exact hnot i hi hiv
  · exact fun v hv => f5 v fun hvl => hv ((hl.mem v).mp (hsub v hvl))
  · simpa [evaluateExpression] using e4

theorem history_inv (h : History O expr D dummy t U σ) : Inv O expr D dummy t U σ := by
  induction h with
  | create σ h1 h2 h3 h4 => exact Inv.create h1 h2 h3 h4
  | @independent U U' σ p _ hn ha ih =>
      unfold Updater.addIndependent at ha
      split_ifs at ha
      simp only [Option.some.injEq] at ha
      subst ha
      refine ⟨ih.created, ih.ids, ih.dummyExpr, ?_, ?_, ih.depNode, ?_, by simp, ih.paramDep, ih.separate, ih.distinct⟩
      · intro i hi
        rcases Finset.mem_insert.mp hi with rfl | hi
        · exact hn
        · exact ih.indepNode i hi
      · exact Finset.mem_insert_of_mem ih.dummyIndep
      · exact fun v hv hnot => ih.untouched v hv (fun i hi => hnot i (Finset.mem_insert_of_mem hi))
  | @dependent U σ p _ hv hs hd ih =>
      unfold Updater.addDependent
      by_cases hf : σ.fixed p.var
      · rw [if_pos hf]
        obtain ⟨p1, p2, p3, p4, p5⟩ := params_update [p] σ
        simp only [List.foldl_cons, List.foldl_nil] at p1 p2 p3 p4 p5
        refine ih.frame _ p2 p3 ?_
        intro v hvn hnot
        refine current_congr O expr σ _ v (fun u _ => by rw [p1]) (fun _ => p4) ?_ (by rw [p1]) (ih.untouched v hvn hnot)
        intro x hx
        refine p5 x ?_
        rintro q hq rfl
        simp only [List.mem_singleton] at hq
        subst hq
        exact hs v hvn hx
      · rw [if_neg hf]
        have hmem : ∀ q, q ∈ (if p ∈ U.params then U.params else U.params ++ [p]) ↔ q ∈ U.params ∨ q = p := by
          intro q
          by_cases hpm : p ∈ U.params
          · rw [if_pos hpm]
            constructor
            · exact .inl
            · rintro (h | rfl)
              · exact h
              · exact hpm
          · rw [if_neg hpm]; simp
        refine ⟨ih.created, ih.ids, ih.dummyExpr, ih.indepNode, ih.dummyIndep, ?_, ih.untouched, by simp, ?_, ?_, ?_⟩
        · intro d hd
          rcases Finset.mem_insert.mp hd with rfl | hd
          · exact .inr ⟨hv, by simpa using hf⟩
          · exact ih.depNode d hd
        · intro q hq
          rcases (hmem q).mp hq with hq | rfl
          · exact Finset.mem_insert_of_mem (ih.paramDep q hq)
          · exact Finset.mem_insert_self _ _
        · intro q hq
          rcases (hmem q).mp hq with hq | rfl
          · exact ih.separate q hq
          · exact hs
        · intro a ha b hb hab hra hrb
          rcases (hmem a).mp ha with ha' | ha'
          · rcases (hmem b).mp hb with hb' | hb'
            · exact ih.distinct a ha' b hb' hab hra hrb
            · subst hb'; exact hd hrb a ha' hab
          · rcases (hmem b).mp hb with hb' | hb'
            · subst ha'; exact (hd hra b hb' (Ne.symm hab)).symm
            · exact (hab (ha'.trans hb'.symm)).elim
  | @clear U σ _ ih =>
      exact ⟨ih.created, ih.ids, ih.dummyExpr, ih.indepNode, ih.dummyIndep, by simp [Updater.clearDependent], ih.untouched,
        by simp [Updater.clearDependent], by simp [Updater.clearDependent], by simp [Updater.clearDependent],
        by simp [Updater.clearDependent]⟩
  | @change U σ σ' _ hc ih =>
      refine ih.frame σ' hc.id hc.fixed ?_
      intro v hv hnot
      refine current_congr O expr σ σ' v (fun u _ => by rw [hc.value]) ?_ ?_ (by rw [hc.value]) (ih.untouched v hv hnot)
      · intro hm
        exact (hnot dummy ih.dummyIndep (.single (uses_edge ih.dummyExpr (.inl rfl) hv (.inr ⟨rfl, hm⟩)))).elim
      · exact hc.ext v hv (fun hvi => hnot v hvi .refl)
  | @update U U' σ σ' n _ hu ih => exact (ih.update n hu).1
  | @failed U U' σ σ' n _ hu ih => exact (ih.failed n hu).1

end

end Schnek.Lemma.Dep

namespace Schnek.Lemma.Dep

open Schnek.Deck Schnek.Deck.DepMap Schnek.Spec Relation

variable {F W : Type}

/-! ## updating everything -/

theorem evaluate_all (O : FloatOps F) (expr : Var → Expr F W) : ∀ (L : List Var) (σ : State F W), L.Nodup →
    (∀ L₁ b L₂, L = L₁ ++ b :: L₂ → ∀ a ∈ L, σ.id a ∈ (expr b).deps σ → a ∈ L₁) →
    let σ' := L.foldl (fun σ v => (evaluateExpression O expr σ v).getD σ) σ
    σ'.id = σ.id ∧ σ'.fixed = σ.fixed ∧ σ'.ext = σ.ext ∧ σ'.world = σ.world ∧ (∀ v ∉ L, σ'.value v = σ.value v) ∧
      ∀ v ∈ L, ((expr v).eval O σ' = some (σ'.value v) ∨ ((expr v).eval O σ' = none ∧ σ'.value v = σ.value v)) := by
  intro L
  induction L using List.reverseRecOn with
  | nil => intro σ _ _; simp
  | append_singleton L b ih =>
      intro σ hn ht
      simp only [List.foldl_append, List.foldl_cons, List.foldl_nil]
      have hbL : b ∉ L := fun hb => (List.nodup_append.mp hn).2.2 b hb b (by simp) rfl
      obtain ⟨e1, e2, e3, e4, e5, e6⟩ := ih σ (List.nodup_append.mp hn).1 (by
        rintro L₁ c L₂ rfl a ha hac
        exact ht L₁ c (L₂ ++ [b]) (by simp) a (List.mem_append_left _ ha) hac)
      generalize L.foldl (fun σ v => (evaluateExpression O expr σ v).getD σ) σ = σ₁ at *
      have hdep : ∀ v ∈ L ++ [b], σ.id b ∉ (expr v).deps σ := by
        intro v hv hd
        rcases List.mem_append.mp hv with hv | hv
        · obtain ⟨L₁, L₂, rfl⟩ := List.append_of_mem hv
          exact hbL (List.mem_append_left _ (ht L₁ v (L₂ ++ [b]) (by simp) b (by simp) hd))
        · simp only [List.mem_singleton] at hv
          subst hv
          exact hbL (ht L v [] rfl v (by simp) hd)
      cases hx : (expr b).eval O σ₁ with
      | none =>
          simp only [evaluateExpression, hx, Option.map_none, Option.getD_none]
          refine ⟨e1, e2, e3, e4, fun v hv => e5 v (fun h => hv (List.mem_append_left _ h)), ?_⟩
          intro v hv
          rcases List.mem_append.mp hv with hv | hv
          · exact e6 v hv
          · simp only [List.mem_singleton] at hv
            subst hv
            exact .inr ⟨hx, e5 v hbL⟩
      | some x =>
          simp only [evaluateExpression, hx, Option.map_some, Option.getD_some]
          have hval : ∀ u, u ≠ b → Function.update σ₁.value b x u = σ₁.value u := fun u hu => Function.update_of_ne hu _ _
          refine ⟨e1, e2, e3, e4, ?_, ?_⟩
          · intro v hv
            simp only [List.mem_append, List.mem_singleton, not_or] at hv
            simp only [hval v hv.2, e5 v hv.1]
          · intro v hv
            have hev : (expr v).eval O { σ₁ with value := Function.update σ₁.value b x } = (expr v).eval O σ₁ := by
              refine Lemma.Deck.expr_deps O σ₁ _ (expr v) ?_ (fun _ => rfl) (fun _ _ => rfl)
              intro u hu
              refine hval u ?_
              rintro rfl
              rw [deps_congr σ σ₁ e1, e1] at hu
              exact hdep v hv hu
            rw [hev]
            rcases List.mem_append.mp hv with hv' | hv'
            · simp only [hval v (fun e => hbL (e ▸ hv'))]
              exact e6 v hv'
            · simp only [List.mem_singleton] at hv'
              subst hv'
              left
              rw [hx]; simp

theorem updateAll_spec (O : FloatOps F) {σ : State F W} {expr : Var → Expr F W} {dummy : Var} {t : Tree} {D : DepMap}
    (hid : GoodIds σ) (hdx : ∃ x, expr dummy = .ext .int x) (hC : Created σ expr dummy t D) :
    (∀ σ', updateAll O expr D D.keys σ = some σ' →
      σ'.id = σ.id ∧ σ'.fixed = σ.fixed ∧ σ'.ext = σ.ext ∧ σ'.world = σ.world ∧
        (∀ v, ¬ Node σ dummy t v → σ'.value v = σ.value v) ∧
        ∀ v, Node σ dummy t v → ((expr v).eval O σ' = some (σ'.value v) ∨
          ((expr v).eval O σ' = none ∧ σ'.value v = σ.value v))) ∧
    (updateAll O expr D D.keys σ = none ↔ ∃ v, TransGen (Edge σ expr dummy t) v v) := by
  obtain ⟨ho1, ho2⟩ := updateOrder_spec D D.keys (fun i hi j hj => by
    rw [hC.facts.modifies]; exact ⟨fun h => h.2.1, fun h => ⟨hj, h, hi⟩⟩)
  have hidvar : ∀ k ∈ D.keys, σ.id (D.var k) = k ∧ Node σ dummy t (D.var k) := by
    intro k hk
    obtain ⟨v, hv, rfl⟩ := (hC.keys k).mp hk
    rw [hC.var v hv]; exact ⟨rfl, hv⟩
  have hfold : ∀ (l : List ℤ), (∀ k ∈ l, k ∈ D.keys) → ∀ σ : State F W,
      l.foldlM (fun σ id => if id ∈ D.keys then some ((evaluateExpression O expr σ (D.var id)).getD σ) else none) σ =
        some ((l.map D.var).foldl (fun σ v => (evaluateExpression O expr σ v).getD σ) σ) := by
    intro l
    induction l with
    | nil => intro _ σ; rfl
    | cons k l ih =>
        intro hk σ
        simp only [List.foldlM_cons, List.map_cons, List.foldl_cons]
        rw [if_pos (hk k (by simp))]
        exact ih (fun k' hk' => hk k' (List.mem_cons_of_mem _ hk')) _
  have hmemnode : ∀ l : List ℤ, (∀ x, x ∈ l ↔ x ∈ D.keys) → ∀ v, v ∈ l.map D.var ↔ Node σ dummy t v := by
    intro l h2 v
    rw [List.mem_map]
    constructor
    · rintro ⟨k, hk, rfl⟩
      exact (hidvar k ((h2 k).mp hk)).2
    · intro hv
      exact ⟨σ.id v, (h2 _).mpr ((hC.keys _).mpr ⟨v, hv, rfl⟩), hC.var v hv⟩
  refine ⟨?_, ?_⟩
  · intro σ' h
    simp only [updateAll, Option.bind_eq_some_iff] at h
    obtain ⟨l, hl, h⟩ := h
    obtain ⟨h1, h2, h3⟩ := ho1 l hl
    rw [hfold l (fun k hk => (h2 k).mp hk)] at h
    simp only [Option.some.injEq] at h
    have hmem := hmemnode l h2
    have hnodup : (l.map D.var).Nodup := by
      refine List.Nodup.map_on ?_ h1
      intro x hx y hy hxy
      have := congrArg σ.id hxy
      rwa [(hidvar x ((h2 x).mp hx)).1, (hidvar y ((h2 y).mp hy)).1] at this
    obtain ⟨e1, e2, e3, e4, e5, e6⟩ := evaluate_all O expr (l.map D.var) σ hnodup (by
      intro L₁ b L₂ hL a ha hab
      obtain ⟨m₁, m', hm, hm1, hm'⟩ := List.map_eq_append_iff.mp hL
      obtain ⟨kb, m₂, rfl, hkb, hm2⟩ := List.map_eq_cons_iff.mp hm'
      have hkS : kb ∈ D.keys := (h2 kb).mp (by rw [hm]; simp)
      have hbN : Node σ dummy t b := by rw [← hkb]; exact (hidvar kb hkS).2
      have hbk : σ.id b = kb := by rw [← hkb]; exact (hidvar kb hkS).1
      have haN := (hmem a).mp ha
      have hdep : σ.id a ∈ D.dependsOn kb := by
        rw [← hbk]; exact (hC.edge a b haN hbN).mpr (uses_edge hdx haN hbN (.inl hab))
      have := h3 m₁ kb m₂ hm (σ.id a) hdep ((hC.keys _).mpr ⟨a, haN, rfl⟩)
      rw [← hm1, List.mem_map]
      exact ⟨σ.id a, this, hC.var a haN⟩)
    rw [h] at e1 e2 e3 e4 e5 e6
    exact ⟨e1, e2, e3, e4, fun v hv => e5 v (fun hm => hv ((hmem v).mp hm)), fun v hv => e6 v ((hmem v).mpr hv)⟩
  · have hnone : updateAll O expr D D.keys σ = none ↔ D.updateOrder D.keys = none := by
      simp only [updateAll]
      cases hl : D.updateOrder D.keys with
      | none => simp
      | some l => simp [hfold l (fun k hk => ((ho1 l hl).2.1 k).mp hk)]
    rw [hnone]
    constructor
    · intro hno
      obtain ⟨T, hT, hTS, hTp⟩ := ho2 hno
      obtain ⟨a, ha, hc⟩ := cycle_of_pred (EdgeId D) T hT (fun b hb => by
        obtain ⟨a, ha, hab⟩ := hTp b hb
        exact ⟨a, ha, hTS ha, hTS hb, hab⟩)
      obtain ⟨v, hv, rfl⟩ := (hC.keys a).mp (hTS ha)
      exact ⟨v, (tg_id hid hC v v hv).mp hc⟩
    · rintro ⟨v, hcyc⟩
      by_contra hne
      obtain ⟨l, hl⟩ := Option.ne_none_iff_exists'.mp hne
      obtain ⟨h1, h2, h3⟩ := ho1 l hl
      refine topological_acyclic D.dependsOn D.keys l h1 h2 h3 (σ.id v) ?_
      exact TransGen.lift σ.id (fun a b h => edge_id hC a b h) _ _ hcyc

/-! ## recreating the map -/

theorem addVars_some (σ : State F W) (expr : Var → Expr F W) (dummy : Var) : ∀ (L : List Var) (D D' : DepMap),
    L.foldlM (addVar σ expr dummy) D = some D' → ∀ v ∈ L, σ.fixed v = false → σ.id v ∉ D.keys := by
  intro L
  induction L with
  | nil => intro D D' _ v hv; simp at hv
  | cons u L ih =>
      intro D D' h v hv hf
      simp only [List.foldlM_cons, Option.bind_eq_bind, Option.bind_eq_some_iff] at h
      obtain ⟨D1, h1, h⟩ := h
      unfold addVar at h1
      rcases List.mem_cons.mp hv with rfl | hv
      · rw [if_neg (by simp [hf])] at h1
        split_ifs at h1 with hk
        exact hk
      · have := ih D1 D' h v hv hf
        split_ifs at h1 with hfu hk
        · simp only [Option.some.injEq] at h1
          rw [h1]; exact this
        · simp only [Option.some.injEq] at h1
          intro hk'
          exact this (by rw [← h1]; exact Finset.mem_insert_of_mem hk')

theorem addVars_constant (σ : State F W) (expr : Var → Expr F W) (dummy : Var) : ∀ (L : List Var) (D : DepMap),
    (∀ v ∈ L, σ.fixed v = true) → L.foldlM (addVar σ expr dummy) D = some D := by
  intro L
  induction L with
  | nil => intro D _; rfl
  | cons u L ih =>
      intro D h
      rw [List.foldlM_cons, addVar, if_pos (h u (by simp))]
      exact ih D (fun v hv => h v (List.mem_cons_of_mem _ hv))

end Schnek.Lemma.Dep
