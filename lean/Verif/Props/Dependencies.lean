import Verif.Lemma.Updater
import Verif.Props.Expression

/-!
# Updating variables that depend on others (C34 - C37, C57)
-/

namespace Schnek.Props

open Schnek.Deck Schnek.Deck.DepMap Schnek.Spec Schnek.Lemma.Dep Relation

variable {F W : Type}

/-- C34: if nothing that has to be updated depends on itself, the update list (which is found after finitely many iterations)
contains exactly the variables that depend on an independent variable and go into a dependent one, each once, and after all
listed variables it depends on; none is a null pointer. -/
theorem C34_update_list (σ : State F W) (expr : Var → Expr F W) (dummy : Var) (t : Tree) (D : DepMap) (hid : GoodIds σ)
    (hD : DepMap.create σ expr dummy t = some D) (indep dep : Finset Var)
    (hI : ∀ i ∈ indep, Node σ dummy t i) (hP : ∀ d ∈ dep, Node σ dummy t d)
    (hac : ∀ v, Relevant σ expr dummy t indep dep v → ¬ TransGen (Edge σ expr dummy t) v v) :
    ∃ l : List ℤ, (∃ N, ∀ n, N ≤ n → D.updateList (indep.image σ.id) (dep.image σ.id) n = some l) ∧
      (l.map D.var).Nodup ∧ (∀ v, v ∈ l.map D.var ↔ Relevant σ expr dummy t indep dep v) ∧
      (∀ l₁ b l₂, l.map D.var = l₁ ++ b :: l₂ → ∀ a, Edge σ expr dummy t a b → Relevant σ expr dummy t indep dep a → a ∈ l₁) ∧
      (∀ k ∈ l, k ∈ D.keys) := by
  obtain ⟨N, h1, h2⟩ := updateList_var hid (created σ expr dummy t D hid hD) indep dep hI hP
  have hne : D.updateList (indep.image σ.id) (dep.image σ.id) N ≠ none := by
    intro hno
    obtain ⟨v, hv, hc⟩ := (h2 N le_rfl).1.mp hno
    exact hac v hv hc
  obtain ⟨l, hl⟩ := Option.ne_none_iff_exists'.mp hne
  obtain ⟨a, b, c, k⟩ := h1 N le_rfl l hl
  exact ⟨l, ⟨N, fun n hn => updateList_mono D _ _ N n l hl hn⟩, a, b, c, k⟩

/-- C35: whatever has been done with an updater before, after `update` every dependent variable and every variable that goes into
it holds the value of its definition, and the value of every dependent parameter has been copied to the program's variable. -/
theorem C35_dependents_current (O : FloatOps F) (expr : Var → Expr F W) (D : DepMap) (dummy : Var) (t : Tree)
    (U U' : Updater) (σ σ' : State F W) (h : History O expr D dummy t U σ) (n : ℕ)
    (hu : U.update O expr D n σ = some (U', σ')) :
    (∀ d ∈ U.dependent, ∀ u, Upstream σ expr dummy t u d → Current O expr σ' u) ∧
    (∀ p ∈ U.params, p.var ∈ U.dependent ∧ (p.readOnly = false → σ'.ext p.target = σ'.value p.var)) := by
  have hi := history_inv h
  obtain ⟨-, h2, h3, -, h5, h6, -, h8, h9, -⟩ := hi.update n hu
  rw [h2] at h5
  rw [h3] at h6
  refine ⟨fun d hd u hud => h5 d hd u ?_, fun p hp => ⟨hi.paramDep p hp, h6 p hp⟩⟩
  rw [Upstream, edge_congr h8 h9]
  exact hud

/-- C35: if what goes into a dependent variable does not depend on itself, its value after `update` is that of evaluating everything
anew: it is the value in every state with the same external values and constants in which all variables going into it hold the
values of their definitions. -/
theorem C35_as_from_scratch (O : FloatOps F) (expr : Var → Expr F W) (D : DepMap) (dummy : Var) (t : Tree)
    (U U' : Updater) (σ σ' : State F W) (h : History O expr D dummy t U σ) (n : ℕ)
    (hu : U.update O expr D n σ = some (U', σ')) (d : Var) (hd : d ∈ U.dependent)
    (hac : ∀ u, Upstream σ expr dummy t u d → ¬ TransGen (Edge σ expr dummy t) u u)
    (τ : State F W) (hid : τ.id = σ.id) (hw : τ.world = σ.world)
    (hx : ∀ v, Node σ dummy t v → ∀ x ∈ externals (expr v), τ.ext x = σ.ext x)
    (hv : ∀ v, ¬ Node σ dummy t v → τ.value v = σ.value v)
    (hτ : ∀ u, Upstream σ expr dummy t u d → Current O expr τ u) : σ'.value d = τ.value d := by
  classical
  have hi := history_inv h
  obtain ⟨-, h2, h3, -, h5, h6, h7, h8, h9, h10, h11⟩ := hi.update n hu
  have hcur := (C35_dependents_current O expr D dummy t U U' σ σ' h n hu).1 d hd
  have hnode : ∀ u, Upstream σ expr dummy t u d → Node σ dummy t u := by
    intro u hud
    rcases ReflTransGen.cases_head hud with rfl | ⟨y, hy, _⟩
    · exact hi.depNode _ hd
    · exact hy.1
  let S : Finset Var := (insert dummy (allVars t).toFinset).filter (fun u => Upstream σ expr dummy t u d)
  have hS : ∀ u, Upstream σ expr dummy t u d → u ∈ S := by
    intro u hud
    refine Finset.mem_filter.mpr ⟨?_, hud⟩
    rcases hnode u hud with h | h
    · simp [h]
    · simp [h.1]
  refine acyclic_induction (Edge σ expr dummy t) S (fun a ha => hac a (Finset.mem_filter.mp ha).2)
    (fun u => σ'.value u = τ.value u) ?_ d (hS d .refl)
  intro u hu ih
  have hud := (Finset.mem_filter.mp hu).2
  have e1 := hcur u hud
  have e2 := hτ u hud
  have : (expr u).eval O σ' = (expr u).eval O τ := by
    refine Lemma.Deck.expr_deps O τ σ' (expr u) ?_ (fun _ => h7.trans hw.symm) ?_
    · intro w hwu
      rw [Lemma.Dep.deps_congr σ τ hid, hid] at hwu
      by_cases hwn : Node σ dummy t w
      · have hedge := uses_edge hi.dummyExpr hwn (hnode u hud) (.inl hwu)
        exact ih w (hS w (.head hedge hud)) hedge
      · rw [hv w hwn]
        exact h11 w (fun hr => hwn (by
          obtain ⟨⟨i, hi', hiv⟩, _⟩ := hr
          rcases ReflTransGen.cases_tail hiv with rfl | ⟨y, _, hy⟩
          · exact hi.indepNode _ hi'
          · exact .inr hy.2.1))
    · intro x hxu
      rw [hx u (hnode u hud) x hxu]
      refine h10 x ?_
      rintro p hp rfl
      exact hi.separate p hp u (hnode u hud) hxu
  unfold Current at e1 e2
  rw [this, e2] at e1
  exact (Option.some.inj e1).symm

/-- C36: finding what has to be updated always ends, and the assertion that there is a variable to evaluate next fails exactly if
something that has to be updated depends on itself. -/
theorem C36_cycles_detected (σ : State F W) (expr : Var → Expr F W) (dummy : Var) (t : Tree) (D : DepMap) (hid : GoodIds σ)
    (hD : DepMap.create σ expr dummy t = some D) (indep dep : Finset Var)
    (hI : ∀ i ∈ indep, Node σ dummy t i) (hP : ∀ d ∈ dep, Node σ dummy t d) :
    ∃ N, ∀ n, N ≤ n →
      (∃ pred foll, D.predecessors (indep.image σ.id) (dep.image σ.id) n = some pred ∧
        D.followers (indep.image σ.id) pred n = some foll) ∧
      (D.updateList (indep.image σ.id) (dep.image σ.id) n = none ↔
        ∃ v, Relevant σ expr dummy t indep dep v ∧ TransGen (Edge σ expr dummy t) v v) := by
  obtain ⟨N, -, h2⟩ := updateList_var hid (created σ expr dummy t D hid hD) indep dep hI hP
  exact ⟨N, fun n hn => ⟨(h2 n hn).2, (h2 n hn).1⟩⟩

/-- C37, for a map that was created when all variables were constant: `recreate` gives the map of the present variables.
Missing: all other maps, for which it is false (below). -/
theorem C37_recreate_partial (σ₀ σ : State F W) (expr₀ expr : Var → Expr F W) (dummy : Var) (t₀ t : Tree) (D : DepMap)
    (hc : ∀ v, ¬ NonConstant σ₀ t₀ v) (hd : σ.id dummy = σ₀.id dummy) (hD : DepMap.create σ₀ expr₀ dummy t₀ = some D) :
    D.recreate σ expr dummy t = DepMap.create σ expr dummy t := by
  have h0 : D = initial σ₀ dummy := by
    simp only [DepMap.create, constructMap, addTree_eq] at hD
    rw [addVars_constant σ₀ expr₀ dummy _ _ (fun v hv => by
      have := hc v
      simp only [NonConstant, not_and, Bool.not_eq_false] at this
      exact this hv)] at hD
    simp only [Option.map_some, Option.some.injEq] at hD
    rw [← hD]
    simp [setModifies, initial]
  subst h0
  simp only [DepMap.recreate, DepMap.create]
  rw [show initial σ₀ dummy = initial σ dummy by simp [initial, hd]]

/-- C37 is false as soon as one non-constant variable is still there when `recreate` is called: it throws. -/
theorem C37_violated_recreate (σ₀ σ : State F W) (expr₀ expr : Var → Expr F W) (dummy : Var) (t₀ t : Tree) (D : DepMap)
    (hid : GoodIds σ₀) (hD : DepMap.create σ₀ expr₀ dummy t₀ = some D) (v : Var) (hv₀ : NonConstant σ₀ t₀ v)
    (hv : NonConstant σ t v) (hsame : σ.id v = σ₀.id v) : D.recreate σ expr dummy t = none := by
  by_contra hne
  obtain ⟨D', hD'⟩ := Option.ne_none_iff_exists'.mp hne
  simp only [DepMap.recreate, constructMap, Option.map_eq_some_iff] at hD'
  obtain ⟨D1, h1, -⟩ := hD'
  rw [addTree_eq] at h1
  refine addVars_some σ expr dummy _ _ _ h1 v hv.1 hv.2 ?_
  rw [hsame]
  exact ((created σ₀ expr₀ dummy t₀ D hid hD).keys _).mpr ⟨v, .inr hv₀, rfl⟩

/-- C57, for a map that has not been used by an updater: `updateAll` leaves every variable with the value of its definition, unless
that cannot be evaluated; it changes nothing but variables, and it fails exactly if a variable depends on itself.
Missing: maps that have been used by an updater, for which it is false (below). -/
theorem C57_update_all_partial (O : FloatOps F) (σ : State F W) (expr : Var → Expr F W) (dummy : Var) (t : Tree) (D : DepMap)
    (hid : GoodIds σ) (hdx : ∃ x, expr dummy = .ext .int x) (hD : DepMap.create σ expr dummy t = some D) :
    (∀ σ', updateAll O expr D D.keys σ = some σ' →
      σ'.id = σ.id ∧ σ'.fixed = σ.fixed ∧ σ'.ext = σ.ext ∧ σ'.world = σ.world ∧
        (∀ v, ¬ Node σ dummy t v → σ'.value v = σ.value v) ∧
        ∀ v, Node σ dummy t v → (Current O expr σ' v ∨ ((expr v).eval O σ' = none ∧ σ'.value v = σ.value v))) ∧
    (updateAll O expr D D.keys σ = none ↔ ∃ v, TransGen (Edge σ expr dummy t) v v) :=
  updateAll_spec O hid hdx (created σ expr dummy t D hid hD)

/-! ## examples -/

/-- `0` is the dummy, `1` a read-only parameter, `2 = 1 * 2`, `3 = 2 + 4` and `4` a constant -/
def chainExpr : Var → Expr ℚ Unit
  | 0 => .ext .int 0
  | 1 => .ext .float 1
  | 2 => .binary .mul (.cons true (.ref .float 1) (.cons true (.value (.float 2)) .nil))
  | 3 => .binary .add (.cons true (.ref .float 2) (.cons true (.ref .float 4) .nil))
  | _ => .value (.float 0)

/-- everything is zero -/
def chainState : State ℚ Unit where
  value := fun v => if v = 0 then .int 0 else .float 0
  fixed := fun v => v == 4
  id := fun v => (v : ℤ) + 10
  ext := fun x => if x = 0 then .int 0 else .float 0
  world := ()

/-- `3` is in an inner block -/
def chainTree : Tree := .node [1, 4, 2] [.node [3] []]

/-- the map -/
def chainMap : DepMap := (DepMap.create chainState chainExpr 0 chainTree).get (by decide +kernel)

theorem chainMap_created : DepMap.create chainState chainExpr 0 chainTree = some chainMap := by
  simp [chainMap]

theorem chain_ids : GoodIds chainState := by
  refine ⟨fun a b h => ?_, fun v => ?_⟩
  · simp only [chainState] at h; exact_mod_cast (add_right_cancel h)
  · simp only [chainState]; omega

theorem chain_node (v : ℕ) : Node chainState 0 chainTree v ↔ v = 0 ∨ v = 1 ∨ v = 2 ∨ v = 3 := by
  simp only [Node, NonConstant, chainTree, allVars, allVarsList, chainState, List.mem_append, List.mem_cons, List.not_mem_nil,
    or_false, beq_eq_false_iff_ne, ne_eq]
  constructor
  · rintro (h | ⟨h, h4⟩) <;> tauto
  · rintro (rfl | rfl | rfl | rfl) <;> simp

theorem chain_edge (u v : ℕ) (h : Edge chainState chainExpr 0 chainTree u v) : u < v := by
  obtain ⟨hu', hv, hu⟩ := h
  rcases (chain_node v).mp (.inr hv) with rfl | rfl | rfl | rfl
  · simp [Uses, chainExpr, Expr.deps] at hu
  · simp [Uses, chainExpr, Expr.deps] at hu
  · rcases (chain_node u).mp hu' with rfl | rfl | rfl | rfl <;>
      simp [Uses, chainExpr, Expr.deps, Terms.deps, chainState] at hu ⊢
  · rcases (chain_node u).mp hu' with rfl | rfl | rfl | rfl <;>
      simp [Uses, chainExpr, Expr.deps, Terms.deps, chainState] at hu ⊢

theorem chain_acyclic (v : Var) : ¬ TransGen (Edge chainState chainExpr 0 chainTree) v v := by
  have key : ∀ a b : ℕ, TransGen (Edge chainState chainExpr 0 chainTree) a b → a < b := by
    intro a b h
    induction h with
    | single h => exact chain_edge _ _ h
    | tail _ h ih => exact lt_trans ih (chain_edge _ _ h)
  exact fun h => lt_irrefl _ (key v v h)

/-- the hypotheses of C34 are met, and the list is not empty -/
example : (∀ i ∈ ({0, 1} : Finset Var), Node chainState 0 chainTree i) ∧ (∀ d ∈ ({3} : Finset Var), Node chainState 0 chainTree d) ∧
    GoodIds chainState ∧ DepMap.create chainState chainExpr 0 chainTree = some chainMap ∧
    (∀ v, Relevant chainState chainExpr 0 chainTree {0, 1} {3} v → ¬ TransGen (Edge chainState chainExpr 0 chainTree) v v) ∧
    chainMap.updateList {10, 11} {13} 20 = some [11, 12, 13] :=
  ⟨by simp [chain_node], by simp [chain_node], chain_ids, chainMap_created, fun v _ => chain_acyclic v, by decide +kernel⟩

/-- the program has set its variable `1` to five -/
def chainChanged : State ℚ Unit :=
  { chainState with ext := fun x => if x = 0 then .int 0 else if x = 1 then .float 5 else .float 0 }

/-- an updater with the independent variable `1`, for the program's variable `2` whose value the setup file gives as `3` -/
def chainUpdater : Updater where
  updateList := []
  independent := {1, 0}
  dependent := {3}
  params := [⟨3, 2, false⟩]
  isValid := false

theorem chain_history : History ratOps chainExpr chainMap 0 chainTree chainUpdater chainChanged := by
  have h0 : History ratOps chainExpr chainMap 0 chainTree (Updater.create 0) chainState := by
    refine .create chainState chainMap_created ?_ chain_ids ⟨0, rfl⟩
    intro v hv
    rcases (chain_node v).mp hv with rfl | rfl | rfl | rfl <;>
      simp [Current, chainExpr, chainState, Expr.eval, Terms.evalFirst, Terms.evalRest, Val.ty, BinOp.eval, ratOps,
        BinOp.positive]
  have h1 := History.independent ⟨1, 1, true⟩ h0 ((chain_node 1).mpr (by simp)) (by rfl)
  have h2 := History.dependent ⟨3, 2, false⟩ h1 (by simp [chainTree, allVars, allVarsList]) (by
    intro v hv
    rcases (chain_node v).mp hv with rfl | rfl | rfl | rfl <;> simp [chainExpr, externals, externalsTerms])
    (by simp [Updater.create])
  have h3 : History ratOps chainExpr chainMap 0 chainTree chainUpdater chainState := h2
  refine h3.change ⟨rfl, rfl, rfl, ?_⟩
  intro v hv hvi x hx
  rcases (chain_node v).mp hv with rfl | rfl | rfl | rfl
  · simp [chainUpdater] at hvi
  · simp [chainUpdater] at hvi
  · simp [chainExpr, externals, externalsTerms] at hx
  · simp [chainExpr, externals, externalsTerms] at hx

/-- after the update the program's variable is `5 * 2 + 0` -/
example : ∃ U' σ', chainUpdater.update ratOps chainExpr chainMap 20 chainChanged = some (U', σ') ∧ σ'.ext 2 = .float 10 := by
  have hl : chainMap.updateList (chainUpdater.independent.image chainChanged.id) (chainUpdater.dependent.image chainChanged.id) 20 =
      some [11, 12, 13] := by decide +kernel
  have hv : chainMap.var 11 = 1 ∧ chainMap.var 12 = 2 ∧ chainMap.var 13 = 3 := by decide +kernel
  have hk : 11 ∈ chainMap.keys ∧ 12 ∈ chainMap.keys ∧ 13 ∈ chainMap.keys := by decide +kernel
  obtain ⟨σ₁, h1, h2⟩ : ∃ σ₁, evaluateAll ratOps chainExpr chainMap [11, 12, 13] chainChanged = some σ₁ ∧
      σ₁.value 3 = .float 10 := by
    refine ⟨_, by
      simp [evaluateAll, hv, hk, evaluateExpression, chainExpr, Expr.eval, Terms.evalFirst, Terms.evalRest, chainChanged, chainState,
        Val.ty, BinOp.positive, BinOp.eval, ratOps]
      rfl, ?_⟩
    simp; norm_num
  refine ⟨_, _, by rw [Updater.update, if_neg (by simp [chainUpdater]), hl, Option.map_some, Option.bind_some, h1]; rfl, ?_⟩
  simp [chainUpdater, Param.update, h2]

/-- "everything evaluated anew" exists in this case -/
example : let τ : State ℚ Unit := { chainChanged with value := fun v => match v with
      | 0 => .int 0 | 1 => .float 5 | 2 => .float 10 | 3 => .float 10 | _ => .float 0 }
    ∀ u, Node chainState 0 chainTree u → Current ratOps chainExpr τ u := by
  intro τ u hu
  rcases (chain_node u).mp hu with rfl | rfl | rfl | rfl <;>
    simp [τ, Current, chainExpr, chainChanged, chainState, Expr.eval, Terms.evalFirst, Terms.evalRest, Val.ty, BinOp.eval, ratOps,
        BinOp.positive] <;> norm_num

/-- `1 = 2 + ...` and `2 = 1` -/
def loopExpr : Var → Expr ℚ Unit
  | 0 => .ext .int 0
  | 1 => .binary .add (.cons true (.ref .float 2) (.cons true (.ref .float 3) .nil))
  | 2 => .ref .float 1
  | 3 => .ext .float 1
  | _ => .value (.float 0)

/-- a cycle is detected -/
example : ((DepMap.create chainState loopExpr 0 (.node [1, 2, 3] [])).map fun D => D.updateList {10, 13} {12} 20) = some none := by
  decide +kernel

/-- a cycle that need not be updated is ignored -/
example : ((DepMap.create chainState loopExpr 0 (.node [1, 2, 3] [])).map fun D => D.updateList {10} {12} 20) = some (some []) := by
  decide +kernel

/-- `recreate` throws although nothing has changed -/
example : chainMap.recreate chainState chainExpr 0 chainTree = none :=
  C37_violated_recreate chainState chainState chainExpr chainExpr 0 chainTree chainTree chainMap chain_ids chainMap_created 2
    ⟨by simp [chainTree, allVars], rfl⟩ ⟨by simp [chainTree, allVars], rfl⟩ rfl

/-- for a new map `updateAll` succeeds -/
example : chainMap.updateOrder chainMap.keys = some [10, 11, 12, 13] := by decide +kernel

/-- C57 is false for a map that has been used by an updater whose variables refer to a constant: looking for predecessors leaves an
entry without variable in the map, and `updateAll` fails although there is no cycle. -/
theorem C57_violated_after_update : ∃ pred, chainMap.predecessors {10, 11} {13} 20 = some pred ∧
    updateAll ratOps chainExpr chainMap (chainMap.touched pred) chainState = none ∧
    ∀ v, ¬ TransGen (Edge chainState chainExpr 0 chainTree) v v := by
  refine ⟨{11, 12, 13, 14}, by decide +kernel, ?_, chain_acyclic⟩
  have : chainMap.updateOrder (chainMap.touched {11, 12, 13, 14}) = none := by decide +kernel
  simp [updateAll, this]

/-- C58, for parameters whose variable is not constant: adding the same variable as independent again, or adding one nothing depends
on, leaves the update list as it was; the list depends on the independent and dependent variables only, not on the order of the
calls. Missing: read-only constants, for which it is false (below). -/
theorem C58_independent_partial (σ : State F W) (expr : Var → Expr F W) (dummy : Var) (t : Tree) (D : DepMap) (hid : GoodIds σ)
    (hD : DepMap.create σ expr dummy t = some D) (indep dep : Finset Var) (i : Var)
    (hI : ∀ i ∈ indep, Node σ dummy t i) (hi : Node σ dummy t i) (hP : ∀ d ∈ dep, Node σ dummy t d)
    (hno : ∀ d ∈ dep, ¬ ReflTransGen (Edge σ expr dummy t) i d)
    (hac : ∀ v, Relevant σ expr dummy t indep dep v → ¬ TransGen (Edge σ expr dummy t) v v) :
    ∃ l, (∃ N, ∀ n, N ≤ n → D.updateList (indep.image σ.id) (dep.image σ.id) n = some l) ∧
      ∃ l', (∃ N, ∀ n, N ≤ n → D.updateList ((insert i indep).image σ.id) (dep.image σ.id) n = some l') ∧
        ∀ v, v ∈ l'.map D.var ↔ v ∈ l.map D.var := by
  have hrel : ∀ v, Relevant σ expr dummy t (insert i indep) dep v ↔ Relevant σ expr dummy t indep dep v := by
    intro v
    constructor
    · rintro ⟨⟨j, hj, hjv⟩, d, hd, hvd⟩
      rcases Finset.mem_insert.mp hj with rfl | hj
      · exact (hno d hd (hjv.trans hvd)).elim
      · exact ⟨⟨j, hj, hjv⟩, d, hd, hvd⟩
    · rintro ⟨⟨j, hj, hjv⟩, h⟩
      exact ⟨⟨j, Finset.mem_insert_of_mem hj, hjv⟩, h⟩
  obtain ⟨l, h1, -, h3, -⟩ := C34_update_list σ expr dummy t D hid hD indep dep hI hP hac
  obtain ⟨l', h1', -, h3', -⟩ := C34_update_list σ expr dummy t D hid hD (insert i indep) dep
    (by
      intro j hj
      rcases Finset.mem_insert.mp hj with rfl | hj
      · exact hi
      · exact hI j hj) hP (fun v hv => hac v ((hrel v).mp hv))
  exact ⟨l, h1, l', h1', fun v => by rw [h3', h3, hrel]⟩

/-- the parameter `2` is not used by `1` -/
example : ∀ d ∈ ({1} : Finset Var), ¬ ReflTransGen (Edge chainState chainExpr 0 chainTree) 2 d := by
  intro d hd h
  simp only [Finset.mem_singleton] at hd
  subst hd
  have key : ∀ a b : ℕ, ReflTransGen (Edge chainState chainExpr 0 chainTree) a b → a ≤ b := by
    intro a b h
    induction h with
    | refl => exact le_rfl
    | tail _ h ih => exact le_trans ih (le_of_lt (chain_edge _ _ h))
  have := key 2 1 h
  omega

/-- C58 is false for a constant: `addIndependent` takes it, as it is read-only, but when a definition refers to it the update list
contains a null pointer. -/
theorem C58_violated_constant : (∃ U', (Updater.create 0).addIndependent ⟨4, 4, true⟩ = some U' ∧ 4 ∈ U'.independent) ∧
    chainState.fixed 4 = true ∧ chainMap.updateList {10, 14} {13} 20 = some [14] ∧ 14 ∉ chainMap.keys ∧
    evaluateAll ratOps chainExpr chainMap [14] chainState = none ∧
    ∀ v, ¬ TransGen (Edge chainState chainExpr 0 chainTree) v v := by
  have hk : 14 ∉ chainMap.keys := by decide +kernel
  exact ⟨⟨_, rfl, by simp⟩, rfl, by decide +kernel, hk, by simp [evaluateAll, hk], chain_acyclic⟩

end Schnek.Props
