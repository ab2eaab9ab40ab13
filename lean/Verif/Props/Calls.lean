import Verif.Lemma.Calls
import Verif.Lemma.CallsText
import Verif.Props.Dependencies
import Verif.Model.Registry

/-!
# C147: each function call of a formula is made exactly once per update
-/

namespace Schnek.Props.Calls

open Schnek.Deck Schnek.Deck.DepMap Schnek.Spec Schnek.Lemma Relation

variable {F W : Type}

/-- C147: the evaluation of a formula calls every function in it exactly once, from the left to the right and the arguments before the
function, one after the other; if there is an exception, it has made the first of these calls. What the functions do to the outside world is
arbitrary. -/
theorem C147_each_once (O : FloatOps F) (eff : Func F W → W → List (Val F) → W) (σ : State F W) (e : Expr F W) (w : W) :
    InSequence eff w (e.evalE O eff σ w).calls (e.evalE O eff σ w).world ∧
    ((e.evalE O eff σ w).calls.map Call.f <+: functionsIn e) ∧
    ((e.evalE O eff σ w).result ≠ none → (e.evalE O eff σ w).calls.map Call.f = functionsIn e) := by
  obtain ⟨r, h1, h2⟩ := Calls.makes_expr O eff σ e w
  refine ⟨Calls.ordered_expr O eff σ e w, ⟨r, h1.symm⟩, fun h => ?_⟩
  rw [h1, h2 h, List.append_nil]

/-- C147: an update that comes to its end evaluates exactly the variables that depend on an independent variable (or always have to be
updated) and are needed for a dependent one, and each of them once: its calls are those of one evaluation of each of these variables, one
after the other, with the final values of the variables; and each of these variables holds the value of its evaluation. The other variables
are left alone. -/
theorem C147_update (O : FloatOps F) (eff : Func F W → W → List (Val F) → W) (expr : Var → Expr F W) (D : DepMap) (dummy : Var) (t : Tree)
    {U U' : Updater} {σ σ' : State F W} (h : HistoryE O eff expr D dummy t U σ) (n : ℕ)
    (hu : (U.updateE O eff expr D n σ).result = some (U', σ', true)) :
    InSequence eff σ.world (U.updateE O eff expr D n σ).calls σ'.world ∧
    ∃ vs : List Var, vs.Nodup ∧ (∀ v, v ∈ vs ↔ Relevant σ expr dummy t U.independent U.dependent v) ∧ (∀ v ∉ vs, σ'.value v = σ.value v) ∧
      ∃ calls : Var → List (Call F W), (U.updateE O eff expr D n σ).calls = vs.flatMap calls ∧
        ∀ v ∈ vs, (calls v).map Call.f = functionsIn (expr v) ∧
          ∃ w, ((expr v).evalE O eff σ' w).result = some (σ'.value v) ∧ ((expr v).evalE O eff σ' w).calls = calls v := by
  obtain ⟨-, -, -, -, -, -, hw, vs, v1, v2, v3, -, v5⟩ := (Calls.history_inv h).update hu
  refine ⟨by rw [hw]; exact Calls.update_ordered O eff expr D n U σ, vs, v1, v2, v3, ?_⟩
  obtain ⟨calls, c1, c2⟩ := v5 rfl
  refine ⟨calls, c1, fun v hv => ?_⟩
  obtain ⟨w, w1, w2⟩ := c2 v hv
  refine ⟨?_, w, w1, w2⟩
  rw [← w2]
  exact (C147_each_once O eff σ' (expr v) w).2.2 (by rw [w1]; simp)

/-- C147: how often a function is called. `p` tells which calls are counted. -/
theorem C147_count (O : FloatOps F) (eff : Func F W → W → List (Val F) → W) (expr : Var → Expr F W) (D : DepMap) (dummy : Var) (t : Tree)
    {U U' : Updater} {σ σ' : State F W} (h : HistoryE O eff expr D dummy t U σ) (n : ℕ)
    (hu : (U.updateE O eff expr D n σ).result = some (U', σ', true)) (p : Func F W → Bool) :
    ∃ vs : List Var, vs.Nodup ∧ (∀ v, v ∈ vs ↔ Relevant σ expr dummy t U.independent U.dependent v) ∧
      (U.updateE O eff expr D n σ).calls.countP (fun c => p c.f) = (vs.map fun v => (functionsIn (expr v)).countP p).sum := by
  obtain ⟨-, vs, v1, v2, -, calls, c1, c2⟩ := C147_update O eff expr D dummy t h n hu
  refine ⟨vs, v1, v2, ?_⟩
  rw [c1, List.countP_flatMap]
  refine congrArg List.sum (List.map_congr_left fun v hv => ?_)
  rw [← (c2 v hv).1, List.countP_map]
  rfl

/-- C147: an update that ends with an exception has made the first of these calls, none of them twice; the outside world is left as they
have left it, and variables that are not evaluated are left alone. -/
theorem C147_exception (O : FloatOps F) (eff : Func F W → W → List (Val F) → W) (expr : Var → Expr F W) (D : DepMap) (dummy : Var) (t : Tree)
    {U U' : Updater} {σ σ' : State F W} (h : HistoryE O eff expr D dummy t U σ) (n : ℕ)
    (hu : (U.updateE O eff expr D n σ).result = some (U', σ', false)) :
    InSequence eff σ.world (U.updateE O eff expr D n σ).calls σ'.world ∧
    ∃ vs : List Var, vs.Nodup ∧ (∀ v, v ∈ vs ↔ Relevant σ expr dummy t U.independent U.dependent v) ∧ (∀ v ∉ vs, σ'.value v = σ.value v) ∧
      (U.updateE O eff expr D n σ).calls.map Call.f <+: vs.flatMap (fun v => functionsIn (expr v)) := by
  obtain ⟨-, -, -, -, -, -, hw, vs, v1, v2, v3, ⟨r, v4, -⟩, -⟩ := (Calls.history_inv h).update hu
  exact ⟨by rw [hw]; exact Calls.update_ordered O eff expr D n U σ, vs, v1, v2, v3, r, v4.symm⟩

/-- C147: a function registered to be updated always is called in every update in which a variable is asked for whose formula contains it,
whether anything has changed or not. -/
theorem C147_always (O : FloatOps F) (eff : Func F W → W → List (Val F) → W) (expr : Var → Expr F W) (D : DepMap) (dummy : Var) (t : Tree)
    {U U' : Updater} {σ σ' : State F W} (h : HistoryE O eff expr D dummy t U σ) (n : ℕ)
    (hu : (U.updateE O eff expr D n σ).result = some (U', σ', true)) (d : Var) (hd : d ∈ U.dependent) (f : Func F W)
    (hf : f.updateAlways = true) (hfd : f ∈ functionsIn (expr d)) : ∃ c ∈ (U.updateE O eff expr D n σ).calls, c.f = f := by
  obtain ⟨-, vs, v1, v2, -, calls, c1, c2⟩ := C147_update O eff expr D dummy t h n hu
  have hI := Calls.history_inv h
  have hdn : NonConstant σ t d := by
    rcases hI.depNode d hd with rfl | hn
    · obtain ⟨x, hx⟩ := hI.dummyExpr
      rw [hx] at hfd
      simp [functionsIn] at hfd
    · exact hn
  have hdv : d ∈ vs := (v2 d).mpr ⟨⟨dummy, hI.dummyIndep, .single ⟨.inl rfl, hdn, .inr ⟨rfl, Calls.always_expr σ f hf _ hfd⟩⟩⟩,
    d, hd, .refl⟩
  rw [← (c2 d hdv).1] at hfd
  obtain ⟨c, hc, hcf⟩ := List.mem_map.mp hfd
  exact ⟨c, by rw [c1]; exact List.mem_flatMap.mpr ⟨d, hdv, hc⟩, hcf⟩

/-- C147: if the functions leave the outside world alone, this is the update of C35, and the one with an exception that of C96. -/
theorem C147_same_as_update (O : FloatOps F) (eff : Func F W → W → List (Val F) → W) (expr : Var → Expr F W) (D : DepMap)
    (heff : ∀ f w args, eff f w args = w) (n : ℕ) (U U' : Updater) (σ σ' : State F W) :
    ((U.updateE O eff expr D n σ).result = some (U', σ', true) ↔ U.update O expr D n σ = some (U', σ')) ∧
    ((U.updateE O eff expr D n σ).result = some (U', σ', false) ↔ U.updateThrow O expr D n σ = some (U', σ')) :=
  Calls.update_quiet O eff expr D heff n U U' σ σ'

/-- C147: the functions of a formula read from a setup file are exactly those its text calls (names with a bracket behind them), each as
often as in the text: nothing is evaluated in advance, left out or put in twice. -/
theorem C147_text (env : Grammar.Env F W) (a : Grammar.Expression F) (e : Expr F W) (h : a.build env = some e) :
    ((functionsIn e).map some).Perm ((calledNames a.tokens).map env.func) := Calls.same_expression env a e h

/-! ## example: test_parser.cpp 757-820 -/

/-- `eval1()`: test_parser.cpp 757-820 -/
def eval1 : Func ℚ ℕ where
  params := []
  result := .float
  updateAlways := false
  call _ _ := some (.float 2)
  pure _ _ _ _ := rfl
  typed _ _ _ h := by cases h; rfl

/-- `eval2(x)`: twice its argument -/
def eval2 : Func ℚ ℕ := unaryFunc (fun x => 2 * x)

/-- `eval4()`: a counter, registered to be updated always -/
def eval4 : Func ℚ ℕ where
  params := []
  result := .float
  updateAlways := true
  call w _ := some (.float w)
  pure h := by cases h
  typed _ _ _ h := by cases h; rfl

/-- each call of a function registered to be updated always increments the counter -/
def countEff (f : Func ℚ ℕ) (w : ℕ) (_ : List (Val ℚ)) : ℕ := if f.updateAlways then w + 1 else w

/-- `0` is the dummy, `1` is `x`, `test4 = eval4();`, `test2 = eval2(x);`, `test1 = eval1();` `5` is `test2 + eval4()` and `6`
is `eval4() + "a" + eval1()`, which cannot be converted -/
def countExpr : Var → Expr ℚ ℕ
  | 0 => .ext .int 0
  | 1 => .ext .float 1
  | 2 => .call eval4 .nil
  | 3 => .call eval2 (.cons (.ref .float 1) .nil)
  | 4 => .call eval1 .nil
  | 5 => .binary .add (.cons true (.ref .float 3) (.cons true (.call eval4 .nil) .nil))
  | 6 => .binary .add (.cons true (.call eval4 .nil) (.cons true (.cast .float (.value (.str "a"))) (.cons true (.call eval1 .nil) .nil)))
  | _ => .value (.float 0)

/-- after parsing -/
def countState : State ℚ ℕ where
  value := fun v => if v = 0 then .int 0 else .float 0
  fixed := fun v => v == 4
  id := fun v => (v : ℤ) + 10
  ext := fun x => if x = 0 then .int 0 else .float 0
  world := 0

def countTree : Tree := .node [1, 2, 3, 4, 5, 6] []

/-- the map -/
def countMap : DepMap := (DepMap.create countState countExpr 0 countTree).get (by decide +kernel)

theorem countMap_created : DepMap.create countState countExpr 0 countTree = some countMap := by
  simp [countMap]

theorem count_node (v : ℕ) : Node countState 0 countTree v ↔ v = 0 ∨ v = 1 ∨ v = 2 ∨ v = 3 ∨ v = 5 ∨ v = 6 := by
  simp only [Node, NonConstant, countTree, allVars, allVarsList, countState, List.mem_append, List.mem_cons, List.not_mem_nil,
    or_false, beq_eq_false_iff_ne, ne_eq]
  constructor
  · rintro (h | ⟨h, h4⟩) <;> tauto
  · rintro (rfl | rfl | rfl | rfl | rfl | rfl) <;> simp

/-- the program sets `x` to five and wants `5` -/
def countChanged : State ℚ ℕ :=
  { countState with ext := fun x => if x = 0 then .int 0 else if x = 1 then .float 5 else .float 0 }

/-- with the independent variable `x` -/
def countUpdater : Updater where
  updateList := []
  independent := {1, 0}
  dependent := {5}
  params := [⟨5, 2, false⟩]
  isValid := false

theorem count_history : HistoryE ratOps countEff countExpr countMap 0 countTree countUpdater countChanged := by
  have h0 : HistoryE ratOps countEff countExpr countMap 0 countTree (Updater.create 0) countState := by
    refine .create countState countMap_created ⟨fun a b h => ?_, fun v => ?_⟩ ⟨0, rfl⟩
    · simp only [countState] at h; exact_mod_cast (add_right_cancel h)
    · simp only [countState]; omega
  have h1 := HistoryE.independent ⟨1, 1, true⟩ h0 ((count_node 1).mpr (by simp)) (by rfl)
  have h2 := HistoryE.dependent ⟨5, 2, false⟩ h1 (by simp [countTree, allVars, allVarsList]) (by
    intro v hv
    rcases (count_node v).mp hv with rfl | rfl | rfl | rfl | rfl | rfl <;> simp [countExpr, externals, externalsTerms, externalsArgs])
  have h3 : HistoryE ratOps countEff countExpr countMap 0 countTree countUpdater countState := h2
  exact h3.change rfl rfl

/-- The update calls `eval2` and then `eval4`, each once, and not `eval1`; `5` gets `2 * 5 + 0` and the counter is one. -/
example : ∃ U' σ', (countUpdater.updateE ratOps countEff countExpr countMap 20 countChanged).result = some (U', σ', true) ∧
    σ'.ext 2 = .float 10 ∧ σ'.world = 1 ∧
    (countUpdater.updateE ratOps countEff countExpr countMap 20 countChanged).calls = [⟨eval2, 0, [.float 5]⟩, ⟨eval4, 0, []⟩] := by
  have hl : countMap.updateList (countUpdater.independent.image countChanged.id) (countUpdater.dependent.image countChanged.id) 20 =
      some [10, 11, 13, 15] := by decide +kernel
  have hv : countMap.var 10 = 0 ∧ countMap.var 11 = 1 ∧ countMap.var 13 = 3 ∧ countMap.var 15 = 5 := by decide +kernel
  have hk : 10 ∈ countMap.keys ∧ 11 ∈ countMap.keys ∧ 13 ∈ countMap.keys ∧ 15 ∈ countMap.keys := by decide +kernel
  have hr : ∃ σ₁, evaluateAllE ratOps countEff countExpr countMap [10, 11, 13, 15] countChanged 0 =
      ⟨some (σ₁, true), 1, [⟨eval2, 0, [.float 5]⟩, ⟨eval4, 0, []⟩]⟩ ∧ σ₁.value 5 = .float 10 := by
    refine ⟨_, by
      simp [evaluateAllE, hv, hk, countExpr, Expr.evalE, Terms.evalFirstE, Terms.evalRestE, Args.evalE, Run.bind, Run.lift, invoke, eval2,
        eval4, unaryFunc, countEff, countChanged, countState, Val.ty, BinOp.positive, BinOp.eval, ratOps]
      rfl, ?_⟩
    simp; norm_num
  obtain ⟨σ₁, h1, h2⟩ := hr
  have hu : countUpdater.updateE ratOps countEff countExpr countMap 20 countChanged =
      ⟨some ({ countUpdater with updateList := [10, 11, 13, 15], isValid := true },
        countUpdater.params.foldl Param.update { σ₁ with world := 1 }, true), 1, [⟨eval2, 0, [.float 5]⟩, ⟨eval4, 0, []⟩]⟩ := by
    have hw : countChanged.world = 0 := rfl
    simp [Updater.updateE, countUpdater] at hl ⊢
    simp [hl, Run.bind, Run.lift, hw, h1]
  rw [hu]
  refine ⟨_, _, rfl, ?_, ?_, rfl⟩
  · simp [countUpdater, Param.update, h2]
  · simp [countUpdater, Param.update]

/-- `x` and the functions -/
def countEnv : Grammar.Env ℚ ℕ where
  lookup n := if n = "x" then some (1, .float) else none
  func n := if n = "eval1" then some eval1 else if n = "eval2" then some eval2 else if n = "eval4" then some eval4 else none

/-- `eval2(x + eval4()) - eval1()` is read, and calls three functions, the inner one first. -/
example : ∃ (a : Grammar.Expression ℚ) (e : Expr ℚ ℕ), a.tokens = [.ident "eval2", .lbracket, .ident "x", .plus, .ident "eval4", .lbracket,
    .rbracket, .rbracket, .minus, .ident "eval1", .lbracket, .rbracket] ∧ a.build countEnv = some e ∧
    functionsIn e = [eval4, eval2, eval1] ∧ calledNames a.tokens = ["eval2", "eval4", "eval1"] := by
  refine ⟨.sub (.one (.one (.one (.call "eval2" (.one (.add (.one (.one (.one (.ident "x")))) (.one (.one (.one (.callNone "eval4"))))))))))
    (.one (.one (.one (.callNone "eval1")))), _, rfl, rfl, ?_, rfl⟩
  rfl

/-- with `6` instead of `5` -/
def failUpdater : Updater where
  updateList := []
  independent := {1, 0}
  dependent := {6}
  params := [⟨6, 2, false⟩]
  isValid := false

theorem fail_history : HistoryE ratOps countEff countExpr countMap 0 countTree failUpdater countChanged := by
  have h2 := (HistoryE.clear count_history).dependent ⟨6, 2, false⟩ (by simp [countTree, allVars, allVarsList]) (by
    intro v hv
    rcases (count_node v).mp hv with rfl | rfl | rfl | rfl | rfl | rfl <;> simp [countExpr, externals, externalsTerms, externalsArgs])
  exact h2

/-- The update ends with an exception after the first of the two calls of the formula. -/
example : ∃ U' σ', (failUpdater.updateE ratOps countEff countExpr countMap 20 countChanged).result = some (U', σ', false) ∧
    (failUpdater.updateE ratOps countEff countExpr countMap 20 countChanged).calls = [⟨eval4, 0, []⟩] ∧
    functionsIn (countExpr 6) = [eval4, eval1] := by
  have hl : countMap.updateList (failUpdater.independent.image countChanged.id) (failUpdater.dependent.image countChanged.id) 20 =
      some [10, 16] := by decide +kernel
  have hv : countMap.var 10 = 0 ∧ countMap.var 16 = 6 := by decide +kernel
  have hk : 10 ∈ countMap.keys ∧ 16 ∈ countMap.keys := by decide +kernel
  have hr : ∃ σ₁, evaluateAllE ratOps countEff countExpr countMap [10, 16] countChanged 0 = ⟨some (σ₁, false), 1, [⟨eval4, 0, []⟩]⟩ := by
    refine ⟨_, by
      simp [evaluateAllE, hv, hk, countExpr, Expr.evalE, Terms.evalFirstE, Terms.evalRestE, Args.evalE, Run.bind, Run.lift, invoke,
        eval4, countEff, countChanged, countState, Val.ty, convert, ratOps]
      rfl⟩
  obtain ⟨σ₁, h1⟩ := hr
  have hu : failUpdater.updateE ratOps countEff countExpr countMap 20 countChanged =
      ⟨some ({ failUpdater with updateList := [10, 16], isValid := true }, { σ₁ with world := 1 }, false), 1, [⟨eval4, 0, []⟩]⟩ := by
    have hw : countChanged.world = 0 := rfl
    simp [Updater.updateE, failUpdater] at hl ⊢
    simp [hl, Run.bind, Run.lift, hw, h1]
  rw [hu]
  exact ⟨_, _, rfl, rfl, rfl⟩

end Schnek.Props.Calls
