import Verif.Spec.Calls
import Verif.Lemma.Updater

/-! # Lemmas on evaluation with calls that change the outside world -/

namespace Schnek.Lemma.Calls

open Schnek.Deck Schnek.Deck.DepMap Schnek.Spec Relation

variable {F W α β : Type}

theorem bind_none {m : Run F W α} {k : α → Run F W β} {w : W} (h : (m w).result = none) :
    m.bind k w = ⟨none, (m w).world, (m w).calls⟩ := by
  unfold Run.bind; rw [h]

theorem bind_some {m : Run F W α} {k : α → Run F W β} {w : W} {a : α} (h : (m w).result = some a) :
    m.bind k w = ⟨(k a (m w).world).result, (k a (m w).world).world, (m w).calls ++ (k a (m w).world).calls⟩ := by
  unfold Run.bind; rw [h]

/-! ## each call once -/

/-- a run makes these calls, or some of the first if there is an exception -/
def Makes (m : Run F W α) (l : List (Func F W)) : Prop :=
  ∀ w, ∃ rest, l = (m w).calls.map Call.f ++ rest ∧ ((m w).result ≠ none → rest = [])

theorem makes_lift (x : Option α) : Makes (Run.lift x : Run F W α) [] := fun w => ⟨[], by simp [Run.lift], fun _ => rfl⟩

theorem makes_bind {m : Run F W α} {k : α → Run F W β} {l₁ l₂ : List (Func F W)} (h1 : Makes m l₁) (h2 : ∀ a, Makes (k a) l₂) :
    Makes (m.bind k) (l₁ ++ l₂) := by
  intro w
  obtain ⟨r, e, hr⟩ := h1 w
  cases h : (m w).result with
  | none =>
      rw [bind_none h]
      exact ⟨r ++ l₂, by rw [e]; simp, fun h => absurd rfl h⟩
  | some a =>
      rw [bind_some h]
      obtain ⟨r', e', hr'⟩ := h2 a (m w).world
      have := hr (by rw [h]; simp)
      subst this
      refine ⟨r', ?_, hr'⟩
      simp only [List.append_nil] at e
      rw [e, e']
      simp

theorem makes_bind_lift {m : Run F W α} {k : α → Option β} {l : List (Func F W)} (h1 : Makes m l) :
    Makes (m.bind fun a => Run.lift (k a)) l := by
  have := makes_bind h1 (fun a => makes_lift (F := F) (W := W) (k a))
  rwa [List.append_nil] at this

section

variable (O : FloatOps F) (eff : Func F W → W → List (Val F) → W) (σ : State F W)

mutual

theorem makes_expr : (e : Expr F W) → Makes (e.evalE O eff σ) (functionsIn e)
  | .value _ => by unfold Expr.evalE functionsIn; exact makes_lift _
  | .ref _ _ => by unfold Expr.evalE functionsIn; exact makes_lift _
  | .ext _ _ => by unfold Expr.evalE functionsIn; exact makes_lift _
  | .unary _ e => by unfold Expr.evalE functionsIn; exact makes_bind_lift (makes_expr e)
  | .binary op es => by unfold Expr.evalE functionsIn; exact makes_first op es
  | .cast _ e => by unfold Expr.evalE functionsIn; exact makes_bind_lift (makes_expr e)
  | .call f args => by
      unfold Expr.evalE functionsIn
      exact makes_bind (makes_args args) (fun a w => ⟨[], by simp [invoke], fun _ => rfl⟩)

theorem makes_first (op : BinOp) : (es : Terms F W) → Makes (es.evalFirstE O eff σ op) (functionsInTerms es)
  | .nil => by unfold Terms.evalFirstE functionsInTerms; exact makes_lift _
  | .cons _ e es => by unfold Terms.evalFirstE functionsInTerms; exact makes_bind (makes_expr e) (fun a => makes_rest op es a)

theorem makes_rest (op : BinOp) : (es : Terms F W) → (v : Val F) → Makes (es.evalRestE O eff σ op v) (functionsInTerms es)
  | .nil, _ => by unfold Terms.evalRestE functionsInTerms; exact makes_lift _
  | .cons _ e es, v => by
      unfold Terms.evalRestE functionsInTerms
      refine makes_bind (makes_expr e) (fun a => ?_)
      exact makes_bind (l₁ := []) (makes_lift _) (fun b => makes_rest op es b)

theorem makes_args : (es : Args F W) → Makes (es.evalE O eff σ) (functionsInArgs es)
  | .nil => by unfold Args.evalE functionsInArgs; exact makes_lift _
  | .cons e es => by
      unfold Args.evalE functionsInArgs
      exact makes_bind (makes_expr e) (fun a => makes_bind_lift (makes_args es))

end

end

/-! ## what an evaluation depends on -/

section

variable (O : FloatOps F) (eff : Func F W → W → List (Val F) → W) (σ σ' : State F W)

mutual

theorem expr_congr : (e : Expr F W) → (∀ v, σ.id v ∈ e.deps σ → σ'.value v = σ.value v) → (∀ x ∈ externals e, σ'.ext x = σ.ext x) →
    e.evalE O eff σ' = e.evalE O eff σ
  | .value _, _, _ => by simp only [Expr.evalE]
  | .ref t v, h, _ => by
      have := h v (by simp [Expr.deps])
      simp only [Expr.evalE, this]
  | .ext t x, _, h => by
      have := h x (by simp [externals])
      simp only [Expr.evalE, this]
  | .unary op e, h, hx => by
      simp only [Expr.evalE, expr_congr e (by simpa only [Expr.deps] using h) (by simpa only [externals] using hx)]
  | .binary op es, h, hx => by
      simp only [Expr.evalE, first_congr op es (by simpa only [Expr.deps] using h) (by simpa only [externals] using hx)]
  | .cast t e, h, hx => by
      simp only [Expr.evalE, expr_congr e (by simpa only [Expr.deps] using h) (by simpa only [externals] using hx)]
  | .call f args, h, hx => by
      simp only [Expr.evalE, args_congr args (fun v hv => h v (by simp only [Expr.deps]; exact List.mem_append_left _ hv))
        (by simpa only [externals] using hx)]

theorem first_congr (op : BinOp) : (es : Terms F W) → (∀ v, σ.id v ∈ es.deps σ → σ'.value v = σ.value v) →
    (∀ x ∈ externalsTerms es, σ'.ext x = σ.ext x) → es.evalFirstE O eff σ' op = es.evalFirstE O eff σ op
  | .nil, _, _ => by simp only [Terms.evalFirstE]
  | .cons p e es, h, hx => by
      have h1 := expr_congr e (fun v hv => h v (by simp only [Terms.deps]; exact List.mem_append_left _ hv))
        (fun x hxx => hx x (by simp only [externalsTerms]; exact List.mem_append_left _ hxx))
      have h2 := rest_congr op es (fun v hv => h v (by simp only [Terms.deps]; exact List.mem_append_right _ hv))
        (fun x hxx => hx x (by simp only [externalsTerms]; exact List.mem_append_right _ hxx))
      simp only [Terms.evalFirstE, h1, h2]

theorem rest_congr (op : BinOp) : (es : Terms F W) → (∀ v, σ.id v ∈ es.deps σ → σ'.value v = σ.value v) →
    (∀ x ∈ externalsTerms es, σ'.ext x = σ.ext x) → ∀ v, es.evalRestE O eff σ' op v = es.evalRestE O eff σ op v
  | .nil, _, _ => by intro v; simp only [Terms.evalRestE]
  | .cons p e es, h, hx => by
      have h1 := expr_congr e (fun v hv => h v (by simp only [Terms.deps]; exact List.mem_append_left _ hv))
        (fun x hxx => hx x (by simp only [externalsTerms]; exact List.mem_append_left _ hxx))
      have h2 := rest_congr op es (fun v hv => h v (by simp only [Terms.deps]; exact List.mem_append_right _ hv))
        (fun x hxx => hx x (by simp only [externalsTerms]; exact List.mem_append_right _ hxx))
      intro v
      simp only [Terms.evalRestE, h1, h2]

theorem args_congr : (es : Args F W) → (∀ v, σ.id v ∈ es.deps σ → σ'.value v = σ.value v) →
    (∀ x ∈ externalsArgs es, σ'.ext x = σ.ext x) → es.evalE O eff σ' = es.evalE O eff σ
  | .nil, _, _ => by simp only [Args.evalE]
  | .cons e es, h, hx => by
      have h1 := expr_congr e (fun v hv => h v (by simp only [Args.deps]; exact List.mem_append_left _ hv))
        (fun x hxx => hx x (by simp only [externalsArgs]; exact List.mem_append_left _ hxx))
      have h2 := args_congr es (fun v hv => h v (by simp only [Args.deps]; exact List.mem_append_right _ hv))
        (fun x hxx => hx x (by simp only [externalsArgs]; exact List.mem_append_right _ hxx))
      simp only [Args.evalE, h1, h2]

end

end

/-! ## calls that leave the world alone -/

section

variable (O : FloatOps F) (eff : Func F W → W → List (Val F) → W)

/-- the run has this result, and leaves the world alone -/
def Quiet (m : Run F W α) (w : W) (x : Option α) : Prop := (m w).result = x ∧ (m w).world = w

theorem quiet_lift (x : Option α) (w : W) : Quiet (Run.lift x : Run F W α) w x := ⟨rfl, rfl⟩

theorem quiet_bind {m : Run F W α} {k : α → Run F W β} {w : W} {x : Option α} {y : α → Option β} (h1 : Quiet m w x)
    (h2 : ∀ a, Quiet (k a) w (y a)) : Quiet (m.bind k) w (x.bind y) := by
  obtain ⟨e1, e2⟩ := h1
  cases h : x with
  | none =>
      rw [h] at e1
      unfold Quiet
      rw [bind_none e1]
      exact ⟨rfl, e2⟩
  | some a =>
      rw [h] at e1
      unfold Quiet
      rw [bind_some e1, e2]
      exact h2 a

variable (heff : ∀ f w args, eff f w args = w) (σ : State F W) (w : W) (hw : σ.world = w)
include heff hw

mutual

theorem quiet_expr : (e : Expr F W) → Quiet (e.evalE O eff σ) w (e.eval O σ)
  | .value _ => by unfold Expr.evalE Expr.eval; exact quiet_lift _ _
  | .ref _ _ => by unfold Expr.evalE Expr.eval; exact quiet_lift _ _
  | .ext _ _ => by unfold Expr.evalE Expr.eval; exact quiet_lift _ _
  | .unary _ e => by unfold Expr.evalE Expr.eval; exact quiet_bind (quiet_expr e) (fun _ => quiet_lift _ _)
  | .binary op es => by unfold Expr.evalE Expr.eval; exact quiet_first op es
  | .cast _ e => by unfold Expr.evalE Expr.eval; exact quiet_bind (quiet_expr e) (fun _ => quiet_lift _ _)
  | .call f args => by
      unfold Expr.evalE Expr.eval
      exact quiet_bind (quiet_args args) (fun a => ⟨by simp [invoke, hw], by simp [invoke, heff]⟩)

theorem quiet_first (op : BinOp) : (es : Terms F W) → Quiet (es.evalFirstE O eff σ op) w (es.evalFirst O σ op)
  | .nil => by unfold Terms.evalFirstE Terms.evalFirst; exact quiet_lift _ _
  | .cons _ e es => by unfold Terms.evalFirstE Terms.evalFirst; exact quiet_bind (quiet_expr e) (fun a => quiet_rest op es a)

theorem quiet_rest (op : BinOp) : (es : Terms F W) → (v : Val F) → Quiet (es.evalRestE O eff σ op v) w (es.evalRest O σ op v)
  | .nil, _ => by unfold Terms.evalRestE Terms.evalRest; exact quiet_lift _ _
  | .cons _ e es, v => by
      unfold Terms.evalRestE Terms.evalRest
      exact quiet_bind (quiet_expr e) (fun a => quiet_bind (quiet_lift _ _) (fun b => quiet_rest op es b))

theorem quiet_args : (es : Args F W) → Quiet (es.evalE O eff σ) w (es.eval O σ)
  | .nil => by unfold Args.evalE Args.eval; exact quiet_lift _ _
  | .cons e es => by
      unfold Args.evalE Args.eval
      refine quiet_bind (quiet_expr e) (fun a => ?_)
      rw [show Option.map (fun x => a :: x) (es.eval O σ) = (es.eval O σ).bind (fun vs => some (a :: vs)) from by
        cases es.eval O σ <;> rfl]
      exact quiet_bind (quiet_args es) (fun _ => quiet_lift _ _)

end

end

/-! ## one after the other -/

theorem sequence_append {eff : Func F W → W → List (Val F) → W} {w₁ w₂ : W} {c₁ c₂ : List (Call F W)} :
    ∀ {w₀ : W}, InSequence eff w₀ c₁ w₁ → InSequence eff w₁ c₂ w₂ → InSequence eff w₀ (c₁ ++ c₂) w₂ := by
  induction c₁ with
  | nil => intro w₀ h1 h2; have : w₁ = w₀ := h1; subst this; exact h2
  | cons c cs ih => intro w₀ h1 h2; exact ⟨h1.1, ih h1.2 h2⟩

/-- a run makes its calls one after the other -/
def Ordered (eff : Func F W → W → List (Val F) → W) (m : Run F W α) : Prop := ∀ w, InSequence eff w (m w).calls (m w).world

theorem ordered_lift {eff : Func F W → W → List (Val F) → W} (x : Option α) : Ordered eff (Run.lift x : Run F W α) := fun _ => rfl

theorem ordered_bind {eff : Func F W → W → List (Val F) → W} {m : Run F W α} {k : α → Run F W β} (h1 : Ordered eff m)
    (h2 : ∀ a, Ordered eff (k a)) : Ordered eff (m.bind k) := by
  intro w
  cases h : (m w).result with
  | none => rw [bind_none h]; exact h1 w
  | some a => rw [bind_some h]; exact sequence_append (h1 w) (h2 a _)

section

variable (O : FloatOps F) (eff : Func F W → W → List (Val F) → W) (σ : State F W)

mutual

theorem ordered_expr : (e : Expr F W) → Ordered eff (e.evalE O eff σ)
  | .value _ => by unfold Expr.evalE; exact ordered_lift _
  | .ref _ _ => by unfold Expr.evalE; exact ordered_lift _
  | .ext _ _ => by unfold Expr.evalE; exact ordered_lift _
  | .unary _ e => by unfold Expr.evalE; exact ordered_bind (ordered_expr e) (fun _ => ordered_lift _)
  | .binary op es => by unfold Expr.evalE; exact ordered_first op es
  | .cast _ e => by unfold Expr.evalE; exact ordered_bind (ordered_expr e) (fun _ => ordered_lift _)
  | .call f args => by unfold Expr.evalE; exact ordered_bind (ordered_args args) (fun a w => ⟨rfl, rfl⟩)

theorem ordered_first (op : BinOp) : (es : Terms F W) → Ordered eff (es.evalFirstE O eff σ op)
  | .nil => by unfold Terms.evalFirstE; exact ordered_lift _
  | .cons _ e es => by unfold Terms.evalFirstE; exact ordered_bind (ordered_expr e) (fun a => ordered_rest op es a)

theorem ordered_rest (op : BinOp) : (es : Terms F W) → (v : Val F) → Ordered eff (es.evalRestE O eff σ op v)
  | .nil, _ => by unfold Terms.evalRestE; exact ordered_lift _
  | .cons _ e es, v => by
      unfold Terms.evalRestE
      exact ordered_bind (ordered_expr e) (fun a => ordered_bind (ordered_lift _) (fun b => ordered_rest op es b))

theorem ordered_args : (es : Args F W) → Ordered eff (es.evalE O eff σ)
  | .nil => by unfold Args.evalE; exact ordered_lift _
  | .cons e es => by
      unfold Args.evalE
      exact ordered_bind (ordered_expr e) (fun a => ordered_bind (ordered_args es) (fun _ => ordered_lift _))

end

end

/-! ## the loop of an update -/

section

variable (O : FloatOps F) (eff : Func F W → W → List (Val F) → W) (expr : Var → Expr F W) (D : DepMap)

theorem all_nil (σ : State F W) (w : W) : evaluateAllE O eff expr D [] σ w = ⟨some (σ, true), w, []⟩ := rfl

theorem all_throw (k : ℤ) (l : List ℤ) (σ : State F W) (w : W) (hk : k ∈ D.keys)
    (h : ((expr (D.var k)).evalE O eff σ w).result = none) :
    evaluateAllE O eff expr D (k :: l) σ w =
      ⟨some (σ, false), ((expr (D.var k)).evalE O eff σ w).world, ((expr (D.var k)).evalE O eff σ w).calls⟩ := by
  rw [evaluateAllE]
  simp only [if_pos hk, h]

theorem all_step (k : ℤ) (l : List ℤ) (σ : State F W) (w : W) (hk : k ∈ D.keys) (x : Val F)
    (h : ((expr (D.var k)).evalE O eff σ w).result = some x) :
    evaluateAllE O eff expr D (k :: l) σ w =
      ⟨(evaluateAllE O eff expr D l { σ with value := Function.update σ.value (D.var k) x } ((expr (D.var k)).evalE O eff σ w).world).result,
       (evaluateAllE O eff expr D l { σ with value := Function.update σ.value (D.var k) x } ((expr (D.var k)).evalE O eff σ w).world).world,
       ((expr (D.var k)).evalE O eff σ w).calls ++
        (evaluateAllE O eff expr D l { σ with value := Function.update σ.value (D.var k) x } ((expr (D.var k)).evalE O eff σ w).world).calls⟩ := by
  rw [evaluateAllE]
  simp only [if_pos hk, h]

theorem all_null (k : ℤ) (l : List ℤ) (σ : State F W) (w : W) (hk : k ∉ D.keys) :
    evaluateAllE O eff expr D (k :: l) σ w = ⟨none, w, []⟩ := by
  rw [evaluateAllE]
  simp only [if_neg hk]

theorem all_frame : ∀ (l : List ℤ) (σ : State F W) (w : W) (σ' : State F W) (ok : Bool),
    (evaluateAllE O eff expr D l σ w).result = some (σ', ok) →
    σ'.id = σ.id ∧ σ'.fixed = σ.fixed ∧ σ'.ext = σ.ext ∧ (∀ v ∉ l.map D.var, σ'.value v = σ.value v) ∧
      ∃ rest, (l.map D.var).flatMap (fun v => functionsIn (expr v)) = (evaluateAllE O eff expr D l σ w).calls.map Call.f ++ rest ∧
        (ok = true → rest = []) := by
  intro l
  induction l with
  | nil =>
      intro σ w σ' ok h
      rw [all_nil] at h ⊢
      simp only [Option.some.injEq, Prod.mk.injEq] at h
      obtain ⟨rfl, rfl⟩ := h
      exact ⟨rfl, rfl, rfl, fun _ _ => rfl, [], by simp, fun _ => rfl⟩
  | cons k l ih =>
      intro σ w σ' ok h
      by_cases hk : k ∈ D.keys
      · obtain ⟨r, e, hr⟩ := makes_expr O eff σ (expr (D.var k)) w
        cases hx : ((expr (D.var k)).evalE O eff σ w).result with
        | none =>
            rw [all_throw O eff expr D k l σ w hk hx] at h ⊢
            simp only [Option.some.injEq, Prod.mk.injEq] at h
            obtain ⟨rfl, rfl⟩ := h
            refine ⟨rfl, rfl, rfl, fun _ _ => rfl, r ++ (l.map D.var).flatMap (fun v => functionsIn (expr v)), ?_, by simp⟩
            rw [List.map_cons, List.flatMap_cons, e]
            simp
        | some x =>
            rw [all_step O eff expr D k l σ w hk x hx] at h ⊢
            obtain ⟨h1, h2, h3, h4, r', e', hr'⟩ := ih _ _ _ _ h
            have hrn := hr (by rw [hx]; simp)
            subst hrn
            refine ⟨h1, h2, h3, ?_, r', ?_, hr'⟩
            · intro v hv
              simp only [List.map_cons, List.mem_cons, not_or] at hv
              rw [h4 v hv.2]
              exact Function.update_of_ne hv.1 _ _
            · rw [List.map_cons, List.flatMap_cons, e, e']
              simp
      · rw [all_null O eff expr D k l σ w hk] at h
        simp at h

theorem all_ordered : ∀ (l : List ℤ) (σ : State F W), Ordered eff (evaluateAllE O eff expr D l σ) := by
  intro l
  induction l with
  | nil => intro σ; exact ordered_lift _
  | cons k l ih =>
      intro σ w
      by_cases hk : k ∈ D.keys
      · cases hx : ((expr (D.var k)).evalE O eff σ w).result with
        | none =>
            rw [all_throw O eff expr D k l σ w hk hx]
            exact ordered_expr O eff σ (expr (D.var k)) w
        | some x =>
            rw [all_step O eff expr D k l σ w hk x hx]
            exact sequence_append (ordered_expr O eff σ (expr (D.var k)) w) (ih _ _)
      · rw [all_null O eff expr D k l σ w hk]
        exact rfl

theorem update_ordered (n : ℕ) (U : Updater) (σ : State F W) :
    InSequence eff σ.world (U.updateE O eff expr D n σ).calls (U.updateE O eff expr D n σ).world := by
  unfold Updater.updateE
  refine ordered_bind (eff := eff) (ordered_lift _) (fun V => ordered_bind (all_ordered O eff expr D _ _) (fun s w => ?_)) σ.world
  exact rfl

/-- without effects the loop is that of `Updater.update` -/
theorem all_quiet (heff : ∀ f w args, eff f w args = w) : ∀ (l : List ℤ) (σ : State F W),
    (evaluateAllE O eff expr D l σ σ.world).world = σ.world ∧
    (∀ σ', (evaluateAllE O eff expr D l σ σ.world).result = some (σ', true) ↔ evaluateAll O expr D l σ = some σ') ∧
    (∀ σ', (evaluateAllE O eff expr D l σ σ.world).result = some (σ', false) ↔ evaluateThrow O expr D l σ = some σ') ∧
    (∀ σ' ok, (evaluateAllE O eff expr D l σ σ.world).result = some (σ', ok) → σ'.world = σ.world) := by
  intro l
  induction l with
  | nil =>
      intro σ
      rw [all_nil]
      refine ⟨rfl, fun σ' => ?_, fun σ' => ?_, fun σ' ok h => ?_⟩
      · simp [evaluateAll]
      · simp [evaluateThrow]
      · simp only [Option.some.injEq, Prod.mk.injEq] at h
        rw [h.1]
  | cons k l ih =>
      intro σ
      by_cases hk : k ∈ D.keys
      · obtain ⟨q1, q2⟩ := quiet_expr O eff heff σ σ.world rfl (expr (D.var k))
        cases hx : ((expr (D.var k)).evalE O eff σ σ.world).result with
        | none =>
            rw [hx] at q1
            rw [all_throw O eff expr D k l σ _ hk hx]
            refine ⟨q2, fun σ' => ?_, fun σ' => ?_, fun σ' ok h => ?_⟩
            · simp [evaluateAll, hk, evaluateExpression, ← q1]
            · simp [evaluateThrow, hk, evaluateExpression, ← q1]
            · simp only [Option.some.injEq, Prod.mk.injEq] at h
              rw [h.1]
        | some x =>
            rw [hx] at q1
            rw [all_step O eff expr D k l σ _ hk x hx, q2]
            obtain ⟨i1, i2, i3, i4⟩ := ih { σ with value := Function.update σ.value (D.var k) x }
            refine ⟨i1, fun σ' => ?_, fun σ' => ?_, i4⟩
            · rw [i2 σ']
              simp [evaluateAll, hk, evaluateExpression, ← q1]
            · rw [i3 σ']
              simp [evaluateThrow, hk, evaluateExpression, ← q1]
      · rw [all_null O eff expr D k l σ _ hk]
        refine ⟨rfl, fun σ' => ?_, fun σ' => ?_, fun σ' ok h => ?_⟩
        · simp [evaluateAll, hk]
        · simp [evaluateThrow, hk]
        · simp at h

theorem update_quiet (heff : ∀ f w args, eff f w args = w) (n : ℕ) (U U' : Updater) (σ σ' : State F W) :
    ((U.updateE O eff expr D n σ).result = some (U', σ', true) ↔ U.update O expr D n σ = some (U', σ')) ∧
    ((U.updateE O eff expr D n σ).result = some (U', σ', false) ↔ U.updateThrow O expr D n σ = some (U', σ')) := by
  unfold Updater.updateE Updater.update Updater.updateThrow
  generalize hV : (if U.isValid then some U
      else (D.updateList (U.independent.image σ.id) (U.dependent.image σ.id) n).map
        fun l => { U with updateList := l, isValid := true }) = V
  cases V with
  | none =>
      rw [bind_none (by rfl)]
      simp
  | some V =>
      rw [bind_some (a := V) (by rfl)]
      simp only [Run.lift, Option.bind_some]
      obtain ⟨i1, i2, i3, i4⟩ := all_quiet O eff expr D heff V.updateList σ
      cases hr : (evaluateAllE O eff expr D V.updateList σ σ.world).result with
      | none =>
          rw [bind_none hr]
          simp only [hr] at i2 i3
          constructor
          · simp only [reduceCtorEq, Option.map_eq_some_iff, Prod.mk.injEq, false_iff, not_exists, not_and]
            intro a ha
            exact absurd ((i2 a).mpr ha) (by simp)
          · simp only [reduceCtorEq, Option.map_eq_some_iff, Prod.mk.injEq, false_iff, not_exists, not_and]
            intro a ha
            exact absurd ((i3 a).mpr ha) (by simp)
      | some s =>
          obtain ⟨σ₁, ok⟩ := s
          rw [bind_some hr]
          have hw : ({ σ₁ with world := (evaluateAllE O eff expr D V.updateList σ σ.world).world } : State F W) = σ₁ := by
            rw [i1, ← i4 σ₁ ok hr]
          simp only [hw]
          rw [hr] at i2 i3
          cases ok with
          | true =>
              have e : evaluateAll O expr D V.updateList σ = some σ₁ := (i2 σ₁).mp rfl
              have e' : evaluateThrow O expr D V.updateList σ = none := by
                cases h : evaluateThrow O expr D V.updateList σ with
                | none => rfl
                | some a => exact absurd ((i3 a).mpr h) (by simp)
              simp [e, e']
          | false =>
              have e : evaluateThrow O expr D V.updateList σ = some σ₁ := (i3 σ₁).mp rfl
              have e' : evaluateAll O expr D V.updateList σ = none := by
                cases h : evaluateAll O expr D V.updateList σ with
                | none => rfl
                | some a => exact absurd ((i2 a).mpr h) (by simp)
              simp [e, e']

theorem all_current : ∀ (l : List ℤ) (σ : State F W) (w : W) (σ' : State F W),
    (evaluateAllE O eff expr D l σ w).result = some (σ', true) → (l.map D.var).Nodup →
    (∀ L₁ b L₂, l.map D.var = L₁ ++ b :: L₂ → ∀ a ∈ l.map D.var, σ.id a ∈ (expr b).deps σ → a ∈ L₁) →
    ∃ calls : Var → List (Call F W), (evaluateAllE O eff expr D l σ w).calls = (l.map D.var).flatMap calls ∧
      ∀ v ∈ l.map D.var, ∃ u, ((expr v).evalE O eff σ' u).result = some (σ'.value v) ∧ ((expr v).evalE O eff σ' u).calls = calls v := by
  intro l
  induction l with
  | nil => intro σ w σ' _ _ _; exact ⟨fun _ => [], by rw [all_nil]; rfl, by simp⟩
  | cons k l ih =>
      intro σ w σ' h hn ht
      by_cases hk : k ∈ D.keys
      · cases hx : ((expr (D.var k)).evalE O eff σ w).result with
        | none =>
            rw [all_throw O eff expr D k l σ w hk hx] at h
            simp at h
        | some x =>
            rw [all_step O eff expr D k l σ w hk x hx] at h ⊢
            rw [List.map_cons, List.nodup_cons] at hn
            generalize hσ₁ : ({ σ with value := Function.update σ.value (D.var k) x } : State F W) = σ₁ at h ⊢
            have i1 : σ₁.id = σ.id := by rw [← hσ₁]
            have i2 : σ₁.ext = σ.ext := by rw [← hσ₁]
            have i3 : σ₁.value = Function.update σ.value (D.var k) x := by rw [← hσ₁]
            obtain ⟨f1, f2, f3, f4, -⟩ := all_frame O eff expr D l σ₁ _ σ' true h
            obtain ⟨calls, e, hc⟩ := ih σ₁ _ σ' h hn.2 (by
              intro L₁ b L₂ hL a ha hab
              rw [i1, Dep.deps_congr σ σ₁ i1] at hab
              have := ht (D.var k :: L₁) b L₂ (by rw [List.map_cons, hL]; rfl) a (by rw [List.map_cons]; exact List.mem_cons_of_mem _ ha) hab
              rcases List.mem_cons.mp this with rfl | h
              · exact absurd ha hn.1
              · exact h)
            refine ⟨Function.update calls (D.var k) ((expr (D.var k)).evalE O eff σ w).calls, ?_, ?_⟩
            · rw [List.map_cons, List.flatMap_cons, Function.update_self]
              simp only
              rw [e]
              congr 1
              refine List.flatMap_congr (fun v hv => ?_)
              rw [Function.update_of_ne]
              rintro rfl
              exact hn.1 hv
            · intro v hv
              rw [List.map_cons] at hv
              rcases List.mem_cons.mp hv with rfl | hv
              · have hcg : (expr (D.var k)).evalE O eff σ' = (expr (D.var k)).evalE O eff σ := by
                  refine expr_congr O eff σ σ' (expr (D.var k)) (fun u hu => ?_) (fun y _ => by rw [f3, i2])
                  have huk : u ∉ (k :: l).map D.var := by
                    intro hm
                    have := ht [] (D.var k) (l.map D.var) rfl u hm hu
                    simp at this
                  simp only [List.map_cons, List.mem_cons, not_or] at huk
                  rw [f4 u huk.2, i3, Function.update_of_ne huk.1]
                refine ⟨w, ?_, ?_⟩
                · rw [hcg, hx, f4 _ hn.1, i3, Function.update_self]
                · rw [hcg, Function.update_self]
              · obtain ⟨u, hu1, hu2⟩ := hc v hv
                refine ⟨u, hu1, ?_⟩
                rw [hu2, Function.update_of_ne]
                rintro rfl
                exact hn.1 hv
      · rw [all_null O eff expr D k l σ w hk] at h
        simp at h

end

/-! ## functions to be updated always -/

section

variable (σ : State F W) (f : Func F W) (hf : f.updateAlways = true)
include hf

mutual

theorem always_expr : (e : Expr F W) → f ∈ functionsIn e → -1 ∈ e.deps σ
  | .value _ => by unfold functionsIn; simp
  | .ref _ _ => by unfold functionsIn; simp
  | .ext _ _ => by unfold functionsIn; simp
  | .unary _ e => by unfold functionsIn Expr.deps; exact always_expr e
  | .binary _ es => by unfold functionsIn Expr.deps; exact always_terms es
  | .cast _ e => by unfold functionsIn Expr.deps; exact always_expr e
  | .call g args => by
      unfold functionsIn Expr.deps
      intro h
      rcases List.mem_append.mp h with h | h
      · exact List.mem_append_left _ (always_args args h)
      · rw [List.mem_singleton.mp h] at hf
        rw [hf]
        simp

theorem always_terms : (es : Terms F W) → f ∈ functionsInTerms es → -1 ∈ es.deps σ
  | .nil => by unfold functionsInTerms; simp
  | .cons _ e es => by
      unfold functionsInTerms Terms.deps
      intro h
      rcases List.mem_append.mp h with h | h
      · exact List.mem_append_left _ (always_expr e h)
      · exact List.mem_append_right _ (always_terms es h)

theorem always_args : (es : Args F W) → f ∈ functionsInArgs es → -1 ∈ es.deps σ
  | .nil => by unfold functionsInArgs; simp
  | .cons e es => by
      unfold functionsInArgs Args.deps
      intro h
      rcases List.mem_append.mp h with h | h
      · exact List.mem_append_left _ (always_expr e h)
      · exact List.mem_append_right _ (always_args es h)

end

end

/-! ## the invariant -/

structure Inv (expr : Var → Expr F W) (D : DepMap) (dummy : Var) (t : Tree) (U : Updater) (σ : State F W) : Prop where
  created : DepMap.create σ expr dummy t = some D
  ids : GoodIds σ
  dummyExpr : ∃ x, expr dummy = .ext .int x
  indepNode : ∀ i ∈ U.independent, Node σ dummy t i
  dummyIndep : dummy ∈ U.independent
  depNode : ∀ d ∈ U.dependent, Node σ dummy t d
  valid : U.isValid = true → ∃ n, D.updateList (U.independent.image σ.id) (U.dependent.image σ.id) n = some U.updateList
  separate : ∀ p ∈ U.params, Separate σ expr dummy t p

section

variable {O : FloatOps F} {eff : Func F W → W → List (Val F) → W} {expr : Var → Expr F W} {D : DepMap} {dummy : Var} {t : Tree}

theorem Inv.frame {U : Updater} {σ σ' : State F W} (h : Inv expr D dummy t U σ) (hid : σ'.id = σ.id) (hf : σ'.fixed = σ.fixed) :
    Inv expr D dummy t U σ' where
  created := by rw [Dep.create_congr hid hf]; exact h.created
  ids := ⟨by rw [hid]; exact h.ids.inj, by rw [hid]; exact h.ids.nonneg⟩
  dummyExpr := h.dummyExpr
  indepNode := by rw [Dep.node_congr dummy t hf]; exact h.indepNode
  dummyIndep := h.dummyIndep
  depNode := by rw [Dep.node_congr dummy t hf]; exact h.depNode
  valid := by rw [hid]; exact h.valid
  separate := by simp only [Separate, Dep.node_congr dummy t hf]; exact h.separate

theorem update_eq {U U' : Updater} {σ σ' : State F W} {n : ℕ} {ok : Bool}
    (h : (U.updateE O eff expr D n σ).result = some (U', σ', ok)) :
    (if U.isValid then some U
      else (D.updateList (U.independent.image σ.id) (U.dependent.image σ.id) n).map
        fun l => { U with updateList := l, isValid := true }) = some U' ∧
    ∃ σ₁, (evaluateAllE O eff expr D U'.updateList σ σ.world).result = some (σ₁, ok) ∧
      (U.updateE O eff expr D n σ).calls = (evaluateAllE O eff expr D U'.updateList σ σ.world).calls ∧
      (U.updateE O eff expr D n σ).world = (evaluateAllE O eff expr D U'.updateList σ σ.world).world ∧
      σ' = if ok then U'.params.foldl Param.update { σ₁ with world := (evaluateAllE O eff expr D U'.updateList σ σ.world).world }
        else { σ₁ with world := (evaluateAllE O eff expr D U'.updateList σ σ.world).world } := by
  unfold Updater.updateE at h ⊢
  generalize hV : (if U.isValid then some U
      else (D.updateList (U.independent.image σ.id) (U.dependent.image σ.id) n).map
        fun l => { U with updateList := l, isValid := true }) = V at h ⊢
  cases V with
  | none =>
      rw [bind_none (by rfl)] at h
      simp at h
  | some V =>
      rw [bind_some (a := V) (by rfl)] at h ⊢
      simp only [Run.lift] at h ⊢
      cases hr : (evaluateAllE O eff expr D V.updateList σ σ.world).result with
      | none =>
          rw [bind_none hr] at h
          simp at h
      | some s =>
          rw [bind_some hr] at h ⊢
          obtain ⟨σ₁, ok'⟩ := s
          simp only [Option.some.injEq, Prod.mk.injEq] at h
          obtain ⟨rfl, h2, rfl⟩ := h
          exact ⟨rfl, σ₁, hr, by simp, rfl, h2.symm⟩

theorem Inv.update {U U' : Updater} {σ σ' : State F W} {n : ℕ} {ok : Bool} (h : Inv expr D dummy t U σ)
    (hu : (U.updateE O eff expr D n σ).result = some (U', σ', ok)) :
    Inv expr D dummy t U' σ' ∧ U'.independent = U.independent ∧ U'.dependent = U.dependent ∧ U'.params = U.params ∧
      σ'.id = σ.id ∧ σ'.fixed = σ.fixed ∧ σ'.world = (U.updateE O eff expr D n σ).world ∧
      ∃ vs : List Var, vs.Nodup ∧ (∀ v, v ∈ vs ↔ Relevant σ expr dummy t U.independent U.dependent v) ∧
        (∀ v ∉ vs, σ'.value v = σ.value v) ∧
        (∃ rest, vs.flatMap (fun v => functionsIn (expr v)) = (U.updateE O eff expr D n σ).calls.map Call.f ++ rest ∧ (ok = true → rest = [])) ∧
        (ok = true → ∃ calls : Var → List (Call F W), (U.updateE O eff expr D n σ).calls = vs.flatMap calls ∧
          ∀ v ∈ vs, ∃ u, ((expr v).evalE O eff σ' u).result = some (σ'.value v) ∧ ((expr v).evalE O eff σ' u).calls = calls v) := by
  obtain ⟨hV, σ₁, hr, hcalls, hworld, hσ'⟩ := update_eq hu
  have hVs : U'.independent = U.independent ∧ U'.dependent = U.dependent ∧ U'.params = U.params ∧ U'.isValid = true ∧
      ∃ n, D.updateList (U.independent.image σ.id) (U.dependent.image σ.id) n = some U'.updateList := by
    split_ifs at hV with hv
    · simp only [Option.some.injEq] at hV
      subst hV
      exact ⟨rfl, rfl, rfl, hv, h.valid hv⟩
    · simp only [Option.map_eq_some_iff] at hV
      obtain ⟨l, hl, rfl⟩ := hV
      exact ⟨rfl, rfl, rfl, rfl, n, hl⟩
  obtain ⟨hi, hd, hp, hvalid, m, hm⟩ := hVs
  have hC := Dep.created σ expr dummy t D h.ids h.created
  obtain ⟨N, hN, -⟩ := Dep.updateList_var h.ids hC U.independent U.dependent h.indepNode h.depNode
  obtain ⟨l1, l2, l3, -⟩ := hN (max N m) (le_max_left _ _) U'.updateList (Dep.updateList_mono D _ _ m _ _ hm (le_max_right _ _))
  have hrelNode : ∀ v, Relevant σ expr dummy t U.independent U.dependent v → Node σ dummy t v := by
    rintro v ⟨⟨i, hi, hiv⟩, _⟩
    rcases ReflTransGen.cases_tail hiv with rfl | ⟨y, _, hy⟩
    · exact h.indepNode _ hi
    · exact .inr hy.2.1
  obtain ⟨f1, f2, f3, f4, f5⟩ := all_frame O eff expr D _ σ _ σ₁ ok hr
  generalize hw : (evaluateAllE O eff expr D U'.updateList σ σ.world).world = w₁ at hσ' hworld
  obtain ⟨p1, p2, p3, p4, p5⟩ := Dep.params_update U'.params { σ₁ with world := w₁ }
  have g : σ'.value = σ₁.value ∧ σ'.id = σ₁.id ∧ σ'.fixed = σ₁.fixed ∧ σ'.world = w₁ ∧
      ∀ x, (∀ p ∈ U'.params, p.target ≠ x) → σ'.ext x = σ₁.ext x := by
    rw [hσ']
    split_ifs
    · exact ⟨p1, p2, p3, p4, p5⟩
    · exact ⟨rfl, rfl, rfl, rfl, fun _ _ => rfl⟩
  obtain ⟨g1, g2, g3, g4, g5⟩ := g
  have hid : σ'.id = σ.id := g2.trans f1
  have hf : σ'.fixed = σ.fixed := g3.trans f2
  refine ⟨?_, hi, hd, hp, hid, hf, ?_, U'.updateList.map D.var, l1, l2, ?_, ?_, ?_⟩
  · refine Inv.frame (σ := σ) ?_ hid hf
    refine ⟨h.created, h.ids, h.dummyExpr, ?_, ?_, ?_, ?_, ?_⟩
    · rw [hi]; exact h.indepNode
    · rw [hi]; exact h.dummyIndep
    · rw [hd]; exact h.depNode
    · intro _; rw [hi, hd]; exact ⟨m, hm⟩
    · rw [hp]; exact h.separate
  · rw [g4, hworld]
  · intro v hv
    rw [g1]; exact f4 v hv
  · rw [hcalls]; exact f5
  · rintro rfl
    obtain ⟨calls, e, hc⟩ := all_current O eff expr D _ σ _ σ₁ hr l1 (by
      intro L₁ b L₂ hL a ha hab
      have hra := (l2 a).mp ha
      have hrb := (l2 b).mp (by rw [hL]; simp)
      exact l3 L₁ b L₂ hL a (Dep.uses_edge h.dummyExpr (hrelNode a hra) (hrelNode b hrb) (.inl hab)) hra)
    refine ⟨calls, by rw [hcalls, e], fun v hv => ?_⟩
    obtain ⟨u, u1, u2⟩ := hc v hv
    have hcg : (expr v).evalE O eff σ' = (expr v).evalE O eff σ₁ := by
      refine expr_congr O eff σ₁ σ' (expr v) (fun u _ => by rw [g1]) (fun x hx => g5 x ?_)
      rintro p hpm rfl
      rw [hp] at hpm
      exact h.separate p hpm v (hrelNode v ((l2 v).mp hv)) hx
    exact ⟨u, by rw [hcg, u1, g1], by rw [hcg, u2]⟩

theorem history_inv {U : Updater} {σ : State F W} (h : HistoryE O eff expr D dummy t U σ) : Inv expr D dummy t U σ := by
  induction h with
  | create σ h1 h2 h3 =>
      refine ⟨h1, h2, h3, ?_, ?_, ?_, ?_, ?_⟩
      · intro i hi; simp only [Updater.create, Finset.mem_singleton] at hi; exact .inl hi
      · simp [Updater.create]
      · simp [Updater.create]
      · intro _
        refine ⟨1, ?_⟩
        simp [Updater.create, DepMap.updateList, DepMap.predecessors, DepMap.followers, search, DepMap.updateOrder, orderLoop]
      · simp [Updater.create]
  | independent p _ hn hU ih =>
      simp only [Updater.addIndependent] at hU
      split_ifs at hU
      simp only [Option.some.injEq] at hU
      subst hU
      refine ⟨ih.created, ih.ids, ih.dummyExpr, ?_, ?_, ih.depNode, ?_, ih.separate⟩
      · intro i hi
        rcases Finset.mem_insert.mp hi with rfl | hi
        · exact hn
        · exact ih.indepNode i hi
      · exact Finset.mem_insert_of_mem ih.dummyIndep
      · simp
  | @dependent U σ p _ hv hs ih =>
      unfold Updater.addDependent
      by_cases hfx : σ.fixed p.var = true
      · rw [if_pos hfx]
        obtain ⟨_, p2, p3, _, _⟩ := Dep.params_update [p] σ
        exact ih.frame p2 p3
      · rw [if_neg hfx]
        refine ⟨ih.created, ih.ids, ih.dummyExpr, ih.indepNode, ih.dummyIndep, ?_, ?_, ?_⟩
        · intro d hd
          rcases Finset.mem_insert.mp hd with rfl | hd
          · exact .inr ⟨hv, by simpa using hfx⟩
          · exact ih.depNode d hd
        · simp
        · intro q hq
          simp only at hq
          split_ifs at hq
          · exact ih.separate q hq
          · rcases List.mem_append.mp hq with hq | hq
            · exact ih.separate q hq
            · rw [List.mem_singleton.mp hq]; exact hs
  | clear _ ih =>
      exact ⟨ih.created, ih.ids, ih.dummyExpr, ih.indepNode, ih.dummyIndep, by simp [Updater.clearDependent],
        by simp [Updater.clearDependent], by simp [Updater.clearDependent]⟩
  | change _ h1 h2 ih => exact ih.frame h1 h2
  | update n ok _ hu ih => exact (ih.update hu).1

end

end Schnek.Lemma.Calls
