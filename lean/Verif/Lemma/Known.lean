import Verif.Lemma.Unambiguous

namespace Schnek.Lemma.Deck

open Schnek.Deck Schnek.Deck.Grammar Schnek.Spec

variable {F W : Type}

/-! ## which expressions are accepted -/

theorem bind_map_isSome {α β γ : Type} (x : Option α) (y : Option β) (f : α → β → γ) :
    (x.bind fun a => y.map (f a)).isSome ↔ x.isSome ∧ y.isSome := by
  cases x <;> cases y <;> simp

theorem knownList_append (env : Env F W) (l l' : List (Ast F)) :
    KnownList env (l ++ l') ↔ KnownList env l ∧ KnownList env l' := by
  induction l with
  | nil => simp [KnownList]
  | cons a l ih => simp [KnownList, ih, and_assoc]

theorem exprList_length (env : Env F W) : (d : Grammar.ExprList F) → ∀ chain, d.build env = some chain →
    chain.length = (ExprList.read d).length
  | .snoc a b => fun chain h => by
      simp only [ExprList.build, Option.bind_eq_some_iff, Option.map_eq_some_iff] at h
      obtain ⟨l, hl, y, hy, rfl⟩ := h
      simp [ExprList.read, exprList_length env a l hl]
  | .one a => fun chain h => by
      simp only [ExprList.build, Option.map_eq_some_iff] at h
      obtain ⟨y, hy, rfl⟩ := h
      simp [ExprList.read]

theorem getExpression_isSome (env : Env F W) (n : String) (es : List (Expr F W)) :
    (getExpression env.func n es).isSome ↔ ∃ f, env.func n = some f ∧ f.params.length = es.length := by
  unfold getExpression
  cases h : env.func n with
  | none => simp
  | some f => simp [makeList_isSome]

section

variable (env : Env F W)

mutual

theorem expression_known : (d : Grammar.Expression F) → ((d.build env).isSome ↔ (Expression.read d).Known env)
  | .add a b => by
      rw [Expression.build, bind_map_isSome, signedTerm_known a]
      exact unsigned_known b _ .add
  | .sub a b => by
      rw [Expression.build, bind_map_isSome, signedTerm_known a]
      exact unsigned_known b _ .sub
  | .one a => signedTerm_known a

theorem unsigned_known : (d : Grammar.Unsigned F) → ∀ acc op,
    ((acc.Known env ∧ (d.build env).isSome) ↔ (Unsigned.readRest d acc op).Known env)
  | .add a b => fun acc op => by
      rw [Unsigned.build, bind_map_isSome, term_known a, Unsigned.readRest, ← unsigned_known b, Ast.Known, and_assoc]
  | .sub a b => fun acc op => by
      rw [Unsigned.build, bind_map_isSome, term_known a, Unsigned.readRest, ← unsigned_known b, Ast.Known, and_assoc]
  | .one a => fun acc op => by
      rw [Unsigned.build, term_known a, Unsigned.readRest, Ast.Known]

theorem signedTerm_known : (d : Grammar.SignedTerm F) → ((d.build env).isSome ↔ (SignedTerm.read d).Known env)
  | .plus a => term_known a
  | .minus a => by
      rw [SignedTerm.build, Option.isSome_map]
      exact term_known a
  | .one a => term_known a

theorem term_known : (d : Grammar.Term F) → ((d.build env).isSome ↔ (Term.read d).Known env)
  | .mul a b => by
      rw [Term.build, bind_map_isSome, power_known a]
      exact term_knownRest b _ .mul
  | .div a b => by
      rw [Term.build, bind_map_isSome, power_known a]
      exact term_knownRest b _ .div
  | .one a => power_known a

theorem term_knownRest : (d : Grammar.Term F) → ∀ acc op,
    ((acc.Known env ∧ (d.build env).isSome) ↔ (Term.readRest d acc op).Known env)
  | .mul a b => fun acc op => by
      rw [Term.build, bind_map_isSome, power_known a, Term.readRest, ← term_knownRest b, Ast.Known, and_assoc]
  | .div a b => fun acc op => by
      rw [Term.build, bind_map_isSome, power_known a, Term.readRest, ← term_knownRest b, Ast.Known, and_assoc]
  | .one a => fun acc op => by
      rw [Term.build, power_known a, Term.readRest, Ast.Known]

theorem power_known : (d : Grammar.Power F) → ((d.build env).isSome ↔ (Power.read d).Known env)
  | .pow a b => by
      rw [Power.build, bind_map_isSome, atomic_known a, signedAtomic_known b, Power.read, Ast.Known]
  | .one a => atomic_known a

theorem signedAtomic_known : (d : Grammar.SignedAtomic F) → ((d.build env).isSome ↔ (SignedAtomic.read d).Known env)
  | .plus a => atomic_known a
  | .minus a => by
      rw [SignedAtomic.build, Option.isSome_map]
      exact atomic_known a
  | .one a => atomic_known a

theorem atomic_known : (d : Grammar.Atomic F) → ((d.build env).isSome ↔ (Atomic.read d).Known env)
  | .paren a => by
      rw [Atomic.build, Option.isSome_map]
      exact expression_known a
  | .call n args => by
      rw [Atomic.build, Atomic.read, Ast.Known, ← exprList_known args]
      cases h : args.build env with
      | none => simp
      | some chain =>
          rw [Option.bind_some, getExpression_isSome, assignFunctionArgs_eq]
          simp [exprList_length env args chain h]
  | .callNone n => by
      rw [Atomic.build, getExpression_isSome, Atomic.read, Ast.Known]
      simp [KnownList]
  | .lit v => by simp [Atomic.build, Atomic.read, Ast.Known]
  | .ident n => by simp [Atomic.build, Atomic.read, Ast.Known]

theorem exprList_known : (d : Grammar.ExprList F) → ((d.build env).isSome ↔ KnownList env (ExprList.read d))
  | .snoc a b => by
      rw [ExprList.build, bind_map_isSome, exprList_known a, expression_known b, ExprList.read, knownList_append]
      simp [KnownList]
  | .one a => by
      rw [ExprList.build, Option.isSome_map, expression_known a]
      simp [ExprList.read, KnownList]

end

end

/-! ## expressions of one type -/

mutual

theorem allOf_ty (env : Env F W) (t : Ty) : (a : Ast F) → a.AllOf env t → a.ty env = t ∧ a.Uniform env
  | .lit v => fun h => ⟨h, trivial⟩
  | .var n => fun h => by
      obtain ⟨v, hv⟩ := h
      exact ⟨by simp [Ast.ty, hv], trivial⟩
  | .paren a => fun h => allOf_ty env t a h
  | .neg a => fun h => allOf_ty env t a h
  | .bin op a b => fun h => by
      obtain ⟨ha, ha'⟩ := allOf_ty env t a h.1
      obtain ⟨hb, hb'⟩ := allOf_ty env t b h.2
      exact ⟨by rw [Ast.ty, ha, hb, wider_self], ha', hb', fun _ => by rw [ha, hb]⟩
  | .call n args => fun h => by
      obtain ⟨⟨f, hf, hr⟩, h2⟩ := h
      exact ⟨by simp [Ast.ty, hf, hr], allOfList_uniform env args h2⟩

theorem allOfList_uniform (env : Env F W) : (as : List (Ast F)) → AllOfList env as → UniformList env as
  | [] => fun _ => trivial
  | a :: as => fun h => by
      obtain ⟨⟨t, ht⟩, h2⟩ := h
      exact ⟨(allOf_ty env t a ht).2, allOfList_uniform env as h2⟩

end

/-! ## the value has the type of the object -/

theorem evalRest_ty (O : FloatOps F) (σ : State F W) (op : BinOp) : (ts : Terms F W) → ∀ v w,
    ts.evalRest O σ op v = some w → w.ty = v.ty
  | .nil => fun v w h => by
      simp only [Terms.evalRest, Option.some.injEq] at h
      rw [h]
  | .cons p e ts => fun v w h => by
      simp only [Terms.evalRest, Option.bind_eq_some_iff] at h
      obtain ⟨x, _, y, hy, h⟩ := h
      rw [evalRest_ty O σ op ts y w h, (binOp_ty O _ _ _ _ hy).1]

theorem eval_ty (O : FloatOps F) (σ : State F W) : (e : Expr F W) → ∀ v, e.eval O σ = some v → v.ty = e.ty
  | .value w => fun v h => by
      simp only [Expr.eval, Option.some.injEq] at h
      rw [← h, Expr.ty]
  | .ref t x => fun v h => by
      simp only [Expr.eval] at h
      split_ifs at h with ht
      simp only [Option.some.injEq] at h
      rw [← h, ht, Expr.ty]
  | .ext t x => fun v h => by
      simp only [Expr.eval] at h
      split_ifs at h with ht
      simp only [Option.some.injEq] at h
      rw [← h, ht, Expr.ty]
  | .unary op e => fun v h => by
      simp only [Expr.eval, Option.bind_eq_some_iff] at h
      obtain ⟨x, hx, h⟩ := h
      rw [unOp_ty O _ _ _ h, eval_ty O σ e x hx, Expr.ty]
  | .binary op .nil => fun v h => by simp [Expr.eval, Terms.evalFirst] at h
  | .binary op (.cons p e ts) => fun v h => by
      simp only [Expr.eval, Terms.evalFirst, Option.bind_eq_some_iff] at h
      obtain ⟨x, hx, h⟩ := h
      rw [evalRest_ty O σ op ts x v h, eval_ty O σ e x hx, Expr.ty, Terms.ty]
  | .cast t e => fun v h => by
      simp only [Expr.eval, Option.bind_eq_some_iff] at h
      obtain ⟨x, hx, h⟩ := h
      rw [convert_ty O _ _ _ h, Expr.ty]
  | .call f args => fun v h => by
      simp only [Expr.eval, Option.bind_eq_some_iff] at h
      obtain ⟨x, hx, h⟩ := h
      rw [f.typed _ _ _ h, Expr.ty]

theorem convertArg_eval' (O : FloatOps F) (σ : State F W) (t : Ty) (e : Expr F W) :
    (convertArg t e).eval O σ = (e.eval O σ).bind (convert O t) := by
  unfold convertArg
  split_ifs with ht
  · cases hv : e.eval O σ with
    | none => rfl
    | some v =>
        have := eval_ty O σ e v hv
        subst ht
        rw [← this, Option.bind_some, convert_self]
  · rfl

theorem makeList_eval' (O : FloatOps F) (σ : State F W) (ts : List Ty) (es : List (Expr F W)) (args : Args F W)
    (hm : makeList ts es = some args) :
    args.eval O σ = (es.mapM (fun e : Expr F W => e.eval O σ)).bind (convertArgs O ts) := by
  induction ts generalizing es args with
  | nil => cases es with
    | nil =>
        simp only [makeList, Option.some.injEq] at hm
        subst hm
        simp [Args.eval, convertArgs, toType_eq]
    | cons _ _ => simp [makeList] at hm
  | cons t ts ih => cases es with
    | nil => simp [makeList] at hm
    | cons e es =>
        simp only [makeList, Option.map_eq_some_iff] at hm
        obtain ⟨args', hm', rfl⟩ := hm
        simp only [Args.eval, convertArg_eval', ih es args' hm', List.mapM_cons]
        cases hv : e.eval O σ with
        | none => rfl
        | some v =>
            cases hw : es.mapM (fun e : Expr F W => e.eval O σ) with
            | none => simp
            | some vs => simp [convertArgs, toType_eq]

/-! ## constants and dependencies -/

set_option linter.unusedSectionVars false

section

variable (O : FloatOps F) (σ σ' : State F W) (h : ∀ v, σ.fixed v = true → σ'.value v = σ.value v)
include h

mutual

theorem expr_constant : (e : Expr F W) → e.isConstant σ = true → e.eval O σ' = e.eval O σ
  | .value _ => fun _ => rfl
  | .ref t v => fun hc => by
      simp only [Expr.isConstant] at hc
      simp only [Expr.eval, h v hc]
  | .ext _ _ => fun hc => by simp [Expr.isConstant] at hc
  | .unary op e => fun hc => by simp only [Expr.eval, expr_constant e hc]
  | .binary op .nil => fun _ => rfl
  | .binary op (.cons p e ts) => fun hc => by
      simp only [Expr.isConstant, Terms.isConstant, Bool.and_eq_true] at hc
      simp only [Expr.eval, Terms.evalFirst, expr_constant e hc.1, terms_constant op ts hc.2]
  | .cast t e => fun hc => by simp only [Expr.eval, expr_constant e hc]
  | .call f args => fun hc => by
      simp only [Expr.isConstant, Bool.and_eq_true, Bool.not_eq_true'] at hc
      simp only [Expr.eval, args_constant args hc.2]
      congr 1
      funext vs
      exact f.pure hc.1 _ _ vs

theorem terms_constant (op : BinOp) : (ts : Terms F W) → ts.isConstant σ = true →
    ∀ v, ts.evalRest O σ' op v = ts.evalRest O σ op v
  | .nil => fun _ _ => rfl
  | .cons p e ts => fun hc v => by
      simp only [Terms.isConstant, Bool.and_eq_true] at hc
      simp only [Terms.evalRest, expr_constant e hc.1, terms_constant op ts hc.2]

theorem args_constant : (as : Args F W) → as.isConstant σ = true → as.eval O σ' = as.eval O σ
  | .nil => fun _ => rfl
  | .cons e es => fun hc => by
      simp only [Args.isConstant, Bool.and_eq_true] at hc
      simp only [Args.eval, expr_constant e hc.1, args_constant es hc.2]

end

end

section

variable (O : FloatOps F) (σ σ' : State F W)

mutual

theorem expr_deps : (e : Expr F W) → (∀ v, σ.id v ∈ e.deps σ → σ'.value v = σ.value v) →
    (-1 ∈ e.deps σ → σ'.world = σ.world) → (∀ x ∈ externals e, σ'.ext x = σ.ext x) → e.eval O σ' = e.eval O σ
  | .value _ => fun _ _ _ => rfl
  | .ref t v => fun hv _ _ => by
      simp only [Expr.deps, List.mem_singleton] at hv
      simp only [Expr.eval, hv v rfl]
  | .ext _ x => fun _ _ hx => by simp only [Expr.eval, hx x (by simp [externals])]
  | .unary op e => fun hv hw hx => by simp only [Expr.eval, expr_deps e hv hw hx]
  | .binary op .nil => fun _ _ _ => rfl
  | .binary op (.cons p e ts) => fun hv hw hx => by
      simp only [Expr.deps, Terms.deps, List.mem_append] at hv hw
      simp only [externals, externalsTerms, List.mem_append] at hx
      simp only [Expr.eval, Terms.evalFirst,
        expr_deps e (fun v h => hv v (.inl h)) (fun h => hw (.inl h)) (fun x h => hx x (.inl h)),
        terms_deps op ts (fun v h => hv v (.inr h)) (fun h => hw (.inr h)) (fun x h => hx x (.inr h))]
  | .cast t e => fun hv hw hx => by simp only [Expr.eval, expr_deps e hv hw hx]
  | .call f args => fun hv hw hx => by
      simp only [Expr.deps, List.mem_append] at hv hw
      simp only [externals] at hx
      simp only [Expr.eval, args_deps args (fun v h => hv v (.inl h)) (fun h => hw (.inl h)) hx]
      congr 1
      funext vs
      cases hf : f.updateAlways with
      | false => exact f.pure hf _ _ vs
      | true =>
          rw [hw (.inr (by simp [hf]))]

theorem terms_deps (op : BinOp) : (ts : Terms F W) → (∀ v, σ.id v ∈ ts.deps σ → σ'.value v = σ.value v) →
    (-1 ∈ ts.deps σ → σ'.world = σ.world) → (∀ x ∈ externalsTerms ts, σ'.ext x = σ.ext x) →
    ∀ v, ts.evalRest O σ' op v = ts.evalRest O σ op v
  | .nil => fun _ _ _ _ => rfl
  | .cons p e ts => fun hv hw hx v => by
      simp only [Terms.deps, List.mem_append] at hv hw
      simp only [externalsTerms, List.mem_append] at hx
      simp only [Terms.evalRest,
        expr_deps e (fun v h => hv v (.inl h)) (fun h => hw (.inl h)) (fun x h => hx x (.inl h)),
        terms_deps op ts (fun v h => hv v (.inr h)) (fun h => hw (.inr h)) (fun x h => hx x (.inr h))]

theorem args_deps : (as : Args F W) → (∀ v, σ.id v ∈ as.deps σ → σ'.value v = σ.value v) →
    (-1 ∈ as.deps σ → σ'.world = σ.world) → (∀ x ∈ externalsArgs as, σ'.ext x = σ.ext x) →
    as.eval O σ' = as.eval O σ
  | .nil => fun _ _ _ => rfl
  | .cons e es => fun hv hw hx => by
      simp only [Args.deps, List.mem_append] at hv hw
      simp only [externalsArgs, List.mem_append] at hx
      simp only [Args.eval,
        expr_deps e (fun v h => hv v (.inl h)) (fun h => hw (.inl h)) (fun x h => hx x (.inl h)),
        args_deps es (fun v h => hv v (.inr h)) (fun h => hw (.inr h)) (fun x h => hx x (.inr h))]

end

end

section

variable (σ : State F W)

mutual

theorem expr_deps_mem : (e : Expr F W) → ∀ j ∈ e.deps σ, j = -1 ∨ ∃ v, j = σ.id v
  | .value _ => fun j h => by simp [Expr.deps] at h
  | .ref t v => fun j h => by
      simp only [Expr.deps, List.mem_singleton] at h
      exact .inr ⟨v, h⟩
  | .ext _ _ => fun j h => by simp [Expr.deps] at h
  | .unary _ e => fun j h => expr_deps_mem e j h
  | .binary _ es => fun j h => terms_deps_mem es j h
  | .cast _ e => fun j h => expr_deps_mem e j h
  | .call f args => fun j h => by
      simp only [Expr.deps, List.mem_append] at h
      rcases h with h | h
      · exact args_deps_mem args j h
      · split_ifs at h
        · exact .inl (by simpa using h)
        · simp at h

theorem terms_deps_mem : (ts : Terms F W) → ∀ j ∈ ts.deps σ, j = -1 ∨ ∃ v, j = σ.id v
  | .nil => fun j h => by simp [Terms.deps] at h
  | .cons _ e ts => fun j h => by
      simp only [Terms.deps, List.mem_append] at h
      exact h.elim (expr_deps_mem e j) (terms_deps_mem ts j)

theorem args_deps_mem : (ts : Args F W) → ∀ j ∈ ts.deps σ, j = -1 ∨ ∃ v, j = σ.id v
  | .nil => fun j h => by simp [Args.deps] at h
  | .cons e ts => fun j h => by
      simp only [Args.deps, List.mem_append] at h
      exact h.elim (expr_deps_mem e j) (args_deps_mem ts j)

end

end

theorem build_arguments (env : Env F W) : (d : Grammar.ExprList F) → ∀ es,
    (argumentsOf d).mapM (fun e => e.build env) = some es → d.build env = some es.reverse
  | .snoc a b => fun es h => by
      rw [argumentsOf, List.mapM_append] at h
      simp only [Option.bind_eq_bind, Option.bind_eq_some_iff, List.mapM_cons, List.mapM_nil, Option.pure_def, Option.bind_some,
        Option.some.injEq] at h
      obtain ⟨l, hl, _, ⟨y, hy, rfl⟩, rfl⟩ := h
      rw [ExprList.build, build_arguments env a l hl, hy]
      simp
  | .one a => fun es h => by
      simp only [argumentsOf, List.mapM_cons, List.mapM_nil, Option.bind_eq_bind, Option.bind_eq_some_iff, Option.pure_def,
        Option.bind_some, Option.some.injEq] at h
      obtain ⟨y, hy, rfl⟩ := h
      simp [ExprList.build, hy]

end Schnek.Lemma.Deck
