import Verif.Lemma.DeckFinish

namespace Schnek.Lemma.Deck

open Schnek.Deck Schnek.Deck.Grammar Schnek.Spec Relation DeckState

variable {F W : Type}

/-- the variables are all in `Q` and there is no external value -/
def Built (Q : ℕ → Prop) (e : Expr F W) : Prop := (∀ u ∈ mentioned e, Q u) ∧ externals e = []

def BuiltTerms (Q : ℕ → Prop) (es : Terms F W) : Prop := (∀ u ∈ mentionedTerms es, Q u) ∧ externalsTerms es = []

def BuiltArgs (Q : ℕ → Prop) (es : Args F W) : Prop := (∀ u ∈ mentionedArgs es, Q u) ∧ externalsArgs es = []

variable {Q : ℕ → Prop}

theorem builtTerms_cons (p : Bool) (e : Expr F W) (es : Terms F W) :
    BuiltTerms Q (.cons p e es) ↔ Built Q e ∧ BuiltTerms Q es := by
  unfold BuiltTerms Built
  simp only [mentionedTerms, externalsTerms, List.mem_append, List.append_eq_nil_iff]
  constructor
  · rintro ⟨h1, h2, h3⟩
    exact ⟨⟨fun u hu => h1 u (Or.inl hu), h2⟩, fun u hu => h1 u (Or.inr hu), h3⟩
  · rintro ⟨⟨h1, h2⟩, h3, h4⟩
    exact ⟨fun u hu => hu.elim (h1 u) (h3 u), h2, h4⟩

theorem builtArgs_cons (e : Expr F W) (es : Args F W) : BuiltArgs Q (.cons e es) ↔ Built Q e ∧ BuiltArgs Q es := by
  unfold BuiltArgs Built
  simp only [mentionedArgs, externalsArgs, List.mem_append, List.append_eq_nil_iff]
  constructor
  · rintro ⟨h1, h2, h3⟩
    exact ⟨⟨fun u hu => h1 u (Or.inl hu), h2⟩, fun u hu => h1 u (Or.inr hu), h3⟩
  · rintro ⟨⟨h1, h2⟩, h3, h4⟩
    exact ⟨fun u hu => hu.elim (h1 u) (h3 u), h2, h4⟩

theorem builtTerms_nil : BuiltTerms Q (.nil : Terms F W) := ⟨by simp [mentionedTerms], rfl⟩

theorem builtTerms_append : ∀ a b : Terms F W, BuiltTerms Q a → BuiltTerms Q b → BuiltTerms Q (a.append b)
  | .nil, b, _, h => h
  | .cons p e es, b, h, h' => by
      rw [builtTerms_cons] at h
      rw [Terms.append, builtTerms_cons]
      exact ⟨h.1, builtTerms_append es b h.2 h'⟩

theorem built_asTerms (op : BinOp) (e : Expr F W) (h : Built Q e) : BuiltTerms Q (e.asTerms op) := by
  unfold Expr.asTerms
  split
  · split
    · exact h
    · rw [builtTerms_cons]; exact ⟨h, builtTerms_nil⟩
  · rw [builtTerms_cons]; exact ⟨h, builtTerms_nil⟩

theorem built_flip (es : Terms F W) (h : BuiltTerms Q es) : BuiltTerms Q es.flipFirst := by
  cases es with
  | nil => exact h
  | cons p e es =>
    rw [builtTerms_cons] at h
    rw [Terms.flipFirst, builtTerms_cons]
    exact h

theorem built_promote (e₁ e₂ : Expr F W) (h₁ : Built Q e₁) (h₂ : Built Q e₂) :
    Built Q (promote e₁ e₂).1 ∧ Built Q (promote e₁ e₂).2 := by
  unfold promote
  split <;> exact ⟨h₁, h₂⟩

theorem built_binary (op : BinOp) (e₁ e₂ : Expr F W) (h₁ : Built Q e₁) (h₂ : Built Q e₂) : Built Q (assignBinary op e₁ e₂) := by
  obtain ⟨h1, h2⟩ := built_promote e₁ e₂ h₁ h₂
  unfold assignBinary mkBinary
  show BuiltTerms Q _
  refine builtTerms_append _ _ (built_asTerms op _ h1) ?_
  split
  · exact built_asTerms op _ h2
  · exact built_flip _ (built_asTerms op _ h2)

theorem built_bind {x y : Option (Expr F W)} (op : BinOp) {r : Expr F W}
    (h : (x.bind fun x => y.map fun y => assignBinary op x y) = some r) (hx : ∀ e, x = some e → Built Q e)
    (hy : ∀ e, y = some e → Built Q e) : Built Q r := by
  simp only [Option.bind_eq_some_iff, Option.map_eq_some_iff] at h
  obtain ⟨a, ha, b, hb, rfl⟩ := h
  exact built_binary op a b (hx a ha) (hy b hb)

theorem built_map {x : Option (Expr F W)} (op : UnOp) {r : Expr F W} (h : x.map (assignUnary op) = some r)
    (hx : ∀ e, x = some e → Built Q e) : Built Q r := by
  simp only [Option.map_eq_some_iff] at h
  obtain ⟨a, ha, rfl⟩ := h
  exact hx a ha

theorem built_makeList : ∀ (ts : List Ty) (es : List (Expr F W)) (a : Args F W), (∀ e ∈ es, Built Q e) → makeList ts es = some a →
    BuiltArgs Q a
  | [], [], a, _, h => by
      simp only [makeList, Option.some.injEq] at h
      rw [← h]; exact ⟨by simp [mentionedArgs], rfl⟩
  | [], _ :: _, a, _, h => by simp [makeList] at h
  | _ :: _, [], a, _, h => by simp [makeList] at h
  | t :: ts, e :: es, a, he, h => by
      simp only [makeList, Option.map_eq_some_iff] at h
      obtain ⟨b, hb, rfl⟩ := h
      rw [builtArgs_cons]
      refine ⟨?_, built_makeList ts es b (fun e he' => he e (List.mem_cons_of_mem _ he')) hb⟩
      unfold convertArg
      split <;> exact he e List.mem_cons_self

theorem built_getExpression (reg : String → Option (Func F W)) (n : String) (es : List (Expr F W)) (r : Expr F W)
    (he : ∀ e ∈ es, Built Q e) (h : getExpression reg n es = some r) : Built Q r := by
  simp only [getExpression, Option.bind_eq_some_iff, Option.map_eq_some_iff] at h
  obtain ⟨f, -, a, ha, rfl⟩ := h
  exact built_makeList _ _ _ he ha

theorem mem_assignFunctionArgs (e : Expr F W) : ∀ chain args : List (Expr F W), e ∈ assignFunctionArgs args chain →
    e ∈ args ∨ e ∈ chain
  | [], args, h => Or.inl h
  | a :: chain, args, h => by
      rcases mem_assignFunctionArgs e chain (a :: args) h with h | h
      · rcases List.mem_cons.mp h with rfl | h
        · exact Or.inr List.mem_cons_self
        · exact Or.inl h
      · exact Or.inr (List.mem_cons_of_mem _ h)

mutual

theorem build_expression (env : Env F W) (hQ : ∀ n p, env.lookup n = some p → Q p.1) : (g : Expression F) → ∀ e,
    g.build env = some e → Built Q e
  | .add a b, e, h => built_bind _ (by simpa only [Expression.build] using h) (build_signedTerm env hQ a) (build_unsigned env hQ b)
  | .sub a b, e, h => built_bind _ (by simpa only [Expression.build] using h) (build_signedTerm env hQ a) (build_unsigned env hQ b)
  | .one a, e, h => build_signedTerm env hQ a e (by simpa only [Expression.build] using h)

theorem build_unsigned (env : Env F W) (hQ : ∀ n p, env.lookup n = some p → Q p.1) : (g : Unsigned F) → ∀ e,
    g.build env = some e → Built Q e
  | .add a b, e, h => built_bind _ (by simpa only [Unsigned.build] using h) (build_term env hQ a) (build_unsigned env hQ b)
  | .sub a b, e, h => built_bind _ (by simpa only [Unsigned.build] using h) (build_term env hQ a) (build_unsigned env hQ b)
  | .one a, e, h => build_term env hQ a e (by simpa only [Unsigned.build] using h)

theorem build_signedTerm (env : Env F W) (hQ : ∀ n p, env.lookup n = some p → Q p.1) : (g : SignedTerm F) → ∀ e,
    g.build env = some e → Built Q e
  | .plus a, e, h => build_term env hQ a e (by simpa only [SignedTerm.build] using h)
  | .minus a, e, h => built_map _ (by simpa only [SignedTerm.build] using h) (build_term env hQ a)
  | .one a, e, h => build_term env hQ a e (by simpa only [SignedTerm.build] using h)

theorem build_term (env : Env F W) (hQ : ∀ n p, env.lookup n = some p → Q p.1) : (g : Term F) → ∀ e,
    g.build env = some e → Built Q e
  | .mul a b, e, h => built_bind _ (by simpa only [Term.build] using h) (build_power env hQ a) (build_term env hQ b)
  | .div a b, e, h => built_bind _ (by simpa only [Term.build] using h) (build_power env hQ a) (build_term env hQ b)
  | .one a, e, h => build_power env hQ a e (by simpa only [Term.build] using h)

theorem build_power (env : Env F W) (hQ : ∀ n p, env.lookup n = some p → Q p.1) : (g : Power F) → ∀ e,
    g.build env = some e → Built Q e
  | .pow a b, e, h => built_bind _ (by simpa only [Power.build] using h) (build_atomic env hQ a) (build_signedAtomic env hQ b)
  | .one a, e, h => build_atomic env hQ a e (by simpa only [Power.build] using h)

theorem build_signedAtomic (env : Env F W) (hQ : ∀ n p, env.lookup n = some p → Q p.1) : (g : SignedAtomic F) → ∀ e,
    g.build env = some e → Built Q e
  | .plus a, e, h => build_atomic env hQ a e (by simpa only [SignedAtomic.build] using h)
  | .minus a, e, h => built_map _ (by simpa only [SignedAtomic.build] using h) (build_atomic env hQ a)
  | .one a, e, h => build_atomic env hQ a e (by simpa only [SignedAtomic.build] using h)

theorem build_atomic (env : Env F W) (hQ : ∀ n p, env.lookup n = some p → Q p.1) : (g : Atomic F) → ∀ e,
    g.build env = some e → Built Q e
  | .paren a, e, h => built_map _ (by simpa only [Atomic.build] using h) (build_expression env hQ a)
  | .call n args, e, h => by
      simp only [Atomic.build, Option.bind_eq_some_iff] at h
      obtain ⟨l, hl, h⟩ := h
      refine built_getExpression _ _ _ _ ?_ h
      intro a ha
      rcases mem_assignFunctionArgs a l [] ha with ha | ha
      · simp at ha
      · exact build_exprList env hQ args l hl a ha
  | .callNone n, e, h => built_getExpression env.func n [] e (fun a ha => by simp at ha) (by simpa only [Atomic.build] using h)
  | .lit v, e, h => by
      simp only [Atomic.build, Option.some.injEq] at h
      rw [← h]
      exact ⟨by simp [assignUnary, mentioned], rfl⟩
  | .ident n, e, h => by
      simp only [Atomic.build, Option.map_eq_some_iff] at h
      obtain ⟨p, hp, rfl⟩ := h
      refine ⟨?_, rfl⟩
      intro u hu
      simp only [assignUnary, mentioned, List.mem_singleton] at hu
      rw [hu]
      exact hQ n p hp

theorem build_exprList (env : Env F W) (hQ : ∀ n p, env.lookup n = some p → Q p.1) : (g : ExprList F) → ∀ l,
    g.build env = some l → ∀ e ∈ l, Built Q e
  | .snoc a b, l, h => by
      simp only [ExprList.build, Option.bind_eq_some_iff, Option.map_eq_some_iff] at h
      obtain ⟨l', hl', y, hy, rfl⟩ := h
      intro e he
      rcases List.mem_cons.mp he with rfl | he
      · exact build_expression env hQ b e hy
      · exact build_exprList env hQ a l' hl' e he
  | .one a, l, h => by
      simp only [ExprList.build, Option.map_eq_some_iff] at h
      obtain ⟨y, hy, rfl⟩ := h
      intro e he
      simp only [List.mem_singleton] at he
      rw [he]
      exact build_expression env hQ a y hy

end

/-! ## evaluation looks at the mentioned variables only -/

mutual

theorem eval_built (O : FloatOps F) (σ σ' : State F W) (hw : σ'.world = σ.world) : (e : Expr F W) → Built (fun u => σ'.value u = σ.value u) e →
    e.eval O σ' = e.eval O σ
  | .value v, _ => rfl
  | .ref t v, h => by
      have := h.1 v (by simp [mentioned])
      simp only at this
      simp only [Expr.eval, this]
  | .ext t x, h => by have := h.2; simp [externals] at this
  | .unary op e, h => by simp only [Expr.eval, eval_built O σ σ' hw e h]
  | .binary op es, h => by
      simp only [Expr.eval]
      exact evalFirst_built O σ σ' hw op es h
  | .cast t e, h => by simp only [Expr.eval, eval_built O σ σ' hw e h]
  | .call f args, h => by simp only [Expr.eval, evalArgs_built O σ σ' hw args h, hw]

theorem evalFirst_built (O : FloatOps F) (σ σ' : State F W) (hw : σ'.world = σ.world) (op : BinOp) : (es : Terms F W) →
    BuiltTerms (fun u => σ'.value u = σ.value u) es → es.evalFirst O σ' op = es.evalFirst O σ op
  | .nil, _ => rfl
  | .cons p e es, h => by
      rw [builtTerms_cons] at h
      simp only [Terms.evalFirst, eval_built O σ σ' hw e h.1]
      congr 1
      funext x
      exact evalRest_built O σ σ' hw op es h.2 x

theorem evalRest_built (O : FloatOps F) (σ σ' : State F W) (hw : σ'.world = σ.world) (op : BinOp) : (es : Terms F W) →
    BuiltTerms (fun u => σ'.value u = σ.value u) es → ∀ x, es.evalRest O σ' op x = es.evalRest O σ op x
  | .nil, _, _ => rfl
  | .cons p e es, h, x => by
      rw [builtTerms_cons] at h
      simp only [Terms.evalRest, eval_built O σ σ' hw e h.1, evalRest_built O σ σ' hw op es h.2]

theorem evalArgs_built (O : FloatOps F) (σ σ' : State F W) (hw : σ'.world = σ.world) : (es : Args F W) →
    BuiltArgs (fun u => σ'.value u = σ.value u) es → es.eval O σ' = es.eval O σ
  | .nil, _ => rfl
  | .cons e es, h => by
      rw [builtArgs_cons] at h
      simp only [Args.eval, eval_built O σ σ' hw e h.1, evalArgs_built O σ σ' hw es h.2]

end

mutual

theorem isConstant_built (σ σ' : State F W) : (e : Expr F W) → Built (fun u => σ'.fixed u = σ.fixed u) e →
    e.isConstant σ' = e.isConstant σ
  | .value v, _ => rfl
  | .ref t v, h => by
      have := h.1 v (by simp [mentioned])
      simp only at this
      simp only [Expr.isConstant, this]
  | .ext t x, _ => rfl
  | .unary op e, h => by simp only [Expr.isConstant, isConstant_built σ σ' e h]
  | .binary op es, h => by simp only [Expr.isConstant, isConstantTerms_built σ σ' es h]
  | .cast t e, h => by simp only [Expr.isConstant, isConstant_built σ σ' e h]
  | .call f args, h => by simp only [Expr.isConstant, isConstantArgs_built σ σ' args h]

theorem isConstantTerms_built (σ σ' : State F W) : (es : Terms F W) → BuiltTerms (fun u => σ'.fixed u = σ.fixed u) es →
    es.isConstant σ' = es.isConstant σ
  | .nil, _ => rfl
  | .cons p e es, h => by
      rw [builtTerms_cons] at h
      simp only [Terms.isConstant, isConstant_built σ σ' e h.1, isConstantTerms_built σ σ' es h.2]

theorem isConstantArgs_built (σ σ' : State F W) : (es : Args F W) → BuiltArgs (fun u => σ'.fixed u = σ.fixed u) es →
    es.isConstant σ' = es.isConstant σ
  | .nil, _ => rfl
  | .cons e es, h => by
      rw [builtArgs_cons] at h
      simp only [Args.isConstant, isConstant_built σ σ' e h.1, isConstantArgs_built σ σ' es h.2]

end

theorem Built.mono {Q R : ℕ → Prop} {e : Expr F W} (h : Built Q e) (hQ : ∀ u, Q u → R u) : Built R e :=
  ⟨fun u hu => hQ u (h.1 u hu), h.2⟩

/-- names are written paths -/
theorem splitChars_intercalate (sep : Char) (l : List Char) : [sep].intercalate (splitChars sep l) = l ∧
    ∀ n ∈ splitChars sep l, sep ∉ n := by
  induction l with
  | nil => simp [splitChars]
  | cons c cs ih =>
    rw [splitChars]
    rcases hs : splitChars sep cs with _ | ⟨a, as⟩
    · exact absurd hs (Vars.splitChars_ne sep cs)
    · rw [hs] at ih
      by_cases hc : c = sep
      · rw [if_pos hc]
        refine ⟨?_, ?_⟩
        · rw [List.intercalate_cons_cons, ih.1, hc]
          rfl
        · intro n hn
          rcases List.mem_cons.mp hn with rfl | hn
          · simp
          · exact ih.2 n hn
      · rw [if_neg hc]
        refine ⟨?_, ?_⟩
        · obtain ⟨ih, -⟩ := ih
          cases as with
          | nil => simp [List.intercalate] at ih ⊢; exact ih
          | cons b bs =>
            simp only
            rw [List.intercalate_cons_cons] at ih ⊢
            rw [← ih]; simp
        · intro n hn
          rcases List.mem_cons.mp hn with rfl | hn
          · simp only [List.mem_cons, not_or]
            exact ⟨fun e => hc e.symm, ih.2 a List.mem_cons_self⟩
          · exact ih.2 n (List.mem_cons_of_mem _ hn)

theorem written_splitName (sep : Char) (name : String) : Written sep (splitName sep name) name := by
  obtain ⟨h1, h2⟩ := splitChars_intercalate sep name.toList
  refine ⟨?_, ?_, ?_⟩
  · unfold splitName
    rw [List.map_map]
    have : (String.toList ∘ String.ofList) = id := by funext l; simp
    rw [this, List.map_id]
    exact h1.symm
  · unfold splitName
    intro h
    exact Vars.splitChars_ne sep _ (List.map_eq_nil_iff.mp h)
  · intro n hn
    unfold splitName at hn
    obtain ⟨l, hl, rfl⟩ := List.mem_map.mp hn
    rw [String.toList_ofList]
    exact h2 l hl

end Schnek.Lemma.Deck
