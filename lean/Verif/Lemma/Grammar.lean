import Verif.Lemma.Expression
import Mathlib.Data.List.Forall2

namespace Schnek.Lemma.Deck

open Schnek.Deck Schnek.Deck.Grammar Schnek.Spec

variable {F W : Type}

/-! ## The tree of a derivation -/

mutual

def Expression.read : Grammar.Expression F → Ast F
  | .add a b => Unsigned.readRest b (SignedTerm.read a) .add
  | .sub a b => Unsigned.readRest b (SignedTerm.read a) .sub
  | .one a => SignedTerm.read a

def Unsigned.readRest : Grammar.Unsigned F → Ast F → BinOp → Ast F
  | .add a b, acc, op => Unsigned.readRest b (.bin op acc (Term.read a)) .add
  | .sub a b, acc, op => Unsigned.readRest b (.bin op acc (Term.read a)) .sub
  | .one a, acc, op => .bin op acc (Term.read a)

def SignedTerm.read : Grammar.SignedTerm F → Ast F
  | .plus a => Term.read a
  | .minus a => .neg (Term.read a)
  | .one a => Term.read a

def Term.read : Grammar.Term F → Ast F
  | .mul a b => Term.readRest b (Power.read a) .mul
  | .div a b => Term.readRest b (Power.read a) .div
  | .one a => Power.read a

def Term.readRest : Grammar.Term F → Ast F → BinOp → Ast F
  | .mul a b, acc, op => Term.readRest b (.bin op acc (Power.read a)) .mul
  | .div a b, acc, op => Term.readRest b (.bin op acc (Power.read a)) .div
  | .one a, acc, op => .bin op acc (Power.read a)

def Power.read : Grammar.Power F → Ast F
  | .pow a b => .bin .pow (Atomic.read a) (SignedAtomic.read b)
  | .one a => Atomic.read a

def SignedAtomic.read : Grammar.SignedAtomic F → Ast F
  | .plus a => Atomic.read a
  | .minus a => .neg (Atomic.read a)
  | .one a => Atomic.read a

def Atomic.read : Grammar.Atomic F → Ast F
  | .paren a => .paren (Expression.read a)
  | .call n args => .call n (ExprList.read args)
  | .callNone n => .call n []
  | .lit v => .lit v
  | .ident n => .var n

def ExprList.read : Grammar.ExprList F → List (Ast F)
  | .snoc a b => ExprList.read a ++ [Expression.read b]
  | .one a => [Expression.read a]

end

/-! ## tokens -/

mutual

theorem expression_tokens : (d : Grammar.Expression F) → IsExpr d.tokens (Expression.read d)
  | .add a b => unsigned_tokens_add b _ _ (signedTerm_tokens a)
  | .sub a b => unsigned_tokens_sub b _ _ (signedTerm_tokens a)
  | .one a => signedTerm_tokens a

theorem unsigned_tokens_add : (d : Grammar.Unsigned F) → ∀ s acc, IsExpr s acc →
    IsExpr (s ++ .plus :: d.tokens) (Unsigned.readRest d acc .add)
  | .add a b => fun s acc h => by
      have := unsigned_tokens_add b _ _ (h.add (term_tokens a))
      simpa [Unsigned.tokens, Unsigned.readRest] using this
  | .sub a b => fun s acc h => by
      have := unsigned_tokens_sub b _ _ (h.add (term_tokens a))
      simpa [Unsigned.tokens, Unsigned.readRest] using this
  | .one a => fun s acc h => h.add (term_tokens a)

theorem unsigned_tokens_sub : (d : Grammar.Unsigned F) → ∀ s acc, IsExpr s acc →
    IsExpr (s ++ .minus :: d.tokens) (Unsigned.readRest d acc .sub)
  | .add a b => fun s acc h => by
      have := unsigned_tokens_add b _ _ (h.sub (term_tokens a))
      simpa [Unsigned.tokens, Unsigned.readRest] using this
  | .sub a b => fun s acc h => by
      have := unsigned_tokens_sub b _ _ (h.sub (term_tokens a))
      simpa [Unsigned.tokens, Unsigned.readRest] using this
  | .one a => fun s acc h => h.sub (term_tokens a)

theorem signedTerm_tokens : (d : Grammar.SignedTerm F) → IsExpr d.tokens (SignedTerm.read d)
  | .plus a => .plus (term_tokens a)
  | .minus a => .minus (term_tokens a)
  | .one a => .term (term_tokens a)

theorem term_tokens : (d : Grammar.Term F) → IsTerm d.tokens (Term.read d)
  | .mul a b => term_tokens_mul b _ _ (.power (power_tokens a))
  | .div a b => term_tokens_div b _ _ (.power (power_tokens a))
  | .one a => .power (power_tokens a)

theorem term_tokens_mul : (d : Grammar.Term F) → ∀ s acc, IsTerm s acc →
    IsTerm (s ++ .times :: d.tokens) (Term.readRest d acc .mul)
  | .mul a b => fun s acc h => by
      have := term_tokens_mul b _ _ (h.mul (power_tokens a))
      simpa [Term.tokens, Term.readRest] using this
  | .div a b => fun s acc h => by
      have := term_tokens_div b _ _ (h.mul (power_tokens a))
      simpa [Term.tokens, Term.readRest] using this
  | .one a => fun s acc h => h.mul (power_tokens a)

theorem term_tokens_div : (d : Grammar.Term F) → ∀ s acc, IsTerm s acc →
    IsTerm (s ++ .divide :: d.tokens) (Term.readRest d acc .div)
  | .mul a b => fun s acc h => by
      have := term_tokens_mul b _ _ (h.div (power_tokens a))
      simpa [Term.tokens, Term.readRest] using this
  | .div a b => fun s acc h => by
      have := term_tokens_div b _ _ (h.div (power_tokens a))
      simpa [Term.tokens, Term.readRest] using this
  | .one a => fun s acc h => h.div (power_tokens a)

theorem power_tokens : (d : Grammar.Power F) → IsPower d.tokens (Power.read d)
  | .pow a (.plus b) => .powPlus (atomic_tokens a) (atomic_tokens b)
  | .pow a (.minus b) => .powMinus (atomic_tokens a) (atomic_tokens b)
  | .pow a (.one b) => .pow (atomic_tokens a) (atomic_tokens b)
  | .one a => .atom (atomic_tokens a)

theorem atomic_tokens : (d : Grammar.Atomic F) → IsAtom d.tokens (Atomic.read d)
  | .paren a => .paren (expression_tokens a)
  | .call _ args => .call (exprList_tokens args)
  | .callNone _ => .callNone
  | .lit _ => .lit
  | .ident _ => .var

theorem exprList_tokens : (d : Grammar.ExprList F) → IsArgs d.tokens (ExprList.read d)
  | .snoc a b => .snoc (exprList_tokens a) (expression_tokens b)
  | .one a => .one (expression_tokens a)

end

/-! ## shapes of built objects -/

theorem atomic_single (env : Env F W) (op : BinOp) : (d : Grammar.Atomic F) → ∀ e, d.build env = some e → Single op e
  | .paren a => by
      intro e h
      simp only [Atomic.build, Option.map_eq_some_iff] at h
      obtain ⟨_, _, rfl⟩ := h
      rfl
  | .call n args => by
      intro e h
      simp only [Atomic.build, getExpression, Option.bind_eq_some_iff, Option.map_eq_some_iff] at h
      obtain ⟨_, _, _, _, _, _, rfl⟩ := h
      rfl
  | .callNone n => by
      intro e h
      simp only [Atomic.build, getExpression, Option.bind_eq_some_iff, Option.map_eq_some_iff] at h
      obtain ⟨_, _, _, _, rfl⟩ := h
      rfl
  | .lit v => by
      intro e h
      simp only [Atomic.build, Option.some.injEq] at h
      subst h
      rfl
  | .ident n => by
      intro e h
      simp only [Atomic.build, Option.map_eq_some_iff] at h
      obtain ⟨_, _, rfl⟩ := h
      rfl

theorem signedAtomic_single (env : Env F W) (op : BinOp) (d : Grammar.SignedAtomic F) (e : Expr F W)
    (h : d.build env = some e) : Single op e := by
  cases d with
  | plus a => exact atomic_single env op a e h
  | minus a =>
      simp only [SignedAtomic.build, Option.map_eq_some_iff] at h
      obtain ⟨_, _, rfl⟩ := h
      rfl
  | one a => exact atomic_single env op a e h

theorem single_mkBinary (op op' : BinOp) (h : op'.positive ≠ op.positive) (e₁ e₂ : Expr F W) :
    Single op (mkBinary op' e₁ e₂) := by
  unfold Single mkBinary
  cases op <;> cases op' <;> simp [BinOp.positive] at h <;> simp [Expr.asTerms, BinOp.inverted]

theorem single_assignBinary (op op' : BinOp) (h : op'.positive ≠ op.positive) (e₁ e₂ : Expr F W) :
    Single op (assignBinary op' e₁ e₂) := single_mkBinary op op' h _ _

theorem power_single (env : Env F W) (op : BinOp) (hop : op.positive ≠ .pow) (d : Grammar.Power F) (e : Expr F W)
    (h : d.build env = some e) : Single op e := by
  cases d with
  | pow a b =>
      simp only [Power.build, Option.bind_eq_some_iff, Option.map_eq_some_iff] at h
      obtain ⟨_, _, _, _, rfl⟩ := h
      exact single_assignBinary op .pow (fun h => hop h.symm) _ _
  | one a => exact atomic_single env op a e h

theorem term_single (env : Env F W) (op : BinOp) (hop : op.positive = .add) (d : Grammar.Term F) (e : Expr F W)
    (h : d.build env = some e) : Single op e := by
  cases d with
  | mul a b =>
      simp only [Term.build, Option.bind_eq_some_iff, Option.map_eq_some_iff] at h
      obtain ⟨_, _, _, _, rfl⟩ := h
      exact single_assignBinary op .mul (by rw [hop]; decide) _ _
  | div a b =>
      simp only [Term.build, Option.bind_eq_some_iff, Option.map_eq_some_iff] at h
      obtain ⟨_, _, _, _, rfl⟩ := h
      exact single_assignBinary op .div (by rw [hop]; decide) _ _
  | one a => exact power_single env op (by rw [hop]; decide) a e h

theorem signedTerm_single (env : Env F W) (op : BinOp) (hop : op.positive = .add) (d : Grammar.SignedTerm F)
    (e : Expr F W) (h : d.build env = some e) : Single op e := by
  cases d with
  | plus a => exact term_single env op hop a e h
  | minus a =>
      simp only [SignedTerm.build, Option.map_eq_some_iff] at h
      obtain ⟨_, _, rfl⟩ := h
      rfl
  | one a => exact term_single env op hop a e h

/-! ## uniform chains -/

/-- all terms have type `T` and are uniform -/
def UnsignedAll (env : Env F W) (T : Ty) : Grammar.Unsigned F → Prop
  | .add a b => (Term.read a).ty env = T ∧ (Term.read a).Uniform env ∧ UnsignedAll env T b
  | .sub a b => (Term.read a).ty env = T ∧ (Term.read a).Uniform env ∧ UnsignedAll env T b
  | .one a => (Term.read a).ty env = T ∧ (Term.read a).Uniform env

/-- all factors have type `T` and are uniform -/
def TermAll (env : Env F W) (T : Ty) : Grammar.Term F → Prop
  | .mul a b => (Power.read a).ty env = T ∧ (Power.read a).Uniform env ∧ TermAll env T b
  | .div a b => (Power.read a).ty env = T ∧ (Power.read a).Uniform env ∧ TermAll env T b
  | .one a => (Power.read a).ty env = T ∧ (Power.read a).Uniform env

theorem unsigned_uniform_acc (env : Env F W) : (d : Grammar.Unsigned F) → ∀ acc op,
    (Unsigned.readRest d acc op).Uniform env → acc.Uniform env
  | .add a b => fun acc op h => by
      have := unsigned_uniform_acc env b _ _ h
      exact this.1
  | .sub a b => fun acc op h => by
      have := unsigned_uniform_acc env b _ _ h
      exact this.1
  | .one a => fun acc op h => h.1

theorem unsigned_uniform (env : Env F W) : (d : Grammar.Unsigned F) → ∀ acc op, op.positive = .add →
    acc.isChain op = true → (Unsigned.readRest d acc op).Uniform env → UnsignedAll env (acc.ty env) d
  | .add a b => fun acc op hop hch h => by
      have h1 := unsigned_uniform_acc env b _ _ h
      obtain ⟨_, h2, h3⟩ := h1
      have hty := h3 hch
      have h4 := unsigned_uniform env b (.bin op acc (Term.read a)) .add rfl (by cases op <;> simp_all [BinOp.positive, Ast.isChain, sameLevel]) h
      refine ⟨hty, h2, ?_⟩
      simpa [Ast.ty, hty, wider_self] using h4
  | .sub a b => fun acc op hop hch h => by
      have h1 := unsigned_uniform_acc env b _ _ h
      obtain ⟨_, h2, h3⟩ := h1
      have hty := h3 hch
      have h4 := unsigned_uniform env b (.bin op acc (Term.read a)) .sub rfl (by cases op <;> simp_all [BinOp.positive, Ast.isChain, sameLevel]) h
      refine ⟨hty, h2, ?_⟩
      simpa [Ast.ty, hty, wider_self] using h4
  | .one a => fun acc op hop hch h => ⟨h.2.2 hch, h.2.1⟩

theorem unsigned_ty (env : Env F W) : (d : Grammar.Unsigned F) → ∀ acc op, UnsignedAll env (acc.ty env) d →
    (Unsigned.readRest d acc op).ty env = acc.ty env
  | .add a b => fun acc op h => by
      have hty : (Ast.bin op acc (Term.read a)).ty env = acc.ty env := by
        show wider _ _ = _
        rw [h.1, wider_self]
      have := unsigned_ty env b (.bin op acc (Term.read a)) .add (by rw [hty]; exact h.2.2)
      rw [Unsigned.readRest, this, hty]
  | .sub a b => fun acc op h => by
      have hty : (Ast.bin op acc (Term.read a)).ty env = acc.ty env := by
        show wider _ _ = _
        rw [h.1, wider_self]
      have := unsigned_ty env b (.bin op acc (Term.read a)) .sub (by rw [hty]; exact h.2.2)
      rw [Unsigned.readRest, this, hty]
  | .one a => fun acc op h => by
      show wider _ _ = _
      rw [h.1, wider_self]

theorem term_uniform_acc (env : Env F W) : (d : Grammar.Term F) → ∀ acc op,
    (Term.readRest d acc op).Uniform env → acc.Uniform env
  | .mul a b => fun acc op h => by
      have := term_uniform_acc env b _ _ h
      exact this.1
  | .div a b => fun acc op h => by
      have := term_uniform_acc env b _ _ h
      exact this.1
  | .one a => fun acc op h => h.1

theorem term_uniform (env : Env F W) : (d : Grammar.Term F) → ∀ acc op, op.positive = .mul →
    acc.isChain op = true → (Term.readRest d acc op).Uniform env → TermAll env (acc.ty env) d
  | .mul a b => fun acc op hop hch h => by
      have h1 := term_uniform_acc env b _ _ h
      obtain ⟨_, h2, h3⟩ := h1
      have hty := h3 hch
      have h4 := term_uniform env b (.bin op acc (Power.read a)) .mul rfl (by cases op <;> simp_all [BinOp.positive, Ast.isChain, sameLevel]) h
      refine ⟨hty, h2, ?_⟩
      simpa [Ast.ty, hty, wider_self] using h4
  | .div a b => fun acc op hop hch h => by
      have h1 := term_uniform_acc env b _ _ h
      obtain ⟨_, h2, h3⟩ := h1
      have hty := h3 hch
      have h4 := term_uniform env b (.bin op acc (Power.read a)) .div rfl (by cases op <;> simp_all [BinOp.positive, Ast.isChain, sameLevel]) h
      refine ⟨hty, h2, ?_⟩
      simpa [Ast.ty, hty, wider_self] using h4
  | .one a => fun acc op hop hch h => ⟨h.2.2 hch, h.2.1⟩

theorem term_ty (env : Env F W) : (d : Grammar.Term F) → ∀ acc op, TermAll env (acc.ty env) d →
    (Term.readRest d acc op).ty env = acc.ty env
  | .mul a b => fun acc op h => by
      have hty : (Ast.bin op acc (Power.read a)).ty env = acc.ty env := by
        show wider _ _ = _
        rw [h.1, wider_self]
      have := term_ty env b (.bin op acc (Power.read a)) .mul (by rw [hty]; exact h.2.2)
      rw [Term.readRest, this, hty]
  | .div a b => fun acc op h => by
      have hty : (Ast.bin op acc (Power.read a)).ty env = acc.ty env := by
        show wider _ _ = _
        rw [h.1, wider_self]
      have := term_ty env b (.bin op acc (Power.read a)) .div (by rw [hty]; exact h.2.2)
      rw [Term.readRest, this, hty]
  | .one a => fun acc op h => by
      show wider _ _ = _
      rw [h.1, wider_self]

/-! ## function arguments -/

theorem assignFunctionArgs_eq (args chain : List (Expr F W)) :
    assignFunctionArgs args chain = chain.reverse ++ args := by
  induction chain generalizing args with
  | nil => rfl
  | cons e chain ih => simp [assignFunctionArgs, ih]

/-- the objects and the trees agree one by one -/
def AgreesList (O : FloatOps F) (env : Env F W) (es : List (Expr F W)) (as : List (Ast F)) : Prop :=
  List.Forall₂ (Agrees O env) es as

theorem makeList_length (ts : List Ty) (es : List (Expr F W)) (args : Args F W) (h : makeList ts es = some args) :
    ts.length = es.length := by
  induction ts generalizing es args with
  | nil => cases es with
    | nil => rfl
    | cons _ _ => simp [makeList] at h
  | cons t ts ih => cases es with
    | nil => simp [makeList] at h
    | cons e es =>
        simp only [makeList, Option.map_eq_some_iff] at h
        obtain ⟨x, hx, _⟩ := h
        simp [ih es x hx]

theorem makeList_isSome (ts : List Ty) (es : List (Expr F W)) :
    (makeList ts es).isSome ↔ ts.length = es.length := by
  induction ts generalizing es with
  | nil => cases es <;> simp [makeList]
  | cons t ts ih => cases es with
    | nil => simp [makeList]
    | cons e es => simp [makeList, ih]

theorem makeList_eval {O : FloatOps F} {env : Env F W} {σ : State F W} (hσ : Env.Typed env σ) (ts : List Ty)
    (es : List (Expr F W)) (as : List (Ast F)) (h : AgreesList O env es as) (args : Args F W)
    (hm : makeList ts es = some args) :
    args.eval O σ = (evalList O env σ as).bind (convertArgs O ts) := by
  induction ts generalizing es as args with
  | nil => cases h with
    | nil =>
        simp only [makeList, Option.some.injEq] at hm
        subst hm
        rfl
    | cons _ _ => simp [makeList] at hm
  | cons t ts ih => cases h with
    | nil => simp [makeList] at hm
    | @cons e a es as h1 h2 =>
        simp only [makeList, Option.map_eq_some_iff] at hm
        obtain ⟨args', hm', rfl⟩ := hm
        simp only [Args.eval, evalList, convertArg_eval h1 hσ, ← h1.eval σ hσ, ih es as h2 args' hm']
        cases hv : e.eval O σ with
        | none => rfl
        | some v =>
            simp only [Option.bind_some]
            cases evalList O env σ as with
            | none => cases convert O t v <;> rfl
            | some vs => simp [convertArgs, toType_eq]

theorem agrees_call {O : FloatOps F} {env : Env F W} (n : String) (es : List (Expr F W)) (as : List (Ast F))
    (h : AgreesList O env es as) (e : Expr F W) (hb : getExpression env.func n es = some e) :
    Agrees O env e (.call n as) := by
  simp only [getExpression, Option.bind_eq_some_iff, Option.map_eq_some_iff] at hb
  obtain ⟨f, hf, args, hargs, rfl⟩ := hb
  refine ⟨by simp [Expr.ty, Ast.ty, hf], ?_⟩
  intro σ hσ
  simp only [Expr.eval, Ast.eval, hf, Option.bind_some]
  rw [makeList_eval hσ f.params es as h args hargs, Option.bind_assoc]

/-! ## the value of a built object -/

section

variable (O : FloatOps F) (env : Env F W)

theorem uniformList_append (l l' : List (Ast F)) :
    UniformList env (l ++ l') ↔ UniformList env l ∧ UniformList env l' := by
  induction l with
  | nil => simp [UniformList]
  | cons a l ih => simp [UniformList, ih, and_assoc]

mutual

theorem expression_agrees : (d : Grammar.Expression F) → ∀ e, d.build env = some e → (Expression.read d).Uniform env →
    Agrees O env e (Expression.read d)
  | .add a b => fun e h hu => by
      simp only [Expression.build, Option.bind_eq_some_iff, Option.map_eq_some_iff] at h
      obtain ⟨x, hx, y, hy, rfl⟩ := h
      have hua := unsigned_uniform_acc env b _ _ hu
      exact unsigned_agrees b y hy _ x .add rfl (signedTerm_agrees a x hx hua)
        (signedTerm_single env .add rfl a x hx) hu
  | .sub a b => fun e h hu => by
      simp only [Expression.build, Option.bind_eq_some_iff, Option.map_eq_some_iff] at h
      obtain ⟨x, hx, y, hy, rfl⟩ := h
      have hua := unsigned_uniform_acc env b _ _ hu
      exact unsigned_agrees b y hy _ x .sub rfl (signedTerm_agrees a x hx hua)
        (signedTerm_single env .add rfl a x hx) hu
  | .one a => fun e h hu => signedTerm_agrees a e h hu

theorem unsigned_hom : (d : Grammar.Unsigned F) → ∀ e, d.build env = some e → ∀ T, UnsignedAll env T d →
    Hom O env .add T e (Unsigned.readRest d)
  | .add a b => fun e h T hu => by
      simp only [Unsigned.build, Option.bind_eq_some_iff, Option.map_eq_some_iff] at h
      obtain ⟨x, hx, y, hy, rfl⟩ := h
      have ha := term_agrees a x hx hu.2.1
      have := hom_cons ha (ha.ty.trans hu.1) (term_single env .add rfl a x hx) rfl (op' := .add) rfl
        (unsigned_hom b y hy T hu.2.2)
      exact this
  | .sub a b => fun e h T hu => by
      simp only [Unsigned.build, Option.bind_eq_some_iff, Option.map_eq_some_iff] at h
      obtain ⟨x, hx, y, hy, rfl⟩ := h
      have ha := term_agrees a x hx hu.2.1
      have := hom_cons ha (ha.ty.trans hu.1) (term_single env .add rfl a x hx) rfl (op' := .sub) rfl
        (unsigned_hom b y hy T hu.2.2)
      exact this
  | .one a => fun e h T hu => by
      have ha := term_agrees a e h hu.2
      exact hom_one ha (ha.ty.trans hu.1) (term_single env .add rfl a e h) rfl

theorem unsigned_agrees : (d : Grammar.Unsigned F) → ∀ e, d.build env = some e → ∀ acc e₁ op, op.positive = .add →
    Agrees O env e₁ acc → Single .add e₁ → (Unsigned.readRest d acc op).Uniform env →
    Agrees O env (assignBinary op e₁ e) (Unsigned.readRest d acc op)
  | .add a b => fun e h acc e₁ op hop h₁ hs hu => by
      simp only [Unsigned.build, Option.bind_eq_some_iff, Option.map_eq_some_iff] at h
      obtain ⟨x, hx, y, hy, rfl⟩ := h
      have hacc := unsigned_uniform_acc env b _ _ hu
      have hall := unsigned_uniform env b (.bin op acc (Term.read a)) .add rfl
        (by cases op <;> simp_all [BinOp.positive, Ast.isChain, sameLevel]) hu
      have ha := term_agrees a x hx hacc.2.1
      exact agrees_chain h₁ ha hs (term_single env .add rfl a x hx) rfl hop rfl
        (unsigned_hom b y hy _ hall) (unsigned_ty env b _ _ hall)
  | .sub a b => fun e h acc e₁ op hop h₁ hs hu => by
      simp only [Unsigned.build, Option.bind_eq_some_iff, Option.map_eq_some_iff] at h
      obtain ⟨x, hx, y, hy, rfl⟩ := h
      have hacc := unsigned_uniform_acc env b _ _ hu
      have hall := unsigned_uniform env b (.bin op acc (Term.read a)) .sub rfl
        (by cases op <;> simp_all [BinOp.positive, Ast.isChain, sameLevel]) hu
      have ha := term_agrees a x hx hacc.2.1
      exact agrees_chain h₁ ha hs (term_single env .add rfl a x hx) rfl hop rfl
        (unsigned_hom b y hy _ hall) (unsigned_ty env b _ _ hall)
  | .one a => fun e h acc e₁ op hop h₁ hs hu =>
      agrees_two h₁ (term_agrees a e h hu.2.1) (single_congr (by rw [hop]; rfl) hs)
        (single_congr (op := .add) (by rw [hop]; rfl) (term_single env .add rfl a e h))

theorem signedTerm_agrees : (d : Grammar.SignedTerm F) → ∀ e, d.build env = some e → (SignedTerm.read d).Uniform env →
    Agrees O env e (SignedTerm.read d)
  | .plus a => fun e h hu => term_agrees a e h hu
  | .minus a => fun e h hu => by
      simp only [SignedTerm.build, Option.map_eq_some_iff] at h
      obtain ⟨x, hx, rfl⟩ := h
      have ha := term_agrees a x hx hu
      exact ⟨ha.ty, fun σ hσ => by simp [assignUnary, Expr.eval, SignedTerm.read, Ast.eval, negated_eq, ha.eval σ hσ]⟩
  | .one a => fun e h hu => term_agrees a e h hu

theorem term_agrees : (d : Grammar.Term F) → ∀ e, d.build env = some e → (Term.read d).Uniform env →
    Agrees O env e (Term.read d)
  | .mul a b => fun e h hu => by
      simp only [Term.build, Option.bind_eq_some_iff, Option.map_eq_some_iff] at h
      obtain ⟨x, hx, y, hy, rfl⟩ := h
      have hua := term_uniform_acc env b _ _ hu
      exact term_agreesRest b y hy _ x .mul rfl (power_agrees a x hx hua)
        (power_single env .mul (by decide) a x hx) hu
  | .div a b => fun e h hu => by
      simp only [Term.build, Option.bind_eq_some_iff, Option.map_eq_some_iff] at h
      obtain ⟨x, hx, y, hy, rfl⟩ := h
      have hua := term_uniform_acc env b _ _ hu
      exact term_agreesRest b y hy _ x .div rfl (power_agrees a x hx hua)
        (power_single env .mul (by decide) a x hx) hu
  | .one a => fun e h hu => power_agrees a e h hu

theorem term_hom : (d : Grammar.Term F) → ∀ e, d.build env = some e → ∀ T, TermAll env T d →
    Hom O env .mul T e (Term.readRest d)
  | .mul a b => fun e h T hu => by
      simp only [Term.build, Option.bind_eq_some_iff, Option.map_eq_some_iff] at h
      obtain ⟨x, hx, y, hy, rfl⟩ := h
      have ha := power_agrees a x hx hu.2.1
      have := hom_cons ha (ha.ty.trans hu.1) (power_single env .mul (by decide) a x hx) rfl (op' := .mul) rfl
        (term_hom b y hy T hu.2.2)
      exact this
  | .div a b => fun e h T hu => by
      simp only [Term.build, Option.bind_eq_some_iff, Option.map_eq_some_iff] at h
      obtain ⟨x, hx, y, hy, rfl⟩ := h
      have ha := power_agrees a x hx hu.2.1
      have := hom_cons ha (ha.ty.trans hu.1) (power_single env .mul (by decide) a x hx) rfl (op' := .div) rfl
        (term_hom b y hy T hu.2.2)
      exact this
  | .one a => fun e h T hu => by
      have ha := power_agrees a e h hu.2
      exact hom_one ha (ha.ty.trans hu.1) (power_single env .mul (by decide) a e h) rfl

theorem term_agreesRest : (d : Grammar.Term F) → ∀ e, d.build env = some e → ∀ acc e₁ op, op.positive = .mul →
    Agrees O env e₁ acc → Single .mul e₁ → (Term.readRest d acc op).Uniform env →
    Agrees O env (assignBinary op e₁ e) (Term.readRest d acc op)
  | .mul a b => fun e h acc e₁ op hop h₁ hs hu => by
      simp only [Term.build, Option.bind_eq_some_iff, Option.map_eq_some_iff] at h
      obtain ⟨x, hx, y, hy, rfl⟩ := h
      have hacc := term_uniform_acc env b _ _ hu
      have hall := term_uniform env b (.bin op acc (Power.read a)) .mul rfl
        (by cases op <;> simp_all [BinOp.positive, Ast.isChain, sameLevel]) hu
      have ha := power_agrees a x hx hacc.2.1
      exact agrees_chain h₁ ha hs (power_single env .mul (by decide) a x hx) rfl hop rfl
        (term_hom b y hy _ hall) (term_ty env b _ _ hall)
  | .div a b => fun e h acc e₁ op hop h₁ hs hu => by
      simp only [Term.build, Option.bind_eq_some_iff, Option.map_eq_some_iff] at h
      obtain ⟨x, hx, y, hy, rfl⟩ := h
      have hacc := term_uniform_acc env b _ _ hu
      have hall := term_uniform env b (.bin op acc (Power.read a)) .div rfl
        (by cases op <;> simp_all [BinOp.positive, Ast.isChain, sameLevel]) hu
      have ha := power_agrees a x hx hacc.2.1
      exact agrees_chain h₁ ha hs (power_single env .mul (by decide) a x hx) rfl hop rfl
        (term_hom b y hy _ hall) (term_ty env b _ _ hall)
  | .one a => fun e h acc e₁ op hop h₁ hs hu =>
      agrees_two h₁ (power_agrees a e h hu.2.1) (single_congr (by rw [hop]; rfl) hs)
        (single_congr (op := .mul) (by rw [hop]; rfl) (power_single env .mul (by decide) a e h))

theorem power_agrees : (d : Grammar.Power F) → ∀ e, d.build env = some e → (Power.read d).Uniform env →
    Agrees O env e (Power.read d)
  | .pow a b => fun e h hu => by
      simp only [Power.build, Option.bind_eq_some_iff, Option.map_eq_some_iff] at h
      obtain ⟨x, hx, y, hy, rfl⟩ := h
      exact agrees_two (atomic_agrees a x hx hu.1) (signedAtomic_agrees b y hy hu.2.1)
        (atomic_single env _ a x hx) (signedAtomic_single env _ b y hy)
  | .one a => fun e h hu => atomic_agrees a e h hu

theorem signedAtomic_agrees : (d : Grammar.SignedAtomic F) → ∀ e, d.build env = some e →
    (SignedAtomic.read d).Uniform env → Agrees O env e (SignedAtomic.read d)
  | .plus a => fun e h hu => atomic_agrees a e h hu
  | .minus a => fun e h hu => by
      simp only [SignedAtomic.build, Option.map_eq_some_iff] at h
      obtain ⟨x, hx, rfl⟩ := h
      have ha := atomic_agrees a x hx hu
      exact ⟨ha.ty, fun σ hσ => by simp [assignUnary, Expr.eval, SignedAtomic.read, Ast.eval, negated_eq, ha.eval σ hσ]⟩
  | .one a => fun e h hu => atomic_agrees a e h hu

theorem atomic_agrees : (d : Grammar.Atomic F) → ∀ e, d.build env = some e → (Atomic.read d).Uniform env →
    Agrees O env e (Atomic.read d)
  | .paren a => fun e h hu => by
      simp only [Atomic.build, Option.map_eq_some_iff] at h
      obtain ⟨x, hx, rfl⟩ := h
      have ha := expression_agrees a x hx hu
      refine ⟨ha.ty, fun σ hσ => ?_⟩
      simp only [assignUnary, Expr.eval, Atomic.read, Ast.eval, negated_eq, ha.eval σ hσ]
      cases (Expression.read a).eval O env σ <;> rfl
  | .call n args => fun e h hu => by
      simp only [Atomic.build, Option.bind_eq_some_iff] at h
      obtain ⟨chain, hc, h⟩ := h
      rw [assignFunctionArgs_eq, List.append_nil] at h
      exact agrees_call n _ _ (exprList_agrees args chain hc hu) e h
  | .callNone n => fun e h hu => agrees_call n [] [] .nil e h
  | .lit v => fun e h hu => by
      simp only [Atomic.build, Option.some.injEq] at h
      subst h
      exact ⟨rfl, fun σ hσ => rfl⟩
  | .ident n => fun e h hu => by
      simp only [Atomic.build, Option.map_eq_some_iff] at h
      obtain ⟨⟨v, t⟩, hl, rfl⟩ := h
      refine ⟨by simp [assignUnary, Expr.ty, Atomic.read, Ast.ty, hl], fun σ hσ => ?_⟩
      simp [assignUnary, Expr.eval, Atomic.read, Ast.eval, hl, hσ n v t hl, UnOp.eval]

theorem exprList_agrees : (d : Grammar.ExprList F) → ∀ chain, d.build env = some chain →
    UniformList env (ExprList.read d) → AgreesList O env chain.reverse (ExprList.read d)
  | .snoc a b => fun chain h hu => by
      simp only [ExprList.build, Option.bind_eq_some_iff, Option.map_eq_some_iff] at h
      obtain ⟨l, hl, y, hy, rfl⟩ := h
      rw [ExprList.read, uniformList_append] at hu
      rw [List.reverse_cons, ExprList.read]
      exact List.rel_append (exprList_agrees a l hl hu.1) (.cons (expression_agrees b y hy hu.2.1) .nil)
  | .one a => fun chain h hu => by
      simp only [ExprList.build, Option.map_eq_some_iff] at h
      obtain ⟨y, hy, rfl⟩ := h
      exact .cons (expression_agrees a y hy hu.1) .nil

end

end

end Schnek.Lemma.Deck
