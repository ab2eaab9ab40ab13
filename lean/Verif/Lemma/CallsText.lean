import Verif.Spec.Calls
import Verif.Model.Grammar
import Mathlib.Data.List.Perm.Basic

/-!
# The functions of a formula are those of its text
-/

namespace Schnek.Lemma.Calls

open Schnek.Deck Schnek.Deck.Grammar Schnek.Spec

variable {F W : Type}

theorem in_append : ∀ (a b : Terms F W), functionsInTerms (a.append b) = functionsInTerms a ++ functionsInTerms b
  | .nil, b => by simp [Terms.append, functionsInTerms]
  | .cons p e es, b => by simp [Terms.append, functionsInTerms, in_append es b]

theorem in_flip : ∀ (a : Terms F W), functionsInTerms a.flipFirst = functionsInTerms a
  | .nil => by simp [Terms.flipFirst]
  | .cons p e es => by simp [Terms.flipFirst, functionsInTerms]

theorem in_asTerms (op : BinOp) (e : Expr F W) : functionsInTerms (e.asTerms op) = functionsIn e := by
  unfold Expr.asTerms
  split
  · split_ifs
    · simp [functionsIn]
    · simp [functionsInTerms, functionsIn]
  · simp [functionsInTerms]

theorem in_promote (a b : Expr F W) : functionsIn (promote a b).1 = functionsIn a ∧ functionsIn (promote a b).2 = functionsIn b := by
  unfold promote
  split <;> simp [functionsIn]

theorem in_binary (op : BinOp) (a b : Expr F W) : functionsIn (assignBinary op a b) = functionsIn a ++ functionsIn b := by
  unfold assignBinary mkBinary
  rw [functionsIn, in_append, in_asTerms, (in_promote a b).1]
  congr 1
  split_ifs
  · rw [in_asTerms, (in_promote a b).2]
  · rw [in_flip, in_asTerms, (in_promote a b).2]

theorem in_convert (t : Ty) (e : Expr F W) : functionsIn (convertArg t e) = functionsIn e := by
  unfold convertArg
  split_ifs <;> simp [functionsIn]

theorem in_makeList : ∀ (ts : List Ty) (es : List (Expr F W)) (args : Args F W), makeList ts es = some args →
    functionsInArgs args = es.flatMap functionsIn
  | [], [], args, h => by simp only [makeList, Option.some.injEq] at h; subst h; simp [functionsInArgs]
  | [], _ :: _, args, h => by simp [makeList] at h
  | _ :: _, [], args, h => by simp [makeList] at h
  | t :: ts, e :: es, args, h => by
      simp only [makeList, Option.map_eq_some_iff] at h
      obtain ⟨a, ha, rfl⟩ := h
      simp [functionsInArgs, in_convert, in_makeList ts es a ha]

theorem in_getExpression {Name : Type} (reg : Name → Option (Func F W)) (n : Name) (es : List (Expr F W)) (e : Expr F W)
    (h : getExpression reg n es = some e) : ∃ f, reg n = some f ∧ functionsIn e = es.flatMap functionsIn ++ [f] := by
  simp only [getExpression, Option.bind_eq_some_iff, Option.map_eq_some_iff] at h
  obtain ⟨f, hf, args, ha, rfl⟩ := h
  exact ⟨f, hf, by rw [functionsIn, in_makeList _ _ _ ha]⟩

theorem args_reverse (chain : List (Expr F W)) : ∀ acc, assignFunctionArgs acc chain = chain.reverse ++ acc := by
  induction chain with
  | nil => intro acc; rfl
  | cons e chain ih => intro acc; rw [assignFunctionArgs, ih]; simp

theorem called_append (x : Token F) (hx : x ≠ .lbracket) (r : List (Token F)) :
    ∀ l, calledNames (l ++ x :: r) = calledNames l ++ calledNames (x :: r)
  | [] => by simp [calledNames]
  | [a] => by
      cases a <;> cases x <;> simp_all [calledNames]
  | a :: b :: l => by
      have := called_append x hx r (b :: l)
      simp only [List.cons_append] at this ⊢
      cases a <;> cases b <;> simp_all [calledNames]

/-- the functions are those of the text -/
def Same (env : Env F W) (fs : List (Func F W)) (l : List (Token F)) : Prop := (fs.map some).Perm ((calledNames l).map env.func)

variable (env : Env F W)

theorem same_infix {a b : List (Func F W)} {l r : List (Token F)} (x : Token F) (hx : x ≠ .lbracket) (hx' : ∀ n, x ≠ .ident n)
    (ha : Same env a l) (hb : Same env b r) : Same env (a ++ b) (l ++ x :: r) := by
  have : calledNames (x :: r) = calledNames r := by
    cases x <;> simp_all [calledNames]
  unfold Same
  rw [called_append x hx, this, List.map_append, List.map_append]
  exact List.Perm.append ha hb

theorem same_prefix {a : List (Func F W)} {l : List (Token F)} (x : Token F) (hx' : ∀ n, x ≠ .ident n)
    (ha : Same env a l) : Same env a (x :: l) := by
  have : calledNames (x :: l) = calledNames l := by
    cases x <;> simp_all [calledNames]
  unfold Same
  rw [this]
  exact ha

theorem same_bracket {a : List (Func F W)} {l : List (Token F)} (ha : Same env a l) : Same env a (l ++ [.rbracket]) := by
  have := same_infix env (b := []) (r := []) .rbracket (by simp) (by simp) ha (by simp [Same, calledNames])
  simpa using this

theorem same_binary (op : BinOp) (x : Token F) (hx : x ≠ .lbracket) (hx' : ∀ n, x ≠ .ident n) {a b : Option (Expr F W)}
    {l r : List (Token F)} {e : Expr F W} (ha : ∀ e, a = some e → Same env (functionsIn e) l)
    (hb : ∀ e, b = some e → Same env (functionsIn e) r) (h : (a.bind fun x => b.map fun y => assignBinary op x y) = some e) :
    Same env (functionsIn e) (l ++ x :: r) := by
  simp only [Option.bind_eq_some_iff, Option.map_eq_some_iff] at h
  obtain ⟨u, hu, v, hv, rfl⟩ := h
  rw [in_binary]
  exact same_infix env x hx hx' (ha u hu) (hb v hv)

theorem same_unary (op : UnOp) {a : Option (Expr F W)} {l : List (Token F)} {e : Expr F W}
    (ha : ∀ e, a = some e → Same env (functionsIn e) l) (h : a.map (assignUnary op) = some e) : Same env (functionsIn e) l := by
  simp only [Option.map_eq_some_iff] at h
  obtain ⟨u, hu, rfl⟩ := h
  rw [assignUnary, functionsIn]
  exact ha u hu

mutual

theorem same_expression : (a : Expression F) → ∀ e, a.build env = some e → Same env (functionsIn e) a.tokens
  | .add a b => fun e h => by
      unfold Expression.build at h; unfold Expression.tokens
      exact same_binary env .add .plus (by simp) (by simp) (same_signedTerm a) (same_unsigned b) h
  | .sub a b => fun e h => by
      unfold Expression.build at h; unfold Expression.tokens
      exact same_binary env .sub .minus (by simp) (by simp) (same_signedTerm a) (same_unsigned b) h
  | .one a => fun e h => by unfold Expression.build at h; unfold Expression.tokens; exact same_signedTerm a e h

theorem same_unsigned : (a : Unsigned F) → ∀ e, a.build env = some e → Same env (functionsIn e) a.tokens
  | .add a b => fun e h => by
      unfold Unsigned.build at h; unfold Unsigned.tokens
      exact same_binary env .add .plus (by simp) (by simp) (same_term a) (same_unsigned b) h
  | .sub a b => fun e h => by
      unfold Unsigned.build at h; unfold Unsigned.tokens
      exact same_binary env .sub .minus (by simp) (by simp) (same_term a) (same_unsigned b) h
  | .one a => fun e h => by unfold Unsigned.build at h; unfold Unsigned.tokens; exact same_term a e h

theorem same_signedTerm : (a : SignedTerm F) → ∀ e, a.build env = some e → Same env (functionsIn e) a.tokens
  | .plus a => fun e h => by
      unfold SignedTerm.build at h; unfold SignedTerm.tokens
      exact same_prefix env .plus (by simp) (same_term a e h)
  | .minus a => fun e h => by
      unfold SignedTerm.build at h; unfold SignedTerm.tokens
      exact same_prefix env .minus (by simp) (same_unary env .neg (same_term a) h)
  | .one a => fun e h => by unfold SignedTerm.build at h; unfold SignedTerm.tokens; exact same_term a e h

theorem same_term : (a : Term F) → ∀ e, a.build env = some e → Same env (functionsIn e) a.tokens
  | .mul a b => fun e h => by
      unfold Term.build at h; unfold Term.tokens
      exact same_binary env .mul .times (by simp) (by simp) (same_power a) (same_term b) h
  | .div a b => fun e h => by
      unfold Term.build at h; unfold Term.tokens
      exact same_binary env .div .divide (by simp) (by simp) (same_power a) (same_term b) h
  | .one a => fun e h => by unfold Term.build at h; unfold Term.tokens; exact same_power a e h

theorem same_power : (a : Power F) → ∀ e, a.build env = some e → Same env (functionsIn e) a.tokens
  | .pow a b => fun e h => by
      unfold Power.build at h; unfold Power.tokens
      exact same_binary env .pow .exponent (by simp) (by simp) (same_atomic a) (same_signedAtomic b) h
  | .one a => fun e h => by unfold Power.build at h; unfold Power.tokens; exact same_atomic a e h

theorem same_signedAtomic : (a : SignedAtomic F) → ∀ e, a.build env = some e → Same env (functionsIn e) a.tokens
  | .plus a => fun e h => by
      unfold SignedAtomic.build at h; unfold SignedAtomic.tokens
      exact same_prefix env .plus (by simp) (same_atomic a e h)
  | .minus a => fun e h => by
      unfold SignedAtomic.build at h; unfold SignedAtomic.tokens
      exact same_prefix env .minus (by simp) (same_unary env .neg (same_atomic a) h)
  | .one a => fun e h => by unfold SignedAtomic.build at h; unfold SignedAtomic.tokens; exact same_atomic a e h

theorem same_atomic : (a : Atomic F) → ∀ e, a.build env = some e → Same env (functionsIn e) a.tokens
  | .paren a => fun e h => by
      unfold Atomic.build at h; unfold Atomic.tokens
      exact same_prefix env .lbracket (by simp) (same_bracket env (same_unary env .id (same_expression a) h))
  | .call n args => fun e h => by
      unfold Atomic.build at h; unfold Atomic.tokens
      simp only [Option.bind_eq_some_iff] at h
      obtain ⟨chain, hc, h⟩ := h
      obtain ⟨f, hf, he⟩ := in_getExpression _ _ _ _ h
      have := same_bracket env (same_list args chain hc)
      rw [he, args_reverse, List.append_nil]
      unfold Same at this ⊢
      rw [calledNames, List.map_append, List.map_cons (f := env.func), hf]
      exact (List.perm_append_comm).trans (List.Perm.cons _ this)
  | .callNone n => fun e h => by
      unfold Atomic.build at h; unfold Atomic.tokens
      obtain ⟨f, hf, he⟩ := in_getExpression _ _ _ _ h
      rw [he]
      simp [Same, calledNames, hf]
  | .lit v => fun e h => by
      unfold Atomic.build at h; unfold Atomic.tokens
      simp only [Option.some.injEq] at h
      subst h
      simp [Same, calledNames, assignUnary, functionsIn]
  | .ident n => fun e h => by
      unfold Atomic.build at h; unfold Atomic.tokens
      simp only [Option.map_eq_some_iff] at h
      obtain ⟨p, -, rfl⟩ := h
      simp [Same, calledNames, assignUnary, functionsIn]

theorem same_list : (a : ExprList F) → ∀ l, a.build env = some l → Same env (l.reverse.flatMap functionsIn) a.tokens
  | .snoc a b => fun l h => by
      unfold ExprList.build at h; unfold ExprList.tokens
      simp only [Option.bind_eq_some_iff, Option.map_eq_some_iff] at h
      obtain ⟨l₁, h₁, y, hy, rfl⟩ := h
      rw [List.reverse_cons, List.flatMap_append]
      refine same_infix env .comma (by simp) (by simp) (same_list a l₁ h₁) ?_
      simpa using same_expression b y hy
  | .one a => fun l h => by
      unfold ExprList.build at h; unfold ExprList.tokens
      simp only [Option.map_eq_some_iff] at h
      obtain ⟨y, hy, rfl⟩ := h
      simpa using same_expression a y hy

end

end Schnek.Lemma.Calls
