import Verif.Spec.DeckText
import Verif.Lemma.LemonExamples

/-!
# The actions of the parser do what the statements say
-/

namespace Schnek.Lemma.DeckText

open Schnek.Lemon Schnek.Spec Schnek.Deck
open Scanner (Kind Tok)

variable {F W : Type}

/-- the values of the parser -/
abbrev PT (F W : Type) := ParserToken F W

/-- a token on its way to the parser -/
def leafOf (t : Tok) : Kind × PT F W := (t.kind, ParserToken.atom t)

/-! ## evaluating derivations piece by piece -/

section

variable {V S A B : Type}

/-- one step after the other -/
def bindO (o : Option A × S) (f : A → S → Option B × S) : Option B × S :=
  match o with
  | (none, s) => (none, s)
  | (some a, s) => f a s

@[simp] theorem bindO_none (s : S) (f : A → S → Option B × S) : bindO (none, s) f = (none, s) := rfl

@[simp] theorem bindO_some (a : A) (s : S) (f : A → S → Option B × S) : bindO (some a, s) f = f a s := rfl

/-- a node alone -/
def nodeEval (act : Actions V S) (r : Fin 48) (k : Forest V) (s : S) : Option V × S := bindO (k.eval act s) (act r)

theorem nodeEval_eq (act : Actions V S) (r : Fin 48) (k : Forest V) (s : S) : nodeEval act r k s = bindO (k.eval act s) (act r) := rfl

theorem eval_nil (act : Actions V S) (s : S) : (Forest.nil : Forest V).eval act s = (some [], s) := rfl

theorem eval_tok (act : Actions V S) (k : Kind) (v : V) (rest : Forest V) (s : S) :
    (Forest.tok k v rest).eval act s = bindO (rest.eval act s) fun vs s' => (some (v :: vs), s') := by
  simp only [Forest.eval, bindO]
  rcases rest.eval act s with ⟨_ | vs, s'⟩ <;> rfl

theorem eval_node (act : Actions V S) (r : Fin 48) (k rest : Forest V) (s : S) :
    (Forest.node r k rest).eval act s =
      bindO (nodeEval act r k s) fun v s' => bindO (rest.eval act s') fun vs s'' => (some (v :: vs), s'') := by
  simp only [Forest.eval, nodeEval, bindO]
  rcases k.eval act s with ⟨_ | ws, s'⟩
  · rfl
  · simp only
    rcases act r ws s' with ⟨_ | v, s2⟩
    · rfl
    · simp only
      rcases rest.eval act s2 with ⟨_ | vs, s3⟩ <;> rfl

end

/-- a node for `N` with these tokens -/
structure Node (N : NT) (T : List Tok) (r : Fin 48) (k : Forest (PT F W)) : Prop where
  lhs : Spec.lhs r = N
  rhs : k.syms = Spec.rhs r
  valid : k.Valid
  yield : k.yield = T.map leafOf

/-- value of an expression -/
def mkE (kd : Option Kind) (tx : String) (x : Expr F W) : PT F W := ⟨⟨kd, tx, .expression, some x⟩, []⟩

/-- The tokens are derived from `N`, and evaluating the derivation gives the expression made by `b`, or an exception. -/
def ExprEx (H : Host F W) (N : NT) (T : List Tok) (b : Grammar.Env F W → Option (Expr F W)) : Prop :=
  ∃ r k, Node (F := F) (W := W) N T r k ∧ ∀ D, ∃ kd tx, nodeEval (deckAct H) r k D = ((b (D.env H)).map (mkE kd tx), D)

/-- The same for a list of expressions. -/
def ListEx (H : Host F W) (T : List Tok) (b : Grammar.Env F W → Option (List (Expr F W))) : Prop :=
  ∃ r k, Node (F := F) (W := W) .exprList T r k ∧ ∀ D, match b (D.env H) with
    | none => nodeEval (deckAct H) r k D = (none, D)
    | some l => ∃ p, nodeEval (deckAct H) r k D = (some p, D) ∧ ParserToken.datas (p.head :: p.chain) = some l

/-! ## rules by the shape of the right hand side -/

theorem ex_copy {H : Host F W} {N N1 : NT} {T : List Tok} {b : Grammar.Env F W → Option (Expr F W)} (r : Fin 48)
    (hl : lhs r = N) (hr : rhs r = [.n N1]) (ha : ∀ D a, deckAct H r [a] D = (some a, D)) (h : ExprEx H N1 T b) : ExprEx H N T b := by
  obtain ⟨r1, k1, ⟨h1, h2, h3, h4⟩, h5⟩ := h
  refine ⟨r, .node r1 k1 .nil, ⟨hl, by rw [hr, ← h1]; rfl, ⟨h2, h3, trivial⟩, by simpa [Forest.yield] using h4⟩, fun D => ?_⟩
  obtain ⟨kd, tx, h6⟩ := h5 D
  refine ⟨kd, tx, ?_⟩
  beta_reduce
  rw [nodeEval_eq, eval_node, h6]
  rcases b (D.env H) with _ | x
  · rfl
  · simp only [Option.map_some, bindO_some, eval_nil, ha]

theorem ex_plus {H : Host F W} {N N1 : NT} {T : List Tok} {b : Grammar.Env F W → Option (Expr F W)} (r : Fin 48) (t : Tok)
    (hl : lhs r = N) (hr : rhs r = [.t t.kind, .n N1]) (ha : ∀ D p a, deckAct H r [p, a] D = (some a, D)) (h : ExprEx H N1 T b) :
    ExprEx H N (t :: T) b := by
  obtain ⟨r1, k1, ⟨h1, h2, h3, h4⟩, h5⟩ := h
  refine ⟨r, .tok t.kind (ParserToken.atom t) (.node r1 k1 .nil), ⟨hl, by rw [hr, ← h1]; rfl, ⟨h2, h3, trivial⟩, by
    simp [Forest.yield, h4, leafOf]⟩, fun D => ?_⟩
  obtain ⟨kd, tx, h6⟩ := h5 D
  refine ⟨kd, tx, ?_⟩
  beta_reduce
  rw [nodeEval_eq, eval_tok, eval_node, h6]
  rcases b (D.env H) with _ | x
  · rfl
  · simp only [Option.map_some, bindO_some, eval_nil, ha]

theorem ex_minus {H : Host F W} {N N1 : NT} {T : List Tok} {b : Grammar.Env F W → Option (Expr F W)} (r : Fin 48) (t : Tok)
    (hl : lhs r = N) (hr : rhs r = [.t t.kind, .n N1])
    (ha : ∀ D p a, deckAct H r [p, a] D = (ParserToken.assignUnaryOperator .neg a, D)) (h : ExprEx H N1 T b) :
    ExprEx H N (t :: T) fun env => (b env).map (assignUnary .neg) := by
  obtain ⟨r1, k1, ⟨h1, h2, h3, h4⟩, h5⟩ := h
  refine ⟨r, .tok t.kind (ParserToken.atom t) (.node r1 k1 .nil), ⟨hl, by rw [hr, ← h1]; rfl, ⟨h2, h3, trivial⟩, by
    simp [Forest.yield, h4, leafOf]⟩, fun D => ?_⟩
  obtain ⟨kd, tx, h6⟩ := h5 D
  refine ⟨kd, tx, ?_⟩
  beta_reduce
  rw [nodeEval_eq, eval_tok, eval_node, h6]
  rcases b (D.env H) with _ | x
  · rfl
  · simp only [Option.map_some, bindO_some, eval_nil, ha]
    rfl

theorem ex_binary {H : Host F W} {N N1 N2 : NT} {T1 T2 : List Tok} {b1 b2 : Grammar.Env F W → Option (Expr F W)} (op : BinOp) (r : Fin 48)
    (t : Tok) (hl : lhs r = N) (hr : rhs r = [.n N1, .t t.kind, .n N2])
    (ha : ∀ D a p b, deckAct H r [a, p, b] D = (ParserToken.assignBinaryOperator op a b, D)) (h : ExprEx H N1 T1 b1) (h' : ExprEx H N2 T2 b2) :
    ExprEx H N (T1 ++ t :: T2) fun env => (b1 env).bind fun x => (b2 env).map fun y => assignBinary op x y := by
  obtain ⟨r1, k1, ⟨h1, h2, h3, h4⟩, h5⟩ := h
  obtain ⟨r2, k2, ⟨h1', h2', h3', h4'⟩, h5'⟩ := h'
  refine ⟨r, .node r1 k1 (.tok t.kind (ParserToken.atom t) (.node r2 k2 .nil)), ⟨hl, by rw [hr, ← h1, ← h1']; rfl,
    ⟨h2, h3, h2', h3', trivial⟩, by simp [Forest.yield, h4, h4', leafOf]⟩, fun D => ?_⟩
  obtain ⟨kd, tx, h6⟩ := h5 D
  refine ⟨kd, tx, ?_⟩
  beta_reduce
  rw [nodeEval_eq, eval_node, h6]
  rcases b1 (D.env H) with _ | x
  · rfl
  · obtain ⟨kd2, tx2, h6'⟩ := h5' D
    rw [Option.map_some, bindO_some, eval_tok, eval_node, h6']
    rcases b2 (D.env H) with _ | y
    · rfl
    · simp only [Option.map_some, bindO_some, eval_nil, ha]
      rfl

theorem ex_paren {H : Host F W} {T : List Tok} {b : Grammar.Env F W → Option (Expr F W)} (t t' : Tok)
    (ht : t.kind = .lbracket) (ht' : t'.kind = .rbracket) (h : ExprEx H .expression T b) :
    ExprEx H .atomic (t :: (T ++ [t'])) fun env => (b env).map (assignUnary .id) := by
  obtain ⟨r1, k1, ⟨h1, h2, h3, h4⟩, h5⟩ := h
  refine ⟨34, .tok t.kind (ParserToken.atom t) (.node r1 k1 (.tok t'.kind (ParserToken.atom t') .nil)), ⟨rfl,
    by rw [ht, ht']; show _ :: Sym.n (lhs r1) :: _ = _; rw [h1]; rfl, ⟨h2, h3, trivial⟩, by simp [Forest.yield, h4, leafOf]⟩, fun D => ?_⟩
  obtain ⟨kd, tx, h6⟩ := h5 D
  refine ⟨kd, tx, ?_⟩
  beta_reduce
  rw [nodeEval_eq, eval_tok, eval_node, h6]
  rcases b (D.env H) with _ | x
  · rfl
  · simp only [Option.map_some, bindO_some, eval_nil, eval_tok]
    rfl

theorem ex_call {H : Host F W} {T : List Tok} {b : Grammar.Env F W → Option (List (Expr F W))} (t t1 t2 : Tok)
    (ht : t.kind = .identifier) (ht1 : t1.kind = .lbracket) (ht2 : t2.kind = .rbracket) (h : ListEx H T b) :
    ExprEx H .atomic (t :: t1 :: (T ++ [t2])) fun env => (b env).bind fun chain =>
      getExpression env.func (textOf t.text) (Grammar.assignFunctionArgs [] chain) := by
  obtain ⟨r1, k1, ⟨h1, h2, h3, h4⟩, h5⟩ := h
  refine ⟨35, .tok t.kind (ParserToken.atom t) (.tok t1.kind (ParserToken.atom t1) (.node r1 k1 (.tok t2.kind (ParserToken.atom t2) .nil))),
    ⟨rfl, by rw [ht, ht1, ht2]; show _ :: _ :: Sym.n (lhs r1) :: _ = _; rw [h1]; rfl, ⟨h2, h3, trivial⟩, by
      simp [Forest.yield, h4, leafOf]⟩, fun D => ?_⟩
  have h6 := h5 D
  beta_reduce
  revert h6
  rcases b (D.env H) with _ | l <;> intro h6
  · refine ⟨none, "", ?_⟩
    simp only at h6
    rw [nodeEval_eq, eval_tok, eval_tok, eval_node, h6]
    rfl
  · obtain ⟨p, hp, hl⟩ := h6
    refine ⟨p.head.kind, p.head.text, ?_⟩
    rw [nodeEval_eq, eval_tok, eval_tok, eval_node, hp]
    simp only [bindO_some, eval_nil, eval_tok]
    show (ParserToken.assignFunction H _ p, D) = _
    unfold ParserToken.assignFunction
    rw [hl]
    rfl

theorem ex_callNone {H : Host F W} (t t1 t2 : Tok)
    (ht : t.kind = .identifier) (ht1 : t1.kind = .lbracket) (ht2 : t2.kind = .rbracket) :
    ExprEx H .atomic [t, t1, t2] fun env => getExpression env.func (textOf t.text) [] := by
  refine ⟨36, .tok t.kind (ParserToken.atom t) (.tok t1.kind (ParserToken.atom t1) (.tok t2.kind (ParserToken.atom t2) .nil)),
    ⟨rfl, by rw [ht, ht1, ht2]; rfl, trivial, rfl⟩, fun D => ⟨some t.kind, textOf t.text, ?_⟩⟩
  rw [nodeEval_eq, eval_tok, eval_tok, eval_tok]
  rfl

/-- rule 37: a value -/
theorem ex_value {H : Host F W} {t : Tok} {b : Grammar.Env F W → Option (Expr F W)} (r : Fin 48) (hl : lhs r = .value) (hr : rhs r = [.t t.kind])
    (ha : ∀ D, ∃ f : Expr F W → PT F W, (∀ x, (f x).head.data = some x) ∧
      deckAct H r [ParserToken.atom t] D = ((b (D.env H)).map f, D)) :
    ExprEx H .atomic [t] fun env => (b env).map (assignUnary .id) := by
  refine ⟨37, .node r (.tok t.kind (ParserToken.atom t) .nil) .nil, ⟨rfl, by show [Sym.n (lhs r)] = _; rw [hl]; rfl,
    ⟨by rw [hr]; rfl, trivial, trivial⟩, rfl⟩, fun D => ?_⟩
  obtain ⟨f, hf, hD⟩ := ha D
  rw [nodeEval_eq, eval_node, nodeEval_eq, eval_tok, eval_nil, bindO_some, bindO_some, hD]
  beta_reduce
  rcases b (D.env H) with _ | x
  · exact ⟨none, "", rfl⟩
  · refine ⟨(f x).head.kind, (f x).head.text, ?_⟩
    simp only [Option.map_some, bindO_some, eval_nil]
    show (ParserToken.assignUnaryOperator .id (f x), D) = _
    unfold ParserToken.assignUnaryOperator
    rw [hf]
    rfl

theorem list_one {H : Host F W} {T : List Tok} {b : Grammar.Env F W → Option (Expr F W)} (h : ExprEx H .expression T b) :
    ListEx H T fun env => (b env).map fun y => [y] := by
  obtain ⟨r1, k1, ⟨h1, h2, h3, h4⟩, h5⟩ := h
  refine ⟨39, .node r1 k1 .nil, ⟨rfl, by show [Sym.n (lhs r1)] = _; rw [h1]; rfl, ⟨h2, h3, trivial⟩, by simpa [Forest.yield] using h4⟩,
    fun D => ?_⟩
  obtain ⟨kd, tx, h6⟩ := h5 D
  rw [nodeEval_eq, eval_node, h6]
  beta_reduce
  rcases b (D.env H) with _ | x
  · rfl
  · exact ⟨_, rfl, rfl⟩

theorem list_snoc {H : Host F W} {T1 T2 : List Tok} {b1 : Grammar.Env F W → Option (List (Expr F W))}
    {b2 : Grammar.Env F W → Option (Expr F W)} (t : Tok) (ht : t.kind = .comma) (h : ListEx H T1 b1) (h' : ExprEx H .expression T2 b2) :
    ListEx H (T1 ++ t :: T2) fun env => (b1 env).bind fun l => (b2 env).map fun y => y :: l := by
  obtain ⟨r1, k1, ⟨h1, h2, h3, h4⟩, h5⟩ := h
  obtain ⟨r2, k2, ⟨h1', h2', h3', h4'⟩, h5'⟩ := h'
  refine ⟨38, .node r1 k1 (.tok t.kind (ParserToken.atom t) (.node r2 k2 .nil)), ⟨rfl, by
    rw [ht]; show [Sym.n (lhs r1), _, Sym.n (lhs r2)] = _; rw [h1, h1']; rfl,
    ⟨h2, h3, h2', h3', trivial⟩, by simp [Forest.yield, h4, h4', leafOf]⟩, fun D => ?_⟩
  have h6 := h5 D
  obtain ⟨kd, tx, h7⟩ := h5' D
  beta_reduce
  revert h6
  rcases b1 (D.env H) with _ | l <;> intro h6
  · simp only at h6
    rw [nodeEval_eq, eval_node, h6]
    rfl
  · obtain ⟨p, hp, hl⟩ := h6
    rw [nodeEval_eq, eval_node, hp, bindO_some, eval_tok, eval_node, h7]
    rcases b2 (D.env H) with _ | x
    · rfl
    · refine ⟨(mkE kd tx x).append p, rfl, ?_⟩
      show (ParserToken.datas (p.head :: p.chain)).map _ = _
      rw [hl]
      rfl

/-! ## tokens and their meaning -/

section

variable {O : FloatOps F}

theorem kind_of_meaning {t : Tok} {d : DeckToken F} (h : meaning O t = some d) :
    match d with
    | .expr .plus => t.kind = .plus
    | .expr .minus => t.kind = .minus
    | .expr .times => t.kind = .times
    | .expr .divide => t.kind = .divide
    | .expr .exponent => t.kind = .exponent
    | .expr .lbracket => t.kind = .lbracket
    | .expr .rbracket => t.kind = .rbracket
    | .expr .comma => t.kind = .comma
    | .expr (.ident n) => t.kind = .identifier ∧ textOf t.text = n
    | .expr (.lit (.int i)) => t.kind = .integer ∧ O.readInt (textOf t.text) = some i
    | .expr (.lit (.float x)) => t.kind = .float ∧ O.readFloat (textOf t.text) = some x
    | .expr (.lit (.str s)) => t.kind = .string ∧ textOf t.text = s
    | .equal => t.kind = .equal
    | .semicolon => t.kind = .semicolon
    | .lbrace => t.kind = .lbrace
    | .rbrace => t.kind = .rbrace
    | .type .int => t.kind = .intDecl
    | .type .float => t.kind = .floatDecl
    | .type .str => t.kind = .stringDecl := by
  obtain ⟨line, kind, text⟩ := t
  cases kind <;> simp only [meaning, Option.some.injEq, reduceCtorEq, Option.map_eq_some_iff] at h <;>
    (try subst h) <;> (try (obtain ⟨i, hi, rfl⟩ := h)) <;> simp_all

/-- The tokens stand for these. -/
def Means (O : FloatOps F) (T : List Tok) (ts : List (DeckToken F)) : Prop := T.map (meaning O) = ts.map some

theorem means_append {T : List Tok} {a b : List (DeckToken F)} (h : Means O T (a ++ b)) :
    ∃ T1 T2, T = T1 ++ T2 ∧ Means O T1 a ∧ Means O T2 b := by
  unfold Means at h
  rw [List.map_append, List.map_eq_append_iff] at h
  obtain ⟨T1, T2, h1, h2, h3⟩ := h
  exact ⟨T1, T2, h1, h2, h3⟩

theorem means_cons {T : List Tok} {a : DeckToken F} {b : List (DeckToken F)} (h : Means O T (a :: b)) :
    ∃ t T2, T = t :: T2 ∧ meaning O t = some a ∧ Means O T2 b := by
  unfold Means at h
  rw [List.map_cons, List.map_eq_cons_iff] at h
  obtain ⟨t, T2, h1, h2, h3⟩ := h
  exact ⟨t, T2, h1, h2, h3⟩

theorem means_nil {T : List Tok} (h : Means O T []) : T = [] := by
  unfold Means at h
  simpa using h

end

/-! ## expressions -/

open Grammar

mutual

theorem ex_expression (H : Host F W) : ∀ (e : Grammar.Expression F) (T : List Tok), Means H.ops T (e.tokens.map .expr) →
    ExprEx H .expression T e.build
  | .add a b, T, h => by
    simp only [Expression.tokens, List.map_append, List.map_cons] at h
    obtain ⟨T1, T2, rfl, ha, hb⟩ := means_append h
    obtain ⟨t, T2, rfl, ht, hb⟩ := means_cons hb
    have hk := kind_of_meaning ht
    exact ex_binary .add 17 t rfl (by rw [hk]; rfl) (fun _ _ _ _ => rfl) (ex_signedTerm H a T1 ha) (ex_unsigned H b T2 hb)
  | .sub a b, T, h => by
    simp only [Expression.tokens, List.map_append, List.map_cons] at h
    obtain ⟨T1, T2, rfl, ha, hb⟩ := means_append h
    obtain ⟨t, T2, rfl, ht, hb⟩ := means_cons hb
    have hk := kind_of_meaning ht
    exact ex_binary .sub 18 t rfl (by rw [hk]; rfl) (fun _ _ _ _ => rfl) (ex_signedTerm H a T1 ha) (ex_unsigned H b T2 hb)
  | .one a, T, h => ex_copy 19 rfl rfl (fun _ _ => rfl) (ex_signedTerm H a T h)

theorem ex_unsigned (H : Host F W) : ∀ (e : Grammar.Unsigned F) (T : List Tok), Means H.ops T (e.tokens.map .expr) →
    ExprEx H .unsignedExpr T e.build
  | .add a b, T, h => by
    simp only [Unsigned.tokens, List.map_append, List.map_cons] at h
    obtain ⟨T1, T2, rfl, ha, hb⟩ := means_append h
    obtain ⟨t, T2, rfl, ht, hb⟩ := means_cons hb
    have hk := kind_of_meaning ht
    exact ex_binary .add 20 t rfl (by rw [hk]; rfl) (fun _ _ _ _ => rfl) (ex_term H a T1 ha) (ex_unsigned H b T2 hb)
  | .sub a b, T, h => by
    simp only [Unsigned.tokens, List.map_append, List.map_cons] at h
    obtain ⟨T1, T2, rfl, ha, hb⟩ := means_append h
    obtain ⟨t, T2, rfl, ht, hb⟩ := means_cons hb
    have hk := kind_of_meaning ht
    exact ex_binary .sub 21 t rfl (by rw [hk]; rfl) (fun _ _ _ _ => rfl) (ex_term H a T1 ha) (ex_unsigned H b T2 hb)
  | .one a, T, h => ex_copy 22 rfl rfl (fun _ _ => rfl) (ex_term H a T h)

theorem ex_signedTerm (H : Host F W) : ∀ (e : Grammar.SignedTerm F) (T : List Tok), Means H.ops T (e.tokens.map .expr) →
    ExprEx H .signedTerm T e.build
  | .plus a, T, h => by
    simp only [SignedTerm.tokens, List.map_cons] at h
    obtain ⟨t, T2, rfl, ht, hb⟩ := means_cons h
    have hk := kind_of_meaning ht
    exact ex_plus 23 t rfl (by rw [hk]; rfl) (fun _ _ _ => rfl) (ex_term H a T2 hb)
  | .minus a, T, h => by
    simp only [SignedTerm.tokens, List.map_cons] at h
    obtain ⟨t, T2, rfl, ht, hb⟩ := means_cons h
    have hk := kind_of_meaning ht
    exact ex_minus 24 t rfl (by rw [hk]; rfl) (fun _ _ _ => rfl) (ex_term H a T2 hb)
  | .one a, T, h => ex_copy 25 rfl rfl (fun _ _ => rfl) (ex_term H a T h)

theorem ex_term (H : Host F W) : ∀ (e : Grammar.Term F) (T : List Tok), Means H.ops T (e.tokens.map .expr) →
    ExprEx H .term T e.build
  | .mul a b, T, h => by
    simp only [Term.tokens, List.map_append, List.map_cons] at h
    obtain ⟨T1, T2, rfl, ha, hb⟩ := means_append h
    obtain ⟨t, T2, rfl, ht, hb⟩ := means_cons hb
    have hk := kind_of_meaning ht
    exact ex_binary .mul 26 t rfl (by rw [hk]; rfl) (fun _ _ _ _ => rfl) (ex_power H a T1 ha) (ex_term H b T2 hb)
  | .div a b, T, h => by
    simp only [Term.tokens, List.map_append, List.map_cons] at h
    obtain ⟨T1, T2, rfl, ha, hb⟩ := means_append h
    obtain ⟨t, T2, rfl, ht, hb⟩ := means_cons hb
    have hk := kind_of_meaning ht
    exact ex_binary .div 27 t rfl (by rw [hk]; rfl) (fun _ _ _ _ => rfl) (ex_power H a T1 ha) (ex_term H b T2 hb)
  | .one a, T, h => ex_copy 28 rfl rfl (fun _ _ => rfl) (ex_power H a T h)

theorem ex_power (H : Host F W) : ∀ (e : Grammar.Power F) (T : List Tok), Means H.ops T (e.tokens.map .expr) →
    ExprEx H .power T e.build
  | .pow a b, T, h => by
    simp only [Power.tokens, List.map_append, List.map_cons] at h
    obtain ⟨T1, T2, rfl, ha, hb⟩ := means_append h
    obtain ⟨t, T2, rfl, ht, hb⟩ := means_cons hb
    have hk := kind_of_meaning ht
    exact ex_binary .pow 29 t rfl (by rw [hk]; rfl) (fun _ _ _ _ => rfl) (ex_atomic H a T1 ha) (ex_signedAtomic H b T2 hb)
  | .one a, T, h => ex_copy 30 rfl rfl (fun _ _ => rfl) (ex_atomic H a T h)

theorem ex_signedAtomic (H : Host F W) : ∀ (e : Grammar.SignedAtomic F) (T : List Tok), Means H.ops T (e.tokens.map .expr) →
    ExprEx H .signedAtomic T e.build
  | .plus a, T, h => by
    simp only [SignedAtomic.tokens, List.map_cons] at h
    obtain ⟨t, T2, rfl, ht, hb⟩ := means_cons h
    have hk := kind_of_meaning ht
    exact ex_plus 31 t rfl (by rw [hk]; rfl) (fun _ _ _ => rfl) (ex_atomic H a T2 hb)
  | .minus a, T, h => by
    simp only [SignedAtomic.tokens, List.map_cons] at h
    obtain ⟨t, T2, rfl, ht, hb⟩ := means_cons h
    have hk := kind_of_meaning ht
    exact ex_minus 32 t rfl (by rw [hk]; rfl) (fun _ _ _ => rfl) (ex_atomic H a T2 hb)
  | .one a, T, h => ex_copy 33 rfl rfl (fun _ _ => rfl) (ex_atomic H a T h)

theorem ex_atomic (H : Host F W) : ∀ (e : Grammar.Atomic F) (T : List Tok), Means H.ops T (e.tokens.map .expr) →
    ExprEx H .atomic T e.build
  | .paren a, T, h => by
    simp only [Atomic.tokens, List.map_append, List.map_cons, List.map_nil] at h
    obtain ⟨t, T2, rfl, ht, h⟩ := means_cons h
    obtain ⟨T1, T2, rfl, ha, h⟩ := means_append h
    obtain ⟨t', T2, rfl, ht', h⟩ := means_cons h
    obtain rfl := means_nil h
    exact ex_paren t t' (kind_of_meaning ht) (kind_of_meaning ht') (ex_expression H a T1 ha)
  | .call n args, T, h => by
    simp only [Atomic.tokens, List.map_append, List.map_cons, List.map_nil] at h
    obtain ⟨t, T2, rfl, ht, h⟩ := means_cons h
    obtain ⟨t1, T2, rfl, ht1, h⟩ := means_cons h
    obtain ⟨T1, T2, rfl, ha, h⟩ := means_append h
    obtain ⟨t2, T2, rfl, ht2, h⟩ := means_cons h
    obtain rfl := means_nil h
    obtain ⟨hk, rfl⟩ := kind_of_meaning ht
    exact ex_call t t1 t2 hk (kind_of_meaning ht1) (kind_of_meaning ht2) (ex_list H args T1 ha)
  | .callNone n, T, h => by
    simp only [Atomic.tokens, List.map_cons, List.map_nil] at h
    obtain ⟨t, T2, rfl, ht, h⟩ := means_cons h
    obtain ⟨t1, T2, rfl, ht1, h⟩ := means_cons h
    obtain ⟨t2, T2, rfl, ht2, h⟩ := means_cons h
    obtain rfl := means_nil h
    obtain ⟨hk, rfl⟩ := kind_of_meaning ht
    exact ex_callNone t t1 t2 hk (kind_of_meaning ht1) (kind_of_meaning ht2)
  | .lit v, T, h => by
    simp only [Atomic.tokens, List.map_cons, List.map_nil] at h
    obtain ⟨t, T2, rfl, ht, h⟩ := means_cons h
    obtain rfl := means_nil h
    have hk := kind_of_meaning ht
    cases v with
    | int i =>
      refine ex_value (b := fun _ => some (.value (.int i))) 42 rfl (by rw [hk.1]; rfl) fun D =>
        ⟨fun x => ⟨⟨some t.kind, textOf t.text, .intType, some x⟩, []⟩, fun _ => rfl, ?_⟩
      show (ParserToken.assignInteger H (ParserToken.atom t), D) = _
      unfold ParserToken.assignInteger
      rw [if_neg (by simp [ParserToken.atom, hk.1])]
      show (Option.map _ (H.ops.readInt (textOf t.text)), D) = _
      rw [hk.2]
      rfl
    | float x =>
      refine ex_value (b := fun _ => some (.value (.float x))) 43 rfl (by rw [hk.1]; rfl) fun D =>
        ⟨fun x => ⟨⟨some t.kind, textOf t.text, .floatType, some x⟩, []⟩, fun _ => rfl, ?_⟩
      show (ParserToken.assignFloat H (ParserToken.atom t), D) = _
      unfold ParserToken.assignFloat
      rw [if_neg (by simp [ParserToken.atom, hk.1])]
      show (Option.map _ (H.ops.readFloat (textOf t.text)), D) = _
      rw [hk.2]
      rfl
    | str s =>
      obtain ⟨hk, rfl⟩ := hk
      refine ex_value (b := fun _ => some (.value (.str (textOf t.text)))) 44 rfl (by rw [hk]; rfl) fun D =>
        ⟨fun x => ⟨⟨some t.kind, textOf t.text, .stringType, some x⟩, []⟩, fun _ => rfl, ?_⟩
      show (ParserToken.assignString (ParserToken.atom t), D) = _
      unfold ParserToken.assignString
      rw [if_neg (by simp [ParserToken.atom, hk])]
      rfl
  | .ident n, T, h => by
    simp only [Atomic.tokens, List.map_cons, List.map_nil] at h
    obtain ⟨t, T2, rfl, ht, h⟩ := means_cons h
    obtain rfl := means_nil h
    obtain ⟨hk, rfl⟩ := kind_of_meaning ht
    have := ex_value (H := H) (t := t) (b := fun env => (env.lookup (textOf t.text)).map fun p => .ref p.2 p.1) 41 rfl (by rw [hk]; rfl) fun D =>
        ⟨fun x => ⟨⟨some t.kind, textOf t.text, .expression, some x⟩, []⟩, fun _ => rfl, by
      show (ParserToken.assignIdentifier H D (ParserToken.atom t), D) = _
      unfold ParserToken.assignIdentifier
      rw [if_neg (by simp [ParserToken.atom, hk]), Option.map_map]
      rfl⟩
    simp only [Option.map_map] at this
    exact this

theorem ex_list (H : Host F W) : ∀ (e : Grammar.ExprList F) (T : List Tok), Means H.ops T (e.tokens.map .expr) →
    ListEx H T e.build
  | .snoc a b, T, h => by
    simp only [ExprList.tokens, List.map_append, List.map_cons] at h
    obtain ⟨T1, T2, rfl, ha, hb⟩ := means_append h
    obtain ⟨t, T2, rfl, ht, hb⟩ := means_cons hb
    exact list_snoc t (kind_of_meaning ht) (ex_list H a T1 ha) (ex_expression H b T2 hb)
  | .one a, T, h => list_one (ex_expression H a T h)

end

/-! ## statements -/

/-- the token of a declaration or assignment -/
def toData : String × Option (Expr F W) → TokData F W
  | (n, none) => ⟨some .identifier, n, .atom, none⟩
  | (n, some x) => ⟨some .identifier, n, .statement, some x⟩

theorem atom_identifier {t : Tok} (h : t.kind = .identifier) :
    (ParserToken.atom t : PT F W) = ⟨⟨some .identifier, textOf t.text, .atom, none⟩, []⟩ := by
  unfold ParserToken.atom
  rw [h]

/-- rule 16 -/
theorem ex_assignment {H : Host F W} {T : List Tok} {n : String} {e : Grammar.Expression F}
    (h : Means H.ops T (.expr (.ident n) :: .equal :: e.tokens.map .expr)) :
    ∃ r k, Node (F := F) (W := W) .assignment T r k ∧
      ∀ D, nodeEval (deckAct H) r k D = ((e.build (D.env H)).map fun x => ⟨toData (n, some x), []⟩, D) := by
  obtain ⟨t, T, rfl, ht, h⟩ := means_cons h
  obtain ⟨t1, T, rfl, ht1, h⟩ := means_cons h
  obtain ⟨r1, k1, ⟨h1, h2, h3, h4⟩, h5⟩ := ex_expression H e T h
  obtain ⟨hk, rfl⟩ := kind_of_meaning ht
  have hk1 := kind_of_meaning ht1
  simp only at hk1
  refine ⟨16, .tok t.kind (ParserToken.atom t) (.tok t1.kind (ParserToken.atom t1) (.node r1 k1 .nil)), ⟨rfl, by
    rw [hk, hk1]; show [_, _, Sym.n (lhs r1)] = _; rw [h1]; rfl, ⟨h2, h3, trivial⟩, by simp [Forest.yield, h4, leafOf]⟩, fun D => ?_⟩
  obtain ⟨kd, tx, h6⟩ := h5 D
  rw [nodeEval_eq, eval_tok, eval_tok, eval_node, h6]
  beta_reduce
  rcases e.build (D.env H) with _ | x
  · rfl
  · simp only [Option.map_some, bindO_some, eval_nil]
    rw [atom_identifier hk]
    rfl

/-- the expression of a declaration -/
def buildOne (env : Grammar.Env F W) : String × Option (Grammar.Expression F) → Option (String × Option (Expr F W))
  | (n, none) => some (n, none)
  | (n, some e) => (e.build env).map fun x => (n, some x)

/-- rules 13, 14 -/
theorem ex_declaration {H : Host F W} {T : List Tok} {d : String × Option (Grammar.Expression F)} (h : Means H.ops T (declTokens d)) :
    ∃ r k, Node (F := F) (W := W) .declaration T r k ∧
      ∀ D, nodeEval (deckAct H) r k D = ((buildOne (D.env H) d).map fun x => ⟨toData x, []⟩, D) := by
  obtain ⟨n, _ | e⟩ := d
  · obtain ⟨t, T, rfl, ht, h⟩ := means_cons h
    obtain rfl := means_nil h
    obtain ⟨hk, rfl⟩ := kind_of_meaning ht
    refine ⟨13, .tok t.kind (ParserToken.atom t) .nil, ⟨rfl, by rw [hk]; rfl, trivial, rfl⟩, fun D => ?_⟩
    rw [nodeEval_eq, eval_tok, eval_nil, atom_identifier hk]
    rfl
  · obtain ⟨r1, k1, ⟨h1, h2, h3, h4⟩, h5⟩ := ex_assignment h
    refine ⟨14, .node r1 k1 .nil, ⟨rfl, by show [Sym.n (lhs r1)] = _; rw [h1]; rfl, ⟨h2, h3, trivial⟩, by simpa [Forest.yield] using h4⟩,
      fun D => ?_⟩
    rw [nodeEval_eq, eval_node, h5]
    simp only [buildOne]
    rcases e.build (D.env H) with _ | x <;> rfl

theorem intercalate_snoc {A : Type} (sep y : List A) (xs : List (List A)) (h : xs ≠ []) :
    List.intercalate sep (xs ++ [y]) = List.intercalate sep xs ++ (sep ++ y) := by
  induction xs with
  | nil => exact absurd rfl h
  | cons x xs ih =>
    cases xs with
    | nil => simp [List.intercalate]
    | cons z zs =>
      have := ih (by simp)
      simp only [List.intercalate, List.cons_append, List.intersperse_cons₂, List.flatten_cons, List.append_assoc] at this ⊢
      rw [this]

theorem buildAll_snoc (env : Grammar.Env F W) (ds : List (String × Option (Grammar.Expression F))) (d : String × Option (Grammar.Expression F)) :
    DeckState.buildAll env (ds ++ [d]) = (DeckState.buildAll env ds).bind fun l => (buildOne env d).map fun x => l ++ [x] := by
  induction ds with
  | nil =>
    obtain ⟨n, _ | e⟩ := d
    · rfl
    · simp only [List.nil_append, DeckState.buildAll, buildOne, Option.bind_some]
      rcases e.build env with _ | x <;> rfl
  | cons c ds ih =>
    obtain ⟨m, _ | f⟩ := c
    · simp only [List.cons_append, DeckState.buildAll, ih]
      rcases DeckState.buildAll env ds with _ | l
      · rfl
      · rcases buildOne env d with _ | x <;> rfl
    · simp only [List.cons_append, DeckState.buildAll, ih]
      rcases f.build env with _ | y
      · rfl
      · rcases DeckState.buildAll env ds with _ | l
        · rfl
        · rcases buildOne env d with _ | x <;> rfl

/-- rules 11, 12 -/
theorem ex_decllist {H : Host F W} (ds : List (String × Option (Grammar.Expression F))) (hne : ds ≠ []) (T : List Tok)
    (h : Means H.ops T (List.intercalate [.expr .comma] (ds.map declTokens))) :
    ∃ r k, Node (F := F) (W := W) .decllist T r k ∧ ∀ D, match DeckState.buildAll (D.env H) ds with
      | none => nodeEval (deckAct H) r k D = (none, D)
      | some l => ∃ p : PT F W, nodeEval (deckAct H) r k D = (some p, D) ∧ p.head :: p.chain = (l.map toData).reverse := by
  induction ds using List.reverseRecOn generalizing T with
  | nil => exact absurd rfl hne
  | append_singleton ds d ih =>
    by_cases hds : ds = []
    · subst hds
      have h' : Means H.ops T (declTokens d) := by simpa [List.intercalate] using h
      obtain ⟨r1, k1, ⟨h1, h2, h3, h4⟩, h5⟩ := ex_declaration h'
      refine ⟨12, .node r1 k1 .nil, ⟨rfl, by show [Sym.n (lhs r1)] = _; rw [h1]; rfl, ⟨h2, h3, trivial⟩, by
        simpa [Forest.yield] using h4⟩, fun D => ?_⟩
      rw [buildAll_snoc, nodeEval_eq, eval_node, h5]
      simp only [DeckState.buildAll, Option.bind_some, List.nil_append]
      rcases buildOne (D.env H) d with _ | x
      · rfl
      · exact ⟨_, rfl, rfl⟩
    · rw [List.map_append, List.map_singleton, intercalate_snoc _ _ _ (by simpa using hds)] at h
      obtain ⟨T1, T2, rfl, ha, h⟩ := means_append h
      obtain ⟨t, T2, rfl, ht, h⟩ := means_cons h
      have hk := kind_of_meaning ht
      simp only at hk
      obtain ⟨r1, k1, ⟨h1, h2, h3, h4⟩, h5⟩ := ih hds T1 ha
      obtain ⟨r2, k2, ⟨h1', h2', h3', h4'⟩, h5'⟩ := ex_declaration h
      refine ⟨11, .node r1 k1 (.tok t.kind (ParserToken.atom t) (.node r2 k2 .nil)), ⟨rfl, by
        rw [hk]; show [Sym.n (lhs r1), _, Sym.n (lhs r2)] = _; rw [h1, h1']; rfl,
        ⟨h2, h3, h2', h3', trivial⟩, by simp [Forest.yield, h4, h4', leafOf]⟩, fun D => ?_⟩
      have h6 := h5 D
      rw [buildAll_snoc]
      revert h6
      rcases DeckState.buildAll (D.env H) ds with _ | l <;> intro h6
      · simp only at h6
        rw [nodeEval_eq, eval_node, h6]
        rfl
      · obtain ⟨p, hp, hl⟩ := h6
        rw [nodeEval_eq, eval_node, hp, bindO_some, eval_tok, eval_node, h5', Option.bind_some]
        rcases buildOne (D.env H) d with _ | x
        · rfl
        · refine ⟨_, rfl, ?_⟩
          rw [List.map_append, List.reverse_append, ← hl]
          rfl

theorem storeData_eq (H : Host F W) (D : DeckState F W) (t : Tok) (ty : Ty) (ht : ParserToken.declTy (some t.kind) = some ty)
    (x : String × Option (Expr F W)) :
    ParserToken.storeData H (ParserToken.atom t : PT F W).head D (toData x) = DeckState.storeOne H ty D x := by
  obtain ⟨n, _ | e⟩ := x
  · rfl
  · unfold ParserToken.storeData DeckState.storeOne
    simp only [toData]
    rcases D.evaluate H e with _ | y
    · rfl
    · have : ParserToken.ensureVariable H { D with nextId := D.nextId + 1 } (ParserToken.atom t : PT F W).head
          ⟨some .identifier, n, .statement, some e⟩ y =
          (if y.ty = ty then (some y, { D with nextId := D.nextId + 1 }) else (none, { D with nextId := D.nextId + 1 })) := by
        unfold ParserToken.ensureVariable
        rw [if_neg (by simp [ParserToken.atom])]
        show (match TokType.statement, ParserToken.declTy (some t.kind) with
          | .statement, some ty => _
          | .atom, some ty => _
          | _, _ => _) = _
        rw [ht]
      simp only [this]
      by_cases hy : y.ty = ty
      · simp only [hy, ne_eq, not_true_eq_false, if_false, if_true]
        rcases D.store.addVariable n D.heap.length <;> rfl
      · simp only [hy, ne_eq, not_false_eq_true, if_true, if_false]

theorem chain_map {A B : Type} (f : DeckState F W → A → Bool × DeckState F W) (g : DeckState F W → B → Bool × DeckState F W) (m : B → A)
    (h : ∀ D b, f D (m b) = g D b) (l : List B) (D : DeckState F W) : DeckState.chain f (l.map m) D = DeckState.chain g l D := by
  induction l generalizing D with
  | nil => rfl
  | cons b l ih =>
    simp only [List.map_cons, DeckState.chain, h]
    rcases g D b with ⟨_ | _, D'⟩
    · rfl
    · exact ih D'

/-- The tokens are derived from `statement`, and evaluating the derivation executes the statement. -/
def StmtEx (H : Host F W) (N : NT) (T : List Tok) (f : DeckState F W → Bool × DeckState F W) : Prop :=
  ∃ r k, Node (F := F) (W := W) N T r k ∧ ∀ D, nodeEval (deckAct H) r k D = effect (f D)

/-- rules 45 to 47 -/
theorem ex_typedecl (H : Host F W) {t : Tok} {ty : Ty} (h : meaning H.ops t = some (.type ty)) :
    ∃ r k, Node (F := F) (W := W) .typedecl [t] r k ∧ ∀ D, nodeEval (deckAct H) r k D = (some (ParserToken.atom t), D) := by
  have hk := kind_of_meaning h
  cases ty
  · exact ⟨45, .tok t.kind (ParserToken.atom t) .nil, ⟨rfl, by rw [hk]; rfl, trivial, rfl⟩, fun D => rfl⟩
  · exact ⟨46, .tok t.kind (ParserToken.atom t) .nil, ⟨rfl, by rw [hk]; rfl, trivial, rfl⟩, fun D => rfl⟩
  · exact ⟨47, .tok t.kind (ParserToken.atom t) .nil, ⟨rfl, by rw [hk]; rfl, trivial, rfl⟩, fun D => rfl⟩

theorem declTy_of_meaning {O : FloatOps F} {t : Tok} {ty : Ty} (h : meaning O t = some (.type ty)) :
    ParserToken.declTy (some t.kind) = some ty := by
  have hk := kind_of_meaning h
  cases ty <;> simp only at hk <;> rw [hk] <;> rfl

/-- rules 9, 10 -/
theorem ex_start (H : Host F W) {T : List Tok} {c n : String} (hs : Means H.ops T [.expr (.ident c), .expr (.ident n), .lbrace] ∨
    c = n ∧ Means H.ops T [.expr (.ident c), .lbrace]) : StmtEx H .startblock T fun D => D.createBlock H c n := by
  rcases hs with h | ⟨rfl, h⟩
  · obtain ⟨t, T, rfl, ht, h⟩ := means_cons h
    obtain ⟨t1, T, rfl, ht1, h⟩ := means_cons h
    obtain ⟨t2, T, rfl, ht2, h⟩ := means_cons h
    obtain rfl := means_nil h
    obtain ⟨hk, rfl⟩ := kind_of_meaning ht
    obtain ⟨hk1, rfl⟩ := kind_of_meaning ht1
    have hk2 := kind_of_meaning ht2
    simp only at hk2
    refine ⟨9, .tok t.kind (ParserToken.atom t) (.tok t1.kind (ParserToken.atom t1) (.tok t2.kind (ParserToken.atom t2) .nil)), ⟨rfl, by
      rw [hk, hk1, hk2]; rfl, trivial, rfl⟩, fun D => ?_⟩
    rw [atom_identifier hk, atom_identifier hk1]
    rfl
  · obtain ⟨t, T, rfl, ht, h⟩ := means_cons h
    obtain ⟨t2, T, rfl, ht2, h⟩ := means_cons h
    obtain rfl := means_nil h
    obtain ⟨hk, rfl⟩ := kind_of_meaning ht
    have hk2 := kind_of_meaning ht2
    simp only at hk2
    refine ⟨10, .tok t.kind (ParserToken.atom t) (.tok t2.kind (ParserToken.atom t2) .nil), ⟨rfl, by rw [hk, hk2]; rfl, trivial, rfl⟩,
      fun D => ?_⟩
    rw [atom_identifier hk]
    rfl

theorem ex_block (H : Host F W) {T : List Tok} {f : DeckState F W → Bool × DeckState F W} (h : StmtEx H .startblock T f) :
    StmtEx H .statement T f := by
  obtain ⟨r1, k1, ⟨h1, h2, h3, h4⟩, h5⟩ := h
  refine ⟨6, .node r1 k1 .nil, ⟨rfl, by show [Sym.n (lhs r1)] = _; rw [h1]; rfl, ⟨h2, h3, trivial⟩, by simpa [Forest.yield] using h4⟩,
    fun D => ?_⟩
  rw [nodeEval_eq, eval_node, h5]
  rcases f D with ⟨_ | _, D'⟩ <;> rfl

theorem ex_statement (H : Host F W) {T : List Tok} {st : Stmt F} (h : IsStatement H.ops T st) :
    StmtEx H .statement T fun D => D.step H st := by
  obtain ⟨ts, hm, hw⟩ := h
  cases hw with
  | decl ty ds hne =>
    obtain ⟨t, T, rfl, ht, h⟩ := means_cons hm
    obtain ⟨T1, T2, rfl, ha, h⟩ := means_append h
    obtain ⟨t2, T2, rfl, ht2, h⟩ := means_cons h
    obtain rfl := means_nil h
    have hk2 := kind_of_meaning ht2
    simp only at hk2
    obtain ⟨r1, k1, ⟨h1, h2, h3, h4⟩, h5⟩ := ex_typedecl H ht
    obtain ⟨r2, k2, ⟨h1', h2', h3', h4'⟩, h5'⟩ := ex_decllist ds hne T1 ha
    refine ⟨3, .node r1 k1 (.node r2 k2 (.tok t2.kind (ParserToken.atom t2) .nil)), ⟨rfl, by
      rw [hk2]; show [Sym.n (lhs r1), Sym.n (lhs r2), _] = _; rw [h1, h1']; rfl, ⟨h2, h3, h2', h3', trivial⟩, by
      simp [Forest.yield, h4, h4', leafOf]⟩, fun D => ?_⟩
    rw [nodeEval_eq, eval_node, h5, bindO_some, eval_node]
    have h6 := h5' D
    revert h6
    show _ → _ = effect (D.declare H ty ds)
    unfold DeckState.declare
    rcases DeckState.buildAll (D.env H) ds with _ | l <;> intro h6
    · simp only at h6
      rw [h6]
      rfl
    · obtain ⟨p, hp, hl⟩ := h6
      rw [hp]
      simp only [bindO_some, eval_tok, eval_nil]
      show effect (ParserToken.storeVariable H D (ParserToken.atom t) p) = _
      unfold ParserToken.storeVariable
      rw [hl, ← List.map_reverse, chain_map _ (DeckState.storeOne H ty) toData fun D x => storeData_eq H D t ty (declTy_of_meaning ht) x]
  | assign n e =>
    have hm' : Means H.ops T ((.expr (.ident n) :: .equal :: e.tokens.map .expr) ++ [.semicolon]) := hm
    obtain ⟨T1, T2, rfl, ha, h⟩ := means_append hm'
    obtain ⟨t2, T2, rfl, ht2, h⟩ := means_cons h
    obtain rfl := means_nil h
    have hk2 := kind_of_meaning ht2
    simp only at hk2
    obtain ⟨r1, k1, ⟨h1, h2, h3, h4⟩, h5⟩ := ex_assignment ha
    refine ⟨4, .node r1 k1 (.tok t2.kind (ParserToken.atom t2) .nil), ⟨rfl, by
      rw [hk2]; show [Sym.n (lhs r1), _] = _; rw [h1]; rfl, ⟨h2, h3, trivial⟩, by
      simp [Forest.yield, h4, leafOf]⟩, fun D => ?_⟩
    rw [nodeEval_eq, eval_node, h5]
    show _ = effect (D.update H n e)
    unfold DeckState.update
    rcases e.build (D.env H) with _ | x
    · rfl
    · simp only [Option.map_some, bindO_some, eval_tok, eval_nil]
      show effect (ParserToken.updateVariable H D ⟨toData (n, some x), []⟩) = _
      unfold ParserToken.updateVariable
      simp only [toData]
      rcases D.store.getVariable D.store.cursor n with _ | v
      · rfl
      · simp only
        rcases D.heap[v]? with _ | y <;> rfl
  | start c n => exact ex_block H (ex_start H (.inl hm))
  | startClass c => exact ex_block H (ex_start H (.inr ⟨rfl, hm⟩))
  | stop =>
    obtain ⟨t, T, rfl, ht, h⟩ := means_cons hm
    obtain rfl := means_nil h
    have hk := kind_of_meaning ht
    simp only at hk
    exact ⟨7, .tok t.kind (ParserToken.atom t) .nil, ⟨rfl, by rw [hk]; rfl, trivial, rfl⟩, fun D => rfl⟩

/-! ## files -/

theorem chain_snoc {A : Type} (f : DeckState F W → A → Bool × DeckState F W) (l : List A) (a : A) (D : DeckState F W) :
    DeckState.chain f (l ++ [a]) D = match DeckState.chain f l D with
      | (true, D') => f D' a
      | (false, D') => (false, D') := by
  induction l generalizing D with
  | nil =>
    simp only [List.nil_append, DeckState.chain]
    rcases f D a with ⟨_ | _, D'⟩ <;> rfl
  | cons b l ih =>
    simp only [List.cons_append, DeckState.chain]
    rcases f D b with ⟨_ | _, D'⟩
    · rfl
    · exact ih D'

theorem forall₂_snoc {A B : Type} {R : A → B → Prop} {l : List A} {a : A} {m : List B} (h : List.Forall₂ R (l ++ [a]) m) :
    ∃ l' b, m = l' ++ [b] ∧ List.Forall₂ R l l' ∧ R a b := by
  induction l generalizing m with
  | nil =>
    cases h with
    | cons h1 h2 =>
      cases h2
      exact ⟨[], _, rfl, .nil, h1⟩
  | cons c l ih =>
    cases h with
    | cons h1 h2 =>
      obtain ⟨l', b, rfl, h3, h4⟩ := ih h2
      exact ⟨_ :: l', b, rfl, .cons h1 h3, h4⟩

/-- rules 1, 2 -/
theorem ex_statements (H : Host F W) (parts : List (List Tok)) (P : List (Stmt F)) (hne : parts ≠ [])
    (h : List.Forall₂ (IsStatement H.ops) parts P) : StmtEx H .statementlist parts.flatten fun D => D.run H P := by
  induction parts using List.reverseRecOn generalizing P with
  | nil => exact absurd rfl hne
  | append_singleton parts T ih =>
    obtain ⟨P, st, rfl, h1, h2⟩ := forall₂_snoc h
    obtain ⟨r2, k2, ⟨h1', h2', h3', h4'⟩, h5'⟩ := ex_statement H h2
    by_cases hp : parts = []
    · subst hp
      cases h1
      refine ⟨2, .node r2 k2 .nil, ⟨rfl, by show [Sym.n (lhs r2)] = _; rw [h1']; rfl, ⟨h2', h3', trivial⟩, by simpa [Forest.yield] using h4'⟩,
        fun D => ?_⟩
      rw [nodeEval_eq, eval_node, h5']
      simp only [DeckState.run, List.nil_append, DeckState.chain]
      rcases D.step H st with ⟨_ | _, D'⟩ <;> rfl
    · obtain ⟨r1, k1, ⟨h1, h2, h3, h4⟩, h5⟩ := ih P hp h1
      refine ⟨1, .node r1 k1 (.node r2 k2 .nil), ⟨rfl, by show [Sym.n (lhs r1), Sym.n (lhs r2)] = _; rw [h1, h1']; rfl,
        ⟨h2, h3, h2', h3', trivial⟩, by simp [Forest.yield, h4, h4']⟩, fun D => ?_⟩
      rw [nodeEval_eq, eval_node, h5]
      simp only [DeckState.run, chain_snoc]
      rcases DeckState.chain (fun D st => D.step H st) P D with ⟨_ | _, D'⟩
      · rfl
      · show bindO (bindO (some _, D') _) _ = _
        simp only [bindO_some, eval_node, h5']
        rcases D'.step H st with ⟨_ | _, D'⟩ <;> rfl

/-- rule 0: the derivation of a whole file, its size, and what evaluating it does -/
theorem ex_deck (H : Host F W) (parts : List (List Tok)) (P : List (Stmt F)) (hne : parts ≠ [])
    (h : List.Forall₂ (IsStatement H.ops) parts P) :
    ∃ G : Forest (PT F W), G.Derives [.n .deck] (parts.flatten.map leafOf) ∧
      ∀ D, G.eval (deckAct H) D = (if (D.run H P).1 then some [ParserToken.default] else none, (D.run H P).2) := by
  obtain ⟨r1, k1, ⟨h1, h2, h3, h4⟩, h5⟩ := ex_statements H parts P hne h
  refine ⟨.node 0 (.node r1 k1 .nil) .nil, ⟨⟨by show [Sym.n (lhs r1)] = _; rw [h1]; rfl, ⟨h2, h3, trivial⟩, trivial⟩, rfl, by
    simpa [Forest.yield] using h4⟩, fun D => ?_⟩
  rw [eval_node, nodeEval_eq, eval_node, h5]
  beta_reduce
  rcases D.run H P with ⟨_ | _, D'⟩ <;> rfl

end Schnek.Lemma.DeckText
