import Verif.Lemma.ParserError
import Verif.Lemma.DeckBuild

/-!
# Exceptions of the actions of the rules
-/

namespace Schnek.Lemma.ParserError

open Schnek.Deck Schnek.Spec Schnek.Scanner ParserToken DeckState Schnek.Lemma.Deck Schnek.Lemma.DeckText

variable {F W : Type}

/-! ## values on the stack -/

/-- one of the declared names, with or without a value -/
def DeclAt (T : List Tok) (d : TokData F W) (line : ℕ) : Prop :=
  NameAt T d.text line ∧ d.kind = some .identifier ∧
    (d.type = .statement ∧ d.data ≠ none ∧ (∃ u ∈ T, u.kind = .equal) ∨ d.type = .atom ∧ d.data = none ∧ BareNameAt T line)

/-- What the value of a nonterminal is that stands for these tokens. -/
def Good : NT → List Tok → ParserToken F W × Lines → Prop
  | .typedecl, T, v => ∃ t ty, T = [t] ∧ v = linedAtom t ∧ t.kind = keyword ty
  | .decllist, T, v => List.Forall₂ (DeclAt T) (v.1.head :: v.1.chain) (v.2.head :: v.2.chain)
  | .declaration, T, v => DeclAt T v.1.head v.2.head ∧ v.1.chain = [] ∧ v.2.chain = []
  | .assignment, T, v => NameAt T v.1.head.text v.2.head ∧ v.1.head.kind = some .identifier ∧ v.1.head.type = .statement ∧
      v.1.head.data ≠ none ∧ (∃ u ∈ T, u.kind = .equal) ∧ v.1.chain = [] ∧ v.2.chain = []
  | .exprList, _, v => datas (v.1.head :: v.1.chain) ≠ none
  | .value, _, v => v.1.head.data ≠ none
  | .expression, _, v | .signedTerm, _, v | .unsignedExpr, _, v | .term, _, v | .power, _, v | .atomic, _, v | .signedAtomic, _, v =>
      v.1.head.type = .expression ∧ v.1.head.data ≠ none ∧ v.1.chain = []
  | _, _, _ => True

/-- The same for a sequence of symbols. -/
def GoodAll : List Sym → List Tok → List (ParserToken F W × Lines) → Prop
  | [], T, vs => T = [] ∧ vs = []
  | .t k :: ss, T, vs => ∃ t T' vs', T = t :: T' ∧ vs = linedAtom t :: vs' ∧ t.kind = k ∧ GoodAll ss T' vs'
  | .n N :: ss, T, vs => ∃ T1 T2 v vs', T = T1 ++ T2 ∧ vs = v :: vs' ∧ Good N T1 v ∧ GoodAll ss T2 vs'
  | .error :: _, _, _ => False

theorem NameAt.mono {T T' : List Tok} {n : String} {l : ℕ} (h : NameAt T n l) (hs : ∀ t ∈ T, t ∈ T') : NameAt T' n l := by
  obtain ⟨t, h1, h2⟩ := h
  exact ⟨t, hs t h1, h2⟩

theorem BareNameAt.mono {T : List Tok} {l : ℕ} (h : BareNameAt T l) (a b : List Tok) (hb : ∀ u, b.head? = some u → u.kind ≠ .equal) :
    BareNameAt (a ++ (T ++ b)) l := by
  obtain ⟨a', t, b', rfl, h1, h2, h3⟩ := h
  refine ⟨a ++ a', t, b' ++ b, by simp, h1, h2, ?_⟩
  cases b' with
  | nil => exact hb
  | cons u b' => exact h3

theorem DeclAt.mono {T : List Tok} {d : TokData F W} {l : ℕ} (h : DeclAt T d l) (a b : List Tok)
    (hb : ∀ u, b.head? = some u → u.kind ≠ .equal) : DeclAt (a ++ (T ++ b)) d l := by
  obtain ⟨h1, h2, h3⟩ := h
  refine ⟨NameAt.mono h1 (by simp +contextual), h2, ?_⟩
  rcases h3 with ⟨h4, h5, u, h6, h7⟩ | ⟨h4, h5, h6⟩
  · exact Or.inl ⟨h4, h5, u, by simp [h6], h7⟩
  · exact Or.inr ⟨h4, h5, BareNameAt.mono h6 a b hb⟩

section

variable {H : Host F W} {D D' : DeckState F W} {p : ParserToken F W}

theorem unary_good {op : UnOp} {a : ParserToken F W} (h : assignUnaryOperator op a = some p) :
    p.head.type = .expression ∧ p.head.data ≠ none ∧ p.chain = [] := by
  unfold assignUnaryOperator at h
  rcases he : a.head.data with _ | e
  · rw [he] at h; cases h
  · rw [he] at h
    cases h
    exact ⟨rfl, by simp, rfl⟩

theorem unary_some {op : UnOp} {a : ParserToken F W} (h : a.head.data ≠ none) : assignUnaryOperator op a ≠ none := by
  unfold assignUnaryOperator
  rcases he : a.head.data with _ | e
  · exact absurd he h
  · simp

theorem binary_good {op : BinOp} {a b : ParserToken F W} (h : assignBinaryOperator op a b = some p) :
    p.head.type = .expression ∧ p.head.data ≠ none ∧ p.chain = [] := by
  unfold assignBinaryOperator at h
  rcases he : a.head.data with _ | e
  · rw [he] at h; cases h
  · rcases he' : b.head.data with _ | e'
    · rw [he, he'] at h; cases h
    · rw [he, he'] at h
      cases h
      exact ⟨rfl, by simp, rfl⟩

theorem binary_some {op : BinOp} {a b : ParserToken F W} (h : a.head.data ≠ none) (h' : b.head.data ≠ none) :
    assignBinaryOperator op a b ≠ none := by
  unfold assignBinaryOperator
  rcases he : a.head.data with _ | e
  · exact absurd he h
  · rcases he' : b.head.data with _ | e'
    · exact absurd he' h'
    · simp

theorem decllist_snoc {T0 T2 : List Tok} {t : Tok} (ht : t.kind ≠ .equal) {v0 v2 : ParserToken F W × Lines} (c0 : Good .decllist T0 v0)
    (c2 : Good .declaration T2 v2) :
    Good .decllist (T0 ++ (t :: (T2 ++ []))) (v2.1.append v0.1, ⟨v2.2.head, v0.2.head :: v0.2.chain⟩) := by
  have h2 := c2.1.mono (T0 ++ [t]) [] (by simp)
  have h0 : List.Forall₂ (DeclAt ([] ++ (T0 ++ t :: (T2 ++ [])))) (v0.1.head :: v0.1.chain) (v0.2.head :: v0.2.chain) :=
    List.Forall₂.imp (fun a b h => h.mono [] (t :: (T2 ++ [])) (by simpa using ht)) c0
  refine .cons ?_ h0
  simpa [ParserToken.append] using h2

theorem decllist_one {T0 : List Tok} {v0 : ParserToken F W × Lines} (c0 : Good .declaration T0 v0) :
    Good .decllist (T0 ++ []) (v0.1, v0.2) := by
  obtain ⟨h1, h2, h3⟩ := c0
  show List.Forall₂ _ (v0.1.head :: v0.1.chain) (v0.2.head :: v0.2.chain)
  rw [h2, h3, List.append_nil]
  exact .cons h1 .nil

theorem declaration_bare {t : Tok} (k : t.kind = .identifier) : Good .declaration [t] (linedAtom t : ParserToken F W × Lines) := by
  refine ⟨⟨⟨t, by simp, k, rfl, rfl⟩, ?_, Or.inr ⟨rfl, rfl, [], t, [], rfl, k, rfl, by simp⟩⟩, rfl, rfl⟩
  show some t.kind = _
  rw [k]

theorem declaration_assign {T0 : List Tok} {v0 : ParserToken F W × Lines} (c0 : Good .assignment T0 v0) :
    Good .declaration (T0 ++ []) (v0.1, v0.2) := by
  obtain ⟨h1, h2, h3, h4, h5, h6, h7⟩ := c0
  rw [List.append_nil]
  exact ⟨⟨h1, h2, Or.inl ⟨h3, h4, h5⟩⟩, h6, h7⟩

theorem assignment_good {t0 t1 : Tok} {T2 : List Tok} {v2 : ParserToken F W × Lines} (k0 : t0.kind = .identifier) (k1 : t1.kind = .equal)
    (c2 : Good .expression T2 v2) (h : ParserToken.evaluateExpression (.atom t0) v2.1 = some p) :
    Good .assignment (t0 :: t1 :: (T2 ++ [])) (p, ⟨t0.line, []⟩) := by
  unfold ParserToken.evaluateExpression at h
  rw [if_neg (by simp [ParserToken.atom, k0])] at h
  cases h
  refine ⟨⟨t0, by simp, k0, rfl, rfl⟩, ?_, rfl, c2.2.1, ⟨t1, by simp, k1⟩, rfl, rfl⟩
  show some t0.kind = _
  rw [k0]

theorem assignment_some {t0 : Tok} {q : ParserToken F W} (k0 : t0.kind = .identifier) :
    ParserToken.evaluateExpression (.atom t0) q ≠ none := by
  unfold ParserToken.evaluateExpression
  rw [if_neg (by simp [ParserToken.atom, k0])]
  simp

theorem function_good {a b : ParserToken F W} (h : assignFunction H a b = some p) : p.head.type = .expression ∧ p.head.data ≠ none ∧ p.chain = [] := by
  unfold assignFunction at h
  rw [Option.bind_eq_some_iff] at h
  obtain ⟨l, -, h⟩ := h
  rw [Option.map_eq_some_iff] at h
  obtain ⟨e, -, rfl⟩ := h
  exact ⟨rfl, by simp, rfl⟩

theorem functionNone_good {a : ParserToken F W} (h : assignFunctionNone H a = some p) : p.head.type = .expression ∧ p.head.data ≠ none ∧ p.chain = [] := by
  unfold assignFunctionNone at h
  rw [Option.map_eq_some_iff] at h
  obtain ⟨e, -, rfl⟩ := h
  exact ⟨rfl, by simp, rfl⟩

theorem exprList_snoc {T0 T2 T : List Tok} {l : Lines} {v0 v2 : ParserToken F W × Lines} (c0 : Good .exprList T0 v0)
    (c2 : Good .expression T2 v2) : Good .exprList T (v2.1.append v0.1, l) := by
  show (v2.1.head.data.bind fun e => (datas (v0.1.head :: v0.1.chain)).map (e :: ·)) ≠ none
  rcases h2 : v2.1.head.data with _ | e
  · exact absurd h2 c2.2.1
  · rcases h0 : datas (v0.1.head :: v0.1.chain) with _ | es
    · exact absurd h0 c0
    · simp

theorem exprList_one {T0 T : List Tok} {l : Lines} {v0 : ParserToken F W × Lines} (c0 : Good .expression T0 v0)
    (h : makeExpressionList v0.1 = some p) : Good .exprList T (p, l) := by
  obtain ⟨h1, h2, h3⟩ := c0
  unfold makeExpressionList at h
  rw [if_neg (by simp [h1])] at h
  cases h
  show (v0.1.head.data.bind fun e => (datas v0.1.chain).map (e :: ·)) ≠ none
  rw [h3]
  rcases he : v0.1.head.data with _ | e
  · exact absurd he h2
  · simp [datas]

theorem exprList_some {T0 : List Tok} {v0 : ParserToken F W × Lines} (c0 : Good .expression T0 v0) : makeExpressionList v0.1 ≠ none := by
  unfold makeExpressionList
  rw [if_neg (by simp [c0.1])]
  simp

theorem identifier_good {q : ParserToken F W} (h : assignIdentifier H D q = some p) : p.head.data ≠ none := by
  unfold assignIdentifier at h
  split at h
  · cases h
  · rw [Option.map_eq_some_iff] at h
    obtain ⟨e, -, rfl⟩ := h
    simp

theorem integer_good {q : ParserToken F W} (h : assignInteger H q = some p) : p.head.data ≠ none := by
  unfold assignInteger at h
  split at h
  · cases h
  · rw [Option.map_eq_some_iff] at h
    obtain ⟨e, -, rfl⟩ := h
    simp

theorem float_good {q : ParserToken F W} (h : assignFloat H q = some p) : p.head.data ≠ none := by
  unfold assignFloat at h
  split at h
  · cases h
  · rw [Option.map_eq_some_iff] at h
    obtain ⟨e, -, rfl⟩ := h
    simp

theorem string_good {q : ParserToken F W} (h : assignString q = some p) : p.head.data ≠ none := by
  unfold assignString at h
  split at h
  · cases h
  · cases h
    simp

theorem string_some {t : Tok} (k : t.kind = .string) : assignString (.atom t : ParserToken F W) ≠ none := by
  unfold assignString
  rw [if_neg (by simp [ParserToken.atom, k])]
  simp

/-! ## values of expressions -/

/-- What the value of a nonterminal says about expressions. -/
def Reads (H : Host F W) (D : DeckState F W) : NT → List Tok → ParserToken F W × Lines → Prop
  | .decllist, T, v => ∀ d ∈ v.1.head :: v.1.chain, ∀ x, d.data = some x → ValueIn H D T x
  | .declaration, T, v => ∀ x, v.1.head.data = some x → ValueIn H D T x
  | .assignment, T, v => ∀ x, v.1.head.data = some x → ValueIn H D T x
  | .expression, T, v => ∃ e : Grammar.Expression F, Means H.ops T (e.tokens.map .expr) ∧ e.build (D.env H) = v.1.head.data
  | .signedTerm, T, v => ∃ e : Grammar.SignedTerm F, Means H.ops T (e.tokens.map .expr) ∧ e.build (D.env H) = v.1.head.data
  | .unsignedExpr, T, v => ∃ e : Grammar.Unsigned F, Means H.ops T (e.tokens.map .expr) ∧ e.build (D.env H) = v.1.head.data
  | .term, T, v => ∃ e : Grammar.Term F, Means H.ops T (e.tokens.map .expr) ∧ e.build (D.env H) = v.1.head.data
  | .power, T, v => ∃ e : Grammar.Power F, Means H.ops T (e.tokens.map .expr) ∧ e.build (D.env H) = v.1.head.data
  | .atomic, T, v => ∃ e : Grammar.Atomic F, Means H.ops T (e.tokens.map .expr) ∧ e.build (D.env H) = v.1.head.data
  | .signedAtomic, T, v => ∃ e : Grammar.SignedAtomic F, Means H.ops T (e.tokens.map .expr) ∧ e.build (D.env H) = v.1.head.data
  | .exprList, T, v => ∃ e : Grammar.ExprList F, Means H.ops T (e.tokens.map .expr) ∧ e.build (D.env H) = datas (v.1.head :: v.1.chain)
  | .value, T, v => ∃ e : Grammar.Atomic F, Means H.ops T (e.tokens.map .expr) ∧
      e.build (D.env H) = v.1.head.data.map (assignUnary .id)
  | _, _, _ => True

/-- The same for a sequence of symbols. -/
def ReadsAll (H : Host F W) (D : DeckState F W) : List Sym → List Tok → List (ParserToken F W × Lines) → Prop
  | [], T, vs => T = [] ∧ vs = []
  | .t k :: ss, T, vs => ∃ t T' vs', T = t :: T' ∧ vs = linedAtom t :: vs' ∧ t.kind = k ∧ ReadsAll H D ss T' vs'
  | .n N :: ss, T, vs => ∃ T1 T2 v vs', T = T1 ++ T2 ∧ vs = v :: vs' ∧ Good N T1 v ∧ Reads H D N T1 v ∧ ReadsAll H D ss T2 vs'
  | .error :: _, _, _ => False

theorem readsAll_good {H : Host F W} {D : DeckState F W} : ∀ {ss : List Sym} {T : List Tok} {vs : List (ParserToken F W × Lines)},
    ReadsAll H D ss T vs → GoodAll ss T vs
  | [], _, _, h => h
  | .t _ :: _, _, _, ⟨t, T', vs', h1, h2, h3, h4⟩ => ⟨t, T', vs', h1, h2, h3, readsAll_good h4⟩
  | .n _ :: _, _, _, ⟨T1, T2, v, vs', h1, h2, h3, _, h4⟩ => ⟨T1, T2, v, vs', h1, h2, h3, readsAll_good h4⟩
  | .error :: _, _, _, h => h

theorem valueIn_mono {T : List Tok} {x : Expr F W} (h : ValueIn H D T x) (a b : List Tok) : ValueIn H D (a ++ (T ++ b)) x := by
  obtain ⟨a', u, sub, b', g, rfl, h1, h2, h3⟩ := h
  exact ⟨a ++ a', u, sub, b' ++ b, g, by simp, h1, h2, h3⟩

theorem binary_reads {op : BinOp} {a b : ParserToken F W} (h : assignBinaryOperator op a b = some p) :
    (a.head.data.bind fun x => b.head.data.map fun y => assignBinary op x y) = p.head.data := by
  unfold assignBinaryOperator at h
  rcases he : a.head.data with _ | e
  · rw [he] at h; cases h
  · rcases he' : b.head.data with _ | e'
    · rw [he, he'] at h; cases h
    · rw [he, he'] at h
      cases h
      rfl

theorem unary_reads {op : UnOp} {a : ParserToken F W} (h : assignUnaryOperator op a = some p) :
    a.head.data.map (assignUnary op) = p.head.data := by
  unfold assignUnaryOperator at h
  rcases he : a.head.data with _ | e
  · rw [he] at h; cases h
  · rw [he] at h
    cases h
    rfl

theorem function_reads {t : Tok} {b : ParserToken F W} (h : assignFunction H (.atom t) b = some p) :
    ((datas (b.head :: b.chain)).bind fun chain => getExpression H.func (textOf t.text) (Grammar.assignFunctionArgs [] chain)) =
      p.head.data := by
  unfold assignFunction at h
  rcases hd : datas (b.head :: b.chain) with _ | l
  · rw [hd] at h; cases h
  · rw [hd, Option.bind_some, Option.map_eq_some_iff] at h
    obtain ⟨e, he, rfl⟩ := h
    exact he

theorem functionNone_reads {t : Tok} (h : assignFunctionNone H (.atom t) = some p) :
    getExpression H.func (textOf t.text) [] = p.head.data := by
  unfold assignFunctionNone at h
  rw [Option.map_eq_some_iff] at h
  obtain ⟨e, he, rfl⟩ := h
  exact he

theorem exprList_reads {T0 : List Tok} {v0 : ParserToken F W × Lines} (c0 : Good .expression T0 v0) (h : makeExpressionList v0.1 = some p) :
    v0.1.head.data.map (fun y => [y]) = datas (p.head :: p.chain) := by
  obtain ⟨h1, h2, h3⟩ := c0
  unfold makeExpressionList at h
  rw [if_neg (by simp [h1])] at h
  cases h
  show _ = v0.1.head.data.bind fun e => (datas v0.1.chain).map (e :: ·)
  rw [h3]
  rcases v0.1.head.data with _ | e <;> rfl

theorem identifier_reads {t : Tok} (k : t.kind = .identifier) (h : assignIdentifier H D (.atom t) = some p) :
    (((D.env H).lookup (textOf t.text)).map fun v => assignUnary .id (.ref v.2 v.1)) = p.head.data.map (assignUnary .id) := by
  unfold assignIdentifier at h
  rw [if_neg (by simp [ParserToken.atom, k]), Option.map_eq_some_iff] at h
  obtain ⟨v, hv, rfl⟩ := h
  have hv' : (D.env H).lookup (textOf t.text) = some v := hv
  rw [hv']
  rfl

theorem integer_reads {t : Tok} (k : t.kind = .integer) (h : assignInteger H (.atom t) = some p) :
    ∃ i, meaning H.ops t = some (.expr (.lit (.int i))) ∧ p.head.data = some (.value (.int i)) := by
  unfold assignInteger at h
  rw [if_neg (by simp [ParserToken.atom, k]), Option.map_eq_some_iff] at h
  obtain ⟨i, hi, rfl⟩ := h
  refine ⟨i, ?_, rfl⟩
  have hi' : H.ops.readInt (textOf t.text) = some i := hi
  unfold meaning
  rw [k]
  simp [hi']

theorem float_reads {t : Tok} (k : t.kind = .float) (h : assignFloat H (.atom t) = some p) :
    ∃ i, meaning H.ops t = some (.expr (.lit (.float i))) ∧ p.head.data = some (.value (.float i)) := by
  unfold assignFloat at h
  rw [if_neg (by simp [ParserToken.atom, k]), Option.map_eq_some_iff] at h
  obtain ⟨i, hi, rfl⟩ := h
  refine ⟨i, ?_, rfl⟩
  have hi' : H.ops.readFloat (textOf t.text) = some i := hi
  unfold meaning
  rw [k]
  simp [hi']

theorem string_reads {t : Tok} (k : t.kind = .string) (h : assignString (.atom t) = some p) :
    p.head.data = some (.value (.str (textOf t.text))) := by
  unfold assignString at h
  rw [if_neg (by simp [ParserToken.atom, k])] at h
  cases h
  rfl

theorem assignment_reads {t0 t1 : Tok} {T2 : List Tok} {v2 : ParserToken F W × Lines} {l : Lines} (k0 : t0.kind = .identifier)
    (k1 : t1.kind = .equal) (r2 : Reads H D .expression T2 v2) (h : ParserToken.evaluateExpression (.atom t0) v2.1 = some p) :
    Reads H D .assignment (t0 :: t1 :: (T2 ++ [])) (p, l) := by
  unfold ParserToken.evaluateExpression at h
  rw [if_neg (by simp [ParserToken.atom, k0])] at h
  cases h
  obtain ⟨e, hm, hb⟩ := r2
  intro x hx
  have hx' : v2.1.head.data = some x := hx
  exact ⟨[t0], t1, T2, [], e, rfl, k1, hm, hb.trans hx'⟩

/-! ## what is thrown -/

theorem leads_declares {S : Storage} {b : ℕ} {path : List String} {v : ℕ} (h : Leads S b path v) : ∃ b n, Declares S b n v := by
  induction h with
  | var h => exact ⟨_, _, h⟩
  | child _ _ ih => exact ih

theorem getVariable_lt (hS : Sane D) {b : ℕ} (hb : b < D.store.blocks.length) {n : String} {v : ℕ}
    (h : D.store.getVariable b n = some v) : v < D.heap.length := by
  rw [Vars.getVariable_iff hS.dinv.store b hb _ n (written_splitName ':' n)] at h
  obtain ⟨_, _, _, _, h⟩ := h
  obtain ⟨b, n, h⟩ := leads_declares h
  exact hS.dinv.bound b n v h

theorem unknown_of (hS : Sane D) {n : String} (h : D.store.getVariable D.store.cursor n = none) : Unknown D n := by
  intro path hp v hv
  rw [← Vars.getVariable_iff hS.dinv.store _ hS.dinv.store.cursor path n hp, h] at hv
  cases hv

theorem tells_identifier {t : Tok} (hS : Sane D) (k : t.kind = .identifier)
    (h1 : quiet D (assignIdentifier H D (.atom t)) = (none, D')) :
    Tells H D D' [t] (excIdentifier (ParserToken.atom t : ParserToken F W).head t.line) := by
  obtain ⟨h2, rfl⟩ := Prod.mk.inj h1
  clear h1
  have h1 := h2
  clear h2
  unfold assignIdentifier at h1
  unfold excIdentifier
  rw [if_neg (by simp [ParserToken.atom, k])] at h1 ⊢
  refine ⟨⟨t, by simp, k, rfl, rfl⟩, unknown_of hS ?_⟩
  rw [Option.map_eq_none_iff] at h1
  rcases hv : D.store.getVariable D.store.cursor (textOf t.text) with _ | v
  · exact hv
  · have := getVariable_lt hS hS.dinv.store.cursor hv
    exfalso
    change ((D.store.getVariable D.store.cursor (textOf t.text)).bind fun v => D.heap[v]?.map fun x => (v, x.ty)) = none at h1
    rw [hv, Option.bind_some, List.getElem?_eq_getElem this] at h1
    cases h1

theorem tells_integer {t : Tok} (k : t.kind = .integer) (h1 : quiet D (assignInteger H (.atom t)) = (none, D')) :
    Tells H D D' [t] (excInteger (ParserToken.atom t : ParserToken F W).head t.line) := by
  obtain ⟨h2, rfl⟩ := Prod.mk.inj h1
  clear h1
  have h1 := h2
  clear h2
  unfold assignInteger at h1
  unfold excInteger
  rw [if_neg (by simp [ParserToken.atom, k])] at h1 ⊢
  rw [Option.map_eq_none_iff] at h1
  exact ⟨t, by simp, Or.inl ⟨k, h1⟩⟩

theorem tells_float {t : Tok} (k : t.kind = .float) (h1 : quiet D (assignFloat H (.atom t)) = (none, D')) :
    Tells H D D' [t] (excFloat (ParserToken.atom t : ParserToken F W).head t.line) := by
  obtain ⟨h2, rfl⟩ := Prod.mk.inj h1
  clear h1
  have h1 := h2
  clear h2
  unfold assignFloat at h1
  unfold excFloat
  rw [if_neg (by simp [ParserToken.atom, k])] at h1 ⊢
  rw [Option.map_eq_none_iff] at h1
  exact ⟨t, by simp, Or.inr ⟨k, h1⟩⟩

theorem makeList_none (ts : List Ty) (es : List (Expr F W)) (h : makeList ts es = none) : es.length ≠ ts.length := by
  induction ts generalizing es with
  | nil => cases es with
    | nil => cases h
    | cons e es => simp
  | cons t ts ih => cases es with
    | nil => simp
    | cons e es =>
      simp only [makeList, Option.map_eq_none_iff] at h
      simpa using ih es h

theorem args_length (a l : List (Expr F W)) : (Grammar.assignFunctionArgs a l).length = l.length + a.length := by
  induction l generalizing a with
  | nil => simp [Grammar.assignFunctionArgs]
  | cons e l ih =>
    rw [Grammar.assignFunctionArgs, ih]
    simp
    omega

theorem build_length (env : Grammar.Env F W) : ∀ (g : Grammar.ExprList F) (l : List (Expr F W)), g.build env = some l → l.length = arguments g
  | .snoc a b, l, h => by
    simp only [Grammar.ExprList.build, Option.bind_eq_some_iff, Option.map_eq_some_iff] at h
    obtain ⟨m, hm, y, -, rfl⟩ := h
    rw [arguments, List.length_cons, build_length env a m hm]
  | .one a, l, h => by
    simp only [Grammar.ExprList.build, Option.map_eq_some_iff] at h
    obtain ⟨y, -, rfl⟩ := h
    rfl

theorem tells_excFunction {t l r : Tok} {args : List Tok} {es : List (Expr F W)} (k : t.kind = .identifier) (kl : l.kind = .lbracket)
    (kr : r.kind = .rbracket) (ha : IsArguments H.ops args es.length) (h : getExpression H.func (textOf t.text) es = none) (D0 D : DeckState F W) :
    Tells H D0 D (t :: l :: (args ++ [r])) (excFunction H (textOf t.text)) := by
  unfold excFunction
  rcases hf : H.func (textOf t.text) with _ | f
  · exact ⟨⟨t, l, _, rfl, k, rfl, kl⟩, hf⟩
  · refine ⟨t, l, args, r, f, es.length, rfl, k, kl, kr, hf, ha, makeList_none _ _ ?_⟩
    unfold getExpression at h
    rw [hf, Option.bind_some, Option.map_eq_none_iff] at h
    exact h

theorem tells_function {t0 t1 t3 : Tok} {T2 : List Tok} {v2 : ParserToken F W × Lines} (k0 : t0.kind = .identifier) (k1 : t1.kind = .lbracket)
    (k3 : t3.kind = .rbracket) (c2 : Good .exprList T2 v2) (r2 : Reads H D .exprList T2 v2)
    (h1 : quiet D (assignFunction H (.atom t0) v2.1) = (none, D')) :
    Tells H D D' (t0 :: t1 :: (T2 ++ [t3])) (excAct H 35 [linedAtom t0, linedAtom t1, v2, linedAtom t3] D) := by
  show Tells H D D' (t0 :: t1 :: (T2 ++ [t3])) (match datas (v2.1.head :: v2.1.chain) with
    | none => .nullPointer
    | some _ => excFunction H (textOf t0.text))
  obtain ⟨g, hm, hb⟩ := r2
  obtain ⟨h2, -⟩ := Prod.mk.inj h1
  unfold assignFunction at h2
  rcases hd : datas (v2.1.head :: v2.1.chain) with _ | l
  · exact absurd hd c2
  · rw [hd, Option.bind_some, Option.map_eq_none_iff] at h2
    rw [hd] at hb
    refine tells_excFunction k0 k1 k3 (Or.inr ⟨g, hm, ?_⟩) h2 D D'
    rw [args_length, build_length _ g l hb]
    rfl

theorem tells_functionNone {t0 t1 t2 : Tok} (k0 : t0.kind = .identifier) (k1 : t1.kind = .lbracket) (k2 : t2.kind = .rbracket)
    (h1 : quiet D (assignFunctionNone H (.atom t0)) = (none, D')) : Tells H D D' [t0, t1, t2] (excFunction H (textOf t0.text)) := by
  obtain ⟨h2, -⟩ := Prod.mk.inj h1
  unfold assignFunctionNone at h2
  rw [Option.map_eq_none_iff] at h2
  exact tells_excFunction (args := []) k0 k1 k2 (Or.inl ⟨rfl, rfl⟩) h2 D D'

theorem tells_end {t : Tok} (k : t.kind = .rbrace) (h1 : effect D.endBlock = ((none : Option (ParserToken F W)), D')) :
    Tells H D D' [t] (.parserError .extraBrace t.line) := by
  unfold effect endBlock at h1
  rcases hp : D.store.parentOf D.store.cursor with _ | p
  · rw [hp] at h1
    cases h1
    refine ⟨⟨t, by simp, k, rfl⟩, fun b hb => ?_⟩
    rw [Vars.directlyIn_iff, hp] at hb
    cases hb
  · rw [hp] at h1
    cases h1

theorem tells_createBlock {c n : Tok} {T : List Tok} (hS : Sane D) (hc : c.kind = .identifier) (hn : n.kind = .identifier) (hcT : c ∈ T)
    (hnT : n ∈ T) (h1 : effect (ParserToken.createBlock H D (.atom c) (.atom n)) = (none, D')) :
    Tells H D D' T (excCreate D (ParserToken.atom c : ParserToken F W).head (ParserToken.atom n : ParserToken F W).head c.line n.line) := by
  obtain ⟨h2, h3⟩ := Prod.mk.inj h1
  have h1 : ParserToken.createBlock H D (.atom c) (.atom n) = (false, D') := by
    refine Prod.ext ?_ h3
    cases hb : (ParserToken.createBlock H D (.atom c) (.atom n)).1 with
    | false => rfl
    | true => rw [hb] at h2; cases h2
  clear h2 h3
  unfold ParserToken.createBlock DeckState.createBlock at h1
  unfold excCreate
  rw [if_neg (by simp [ParserToken.atom, hc]), if_neg (by simp [ParserToken.atom, hn])] at h1 ⊢
  by_cases hr : (D.restr && !D.hasChild D.currentClass (textOf c.text)) = true
  · have hr' : (D.restr && !D.hasChild D.currentClass (ParserToken.atom c : ParserToken F W).head.text) = true := hr
    rw [if_pos hr'] at h1 ⊢
    cases h1
    simp only [Bool.and_eq_true, Bool.not_eq_true'] at hr
    have hB := List.getElem?_eq_getElem hS.dinv.store.cursor
    have hcur : D.currentClass = (D.store.blocks[D.store.cursor]'hS.dinv.store.cursor).className := by
      unfold currentClass
      rw [hB]
      rfl
    rcases hf : find D.classes D.currentClass with _ | d
    · exfalso
      rw [Vars.find_none] at hf
      refine hf (hS.registered _ ?_)
      rw [hcur]
      exact List.mem_map.2 ⟨_, List.getElem_mem _, rfl⟩
    · refine ⟨⟨_, n, hnT, hn, rfl, rfl⟩, ⟨_, c, hcT, hc, rfl, rfl⟩, hr.1, ⟨_, hB, hcur.symm⟩, d, hf, ?_⟩
      have h2 := hr.2
      unfold hasChild at h2
      rw [hf] at h2
      have h4 : textOf c.text ∉ d.allowedChildren := by simpa using h2
      exact h4
  · have hr' : ¬ (D.restr && !D.hasChild D.currentClass (ParserToken.atom c : ParserToken F W).head.text) = true := hr
    rw [if_neg hr'] at h1 ⊢
    rcases hst : D.store.createBlock (textOf n.text) (textOf c.text) with _ | st
    · have hst' : D.store.createBlock (ParserToken.atom n : ParserToken F W).head.text (ParserToken.atom c : ParserToken F W).head.text = none := hst
      rw [hst'] at h1
      cases h1
      refine ⟨⟨n, hnT, hn, rfl, rfl⟩, ?_⟩
      unfold Storage.createBlock at hst
      rcases hch : D.store.childOf D.store.cursor (textOf n.text) with _ | b
      · rw [hch] at hst
        cases hst
      · exact ⟨b, (Vars.childOf_iff hS.dinv.store _ hS.dinv.store.cursor _ _).1 hch⟩
    · have hst' : D.store.createBlock (ParserToken.atom n : ParserToken F W).head.text (ParserToken.atom c : ParserToken F W).head.text =
        some st := hst
      rw [hst'] at h1
      cases h1

theorem lhsType_typed {x : Variable F W} (h : Typed x) : lhsType x = x.ty := by
  unfold lhsType
  cases hx : x.fixed with
  | true => exact h.1 hx
  | false =>
    obtain ⟨e, he, ht⟩ := h.2 hx
    rw [he]
    exact ht

theorem tells_evaluate {D0 : DeckState F W} {T : List Tok} {x y : Expr F W} (hS : Sane D) (hu : Untouched D0 D) (hx : ValueIn H D0 T x)
    (hy : y = x ∨ ∃ t, y = .cast t x) (h : D.evaluate H y = none) : Tells H D0 D T (excEvaluate H D y) := by
  have hr : Fault.Refs (Fault.HasType D) y := by
    obtain ⟨a, u, sub, b, g, -, -, -, hg⟩ := hx
    obtain ⟨st, heap, id, hD, -⟩ := hu
    have := Fault.refs_env H (D' := D) ⟨heap, by rw [hD]⟩ g x hg
    rcases hy with rfl | ⟨t, rfl⟩
    · exact this
    · exact Fault.refs_cast t x this
  unfold evaluate at h
  split at h
  · rename_i hc
    obtain ⟨f, hf⟩ := Fault.error_of_none (Fault.eval_toOption H.ops D.state y) (by simpa using h)
    obtain ⟨h1, h2⟩ := Fault.constant_reason hS.dinv.typed hr hc hf
    unfold excEvaluate
    rw [hf]
    exact ⟨h1, x, y, hx, hy, hc, h2⟩
  · cases h

theorem tells_update {T0 T : List Tok} {v0 : ParserToken F W × Lines} (hS : Sane D) (c0 : Good .assignment T0 v0)
    (r0 : Reads H D .assignment T0 v0)
    (h1 : effect (updateVariable H D v0.1) = (none, D')) : Tells H D D' (T0 ++ T) (excUpdate H D v0.1.head v0.2.head) := by
  obtain ⟨c1, c2, c3, c4, -, c6, c7⟩ := c0
  have hn : NameAt (T0 ++ T) v0.1.head.text v0.2.head := NameAt.mono c1 (by simp +contextual)
  obtain ⟨h1, h2⟩ := Prod.mk.inj h1
  have h1 : (updateVariable H D v0.1).1 = false := by
    cases hb : (updateVariable H D v0.1).1 with
    | false => rfl
    | true => rw [hb] at h1; cases h1
  unfold updateVariable at h1 h2
  unfold excUpdate
  rcases hv : D.store.getVariable D.store.cursor v0.1.head.text with _ | v
  · rw [hv] at h2
    cases h2
    exact ⟨hn, unknown_of hS hv⟩
  · have hlt := getVariable_lt hS hS.dinv.store.cursor hv
    rcases he : v0.1.head.data with _ | e
    · exact absurd he c4
    rw [hv, he] at h1 h2
    simp only [List.getElem?_eq_getElem hlt] at h1 h2 ⊢
    generalize hx : D.heap[v]'hlt = x at h1 h2 ⊢
    have hx' : D.heap[v]? = some x := by rw [List.getElem?_eq_getElem hlt, hx]
    have hl := lhsType_typed (hS.dinv.typed v x hx')
    rcases hy : D.evaluate H (promoteAssign (lhsType x) e) with _ | y
    · rw [hy] at h2
      cases h2
      refine tells_evaluate hS (untouched_refl D) (valueIn_mono (r0 e he) [] T) ?_ hy
      unfold promoteAssign
      split
      · exact Or.inl rfl
      · exact Or.inr ⟨_, rfl⟩
    · rw [hy] at h1 h2
      obtain ⟨-, -, hty, -⟩ := evaluate_typed hy
      have hxy : x.ty = y.ty := by
        rw [hty, ← hl]
        unfold promoteAssign
        split
        · rename_i h
          exact h.symm
        · rfl
      simp only [Variable.assign, hxy, ne_eq, not_true_eq_false, if_false] at h1 h2
      simp only [hxy, ne_eq, not_true_eq_false, if_false]
      by_cases hr : x.readOnly = true
      · rw [if_pos hr] at h2
        cases h2
        refine ⟨hn, fun path hp => ⟨v, x, ?_, hx', hr⟩⟩
        exact (Vars.getVariable_iff hS.dinv.store _ hS.dinv.store.cursor path _ hp v).1 hv
      · rw [if_neg hr] at h1
        cases h1

theorem declTy_keyword (ty : Ty) : declTy (some (keyword ty)) = some ty := by cases ty <;> rfl

theorem tells_storeData {D0 : DeckState F W} {T : List Tok} {t : Tok} {ty : Ty} (hS : Sane D) (hu : Untouched D0 D) (ht : t ∈ T)
    (k : t.kind = keyword ty) {d : TokData F W} {line : ℕ} (hd : DeclAt T d line) (hr : ∀ x, d.data = some x → ValueIn H D0 T x)
    (h1 : (storeData H (ParserToken.atom t : ParserToken F W).head D d).1 = false) :
    Tells H D0 (storeData H (ParserToken.atom t : ParserToken F W).head D d).2 T
      (excStoreData H (ParserToken.atom t : ParserToken F W).head t.line D d line) := by
  obtain ⟨d1, d2, d3⟩ := hd
  have hk : declTy (ParserToken.atom t : ParserToken F W).head.kind = some ty := by
    show declTy (some t.kind) = _
    rw [k, declTy_keyword]
  unfold storeData at h1 ⊢
  unfold excStoreData
  rcases d3 with ⟨d3, d4, -⟩ | ⟨d3, d4, d5⟩
  · rcases he : d.data with _ | e
    · exact absurd he d4
    rw [he] at h1
    simp only at h1 ⊢
    rcases hx : D.evaluate H e with _ | x
    · exact tells_evaluate hS hu (hr e he) (Or.inl rfl) hx
    rw [hx] at h1
    simp only at h1 ⊢
    unfold ensureVariable at h1 ⊢
    unfold excEnsure
    rw [if_neg (by simp [ParserToken.atom]), d3, hk] at h1 ⊢
    simp only at h1 ⊢
    by_cases hty : x.ty = ty
    · rw [if_pos hty] at h1 ⊢
      simp only at h1 ⊢
      rcases hst : D.store.addVariable d.text D.heap.length with _ | st
      · refine ⟨d1, ?_⟩
        unfold Storage.addVariable Storage.addVariableTo at hst
        rcases hv : D.store.varOf D.store.cursor d.text with _ | v
        · rw [hv] at hst
          cases hst
        · exact ⟨v, (Vars.varOf_iff hS.dinv.store _ _ _).1 hv⟩
      · rw [hst] at h1
        cases h1
    · rw [if_neg hty] at h1 ⊢
      simp only [ParserToken.atom, ne_eq, not_true_eq_false, if_false]
      refine ⟨⟨t, ht, k, rfl⟩, e, hr e he, fun h => hty ?_⟩
      rw [← h]
      exact (evaluate_typed hx).2.2.1
  · rw [d4]
    exact d5

theorem tells_storeChain {D0 : DeckState F W} {T : List Tok} {t : Tok} {ty : Ty} (ht : t ∈ T) (k : t.kind = keyword ty)
    (ds : List (TokData F W)) (ls : List ℕ) (hd : List.Forall₂ (DeclAt T) ds ls) (hr : ∀ d ∈ ds, ∀ x, d.data = some x → ValueIn H D0 T x) :
    ∀ D : DeckState F W, Sane D → Untouched D0 D → (DeckState.chain (storeData H (ParserToken.atom t : ParserToken F W).head) ds D).1 = false →
    Tells H D0 (DeckState.chain (storeData H (ParserToken.atom t : ParserToken F W).head) ds D).2 T
      (excStore H (ParserToken.atom t : ParserToken F W).head t.line ds ls D) := by
  induction hd with
  | nil => intro D _ _ h; cases h
  | @cons d l ds ls hd _ ih =>
    intro D hS hu h1
    have h2 := fun h => tells_storeData (H := H) hS hu ht k hd (hr d (by simp)) h
    have h3 := sane_storeData H (ParserToken.atom t : ParserToken F W).head D d hS
    have h4 := untouched_trans hu (untouched_storeData H (ParserToken.atom t : ParserToken F W).head D d)
    unfold DeckState.chain at h1 ⊢
    unfold excStore
    rcases hs : storeData H (ParserToken.atom t : ParserToken F W).head D d with ⟨_ | _, D1⟩
    · rw [hs] at h2
      exact h2 rfl
    · rw [hs] at h1 h3 h4
      exact ih (fun d hd => hr d (by simp [hd])) D1 h3 h4 h1

theorem tells_store {T1 T2 : List Tok} {T0 : List Tok} {v0 v1 v2 : ParserToken F W × Lines} (hS : Sane D)
    (hT2 : ∀ u, T2.head? = some u → u.kind ≠ .equal) (c0 : Good .typedecl T0 v0) (c1 : Good .decllist T1 v1) (r1 : Reads H D .decllist T1 v1)
    (h1 : effect (storeVariable H D v0.1 v1.1) = (none, D')) :
    Tells H D D' (T0 ++ (T1 ++ T2)) (excAct H 3 [v0, v1, v2] D) := by
  obtain ⟨t, ty, rfl, rfl, k⟩ := c0
  obtain ⟨h2, rfl⟩ := Prod.mk.inj h1
  have h1 : (storeVariable H D (ParserToken.atom t) v1.1).1 = false := by
    cases hb : (storeVariable H D (ParserToken.atom t) v1.1).1 with
    | false => rfl
    | true =>
      have hb' : (storeVariable H D (linedAtom t : ParserToken F W × Lines).1 v1.1).1 = true := hb
      rw [hb'] at h2; cases h2
  exact tells_storeChain (T := [t] ++ (T1 ++ T2)) (by simp) k _ _
    (List.Forall₂.imp (fun a b h => h.mono [t] T2 hT2) c1)
    (fun d hd x hx => valueIn_mono (r1 d hd x hx) [t] T2) D hS (untouched_refl D) h1

end

/-! ## all the rules -/

theorem good_rule (H : Host F W) (r : Fin 48) (T : List Tok) (vs : List (ParserToken F W × Lines)) (D D' : DeckState F W)
    (p : ParserToken F W) (h : GoodAll (rhs r) T vs) (h1 : deckAct H r (vs.map Prod.fst) D = (some p, D')) :
    Good (lhs r) T (p, lineAct r (vs.map Prod.snd)) := by
  fin_cases r
  · -- 0
    obtain ⟨T0, T, v0, vs, rfl, rfl, c0, h⟩ := h
    obtain ⟨rfl, rfl⟩ := h
    change quiet D (some ParserToken.default) = (some p, D') at h1
    trivial
  · -- 1
    obtain ⟨T0, T, v0, vs, rfl, rfl, c0, h⟩ := h
    obtain ⟨T1, T, v1, vs, rfl, rfl, c1, h⟩ := h
    obtain ⟨rfl, rfl⟩ := h
    change quiet D (some ParserToken.default) = (some p, D') at h1
    trivial
  · -- 2
    obtain ⟨T0, T, v0, vs, rfl, rfl, c0, h⟩ := h
    obtain ⟨rfl, rfl⟩ := h
    change quiet D (some ParserToken.default) = (some p, D') at h1
    trivial
  · -- 3
    obtain ⟨T0, T, v0, vs, rfl, rfl, c0, h⟩ := h
    obtain ⟨T1, T, v1, vs, rfl, rfl, c1, h⟩ := h
    obtain ⟨t2, T, vs, rfl, rfl, k2, h⟩ := h
    obtain ⟨rfl, rfl⟩ := h
    change effect (storeVariable H D v0.1 v1.1) = (some p, D') at h1
    trivial
  · -- 4
    obtain ⟨T0, T, v0, vs, rfl, rfl, c0, h⟩ := h
    obtain ⟨t1, T, vs, rfl, rfl, k1, h⟩ := h
    obtain ⟨rfl, rfl⟩ := h
    change effect (updateVariable H D v0.1) = (some p, D') at h1
    trivial
  · -- 5
    obtain ⟨t0, T, vs, rfl, rfl, k0, h⟩ := h
    obtain ⟨t1, T, vs, rfl, rfl, k1, h⟩ := h
    obtain ⟨t2, T, vs, rfl, rfl, k2, h⟩ := h
    obtain ⟨rfl, rfl⟩ := h
    change quiet D (some ParserToken.default) = (some p, D') at h1
    trivial
  · -- 6
    obtain ⟨T0, T, v0, vs, rfl, rfl, c0, h⟩ := h
    obtain ⟨rfl, rfl⟩ := h
    change quiet D (some ParserToken.default) = (some p, D') at h1
    trivial
  · -- 7
    obtain ⟨t0, T, vs, rfl, rfl, k0, h⟩ := h
    obtain ⟨rfl, rfl⟩ := h
    change effect D.endBlock = (some p, D') at h1
    trivial
  · -- 8
    exact h.elim
  · -- 9
    obtain ⟨t0, T, vs, rfl, rfl, k0, h⟩ := h
    obtain ⟨t1, T, vs, rfl, rfl, k1, h⟩ := h
    obtain ⟨t2, T, vs, rfl, rfl, k2, h⟩ := h
    obtain ⟨rfl, rfl⟩ := h
    change effect (createBlock H D (ParserToken.atom t0) (ParserToken.atom t1)) = (some p, D') at h1
    trivial
  · -- 10
    obtain ⟨t0, T, vs, rfl, rfl, k0, h⟩ := h
    obtain ⟨t1, T, vs, rfl, rfl, k1, h⟩ := h
    obtain ⟨rfl, rfl⟩ := h
    change effect (createBlock H D (ParserToken.atom t0) (ParserToken.atom t0)) = (some p, D') at h1
    trivial
  · -- 11
    obtain ⟨T0, T, v0, vs, rfl, rfl, c0, h⟩ := h
    obtain ⟨t1, T, vs, rfl, rfl, k1, h⟩ := h
    obtain ⟨T2, T, v2, vs, rfl, rfl, c2, h⟩ := h
    obtain ⟨rfl, rfl⟩ := h
    change quiet D (some (v2.1.append v0.1)) = (some p, D') at h1
    cases h1
    exact decllist_snoc (t := t1) (by rw [k1]; decide) c0 c2
  · -- 12
    obtain ⟨T0, T, v0, vs, rfl, rfl, c0, h⟩ := h
    obtain ⟨rfl, rfl⟩ := h
    change quiet D (some v0.1) = (some p, D') at h1
    cases h1
    exact decllist_one c0
  · -- 13
    obtain ⟨t0, T, vs, rfl, rfl, k0, h⟩ := h
    obtain ⟨rfl, rfl⟩ := h
    change quiet D (some (ParserToken.atom t0)) = (some p, D') at h1
    cases h1
    exact declaration_bare k0
  · -- 14
    obtain ⟨T0, T, v0, vs, rfl, rfl, c0, h⟩ := h
    obtain ⟨rfl, rfl⟩ := h
    change quiet D (some v0.1) = (some p, D') at h1
    cases h1
    exact declaration_assign c0
  · -- 15
    exact h.elim
  · -- 16
    obtain ⟨t0, T, vs, rfl, rfl, k0, h⟩ := h
    obtain ⟨t1, T, vs, rfl, rfl, k1, h⟩ := h
    obtain ⟨T2, T, v2, vs, rfl, rfl, c2, h⟩ := h
    obtain ⟨rfl, rfl⟩ := h
    change quiet D (ParserToken.evaluateExpression (ParserToken.atom t0) v2.1) = (some p, D') at h1
    exact assignment_good k0 k1 c2 (Prod.mk.inj h1).1
  · -- 17
    obtain ⟨T0, T, v0, vs, rfl, rfl, c0, h⟩ := h
    obtain ⟨t1, T, vs, rfl, rfl, k1, h⟩ := h
    obtain ⟨T2, T, v2, vs, rfl, rfl, c2, h⟩ := h
    obtain ⟨rfl, rfl⟩ := h
    change quiet D (assignBinaryOperator .add v0.1 v2.1) = (some p, D') at h1
    exact binary_good (Prod.mk.inj h1).1
  · -- 18
    obtain ⟨T0, T, v0, vs, rfl, rfl, c0, h⟩ := h
    obtain ⟨t1, T, vs, rfl, rfl, k1, h⟩ := h
    obtain ⟨T2, T, v2, vs, rfl, rfl, c2, h⟩ := h
    obtain ⟨rfl, rfl⟩ := h
    change quiet D (assignBinaryOperator .sub v0.1 v2.1) = (some p, D') at h1
    exact binary_good (Prod.mk.inj h1).1
  · -- 19
    obtain ⟨T0, T, v0, vs, rfl, rfl, c0, h⟩ := h
    obtain ⟨rfl, rfl⟩ := h
    change quiet D (some v0.1) = (some p, D') at h1
    cases h1
    exact c0
  · -- 20
    obtain ⟨T0, T, v0, vs, rfl, rfl, c0, h⟩ := h
    obtain ⟨t1, T, vs, rfl, rfl, k1, h⟩ := h
    obtain ⟨T2, T, v2, vs, rfl, rfl, c2, h⟩ := h
    obtain ⟨rfl, rfl⟩ := h
    change quiet D (assignBinaryOperator .add v0.1 v2.1) = (some p, D') at h1
    exact binary_good (Prod.mk.inj h1).1
  · -- 21
    obtain ⟨T0, T, v0, vs, rfl, rfl, c0, h⟩ := h
    obtain ⟨t1, T, vs, rfl, rfl, k1, h⟩ := h
    obtain ⟨T2, T, v2, vs, rfl, rfl, c2, h⟩ := h
    obtain ⟨rfl, rfl⟩ := h
    change quiet D (assignBinaryOperator .sub v0.1 v2.1) = (some p, D') at h1
    exact binary_good (Prod.mk.inj h1).1
  · -- 22
    obtain ⟨T0, T, v0, vs, rfl, rfl, c0, h⟩ := h
    obtain ⟨rfl, rfl⟩ := h
    change quiet D (some v0.1) = (some p, D') at h1
    cases h1
    exact c0
  · -- 23
    obtain ⟨t0, T, vs, rfl, rfl, k0, h⟩ := h
    obtain ⟨T1, T, v1, vs, rfl, rfl, c1, h⟩ := h
    obtain ⟨rfl, rfl⟩ := h
    change quiet D (some v1.1) = (some p, D') at h1
    cases h1
    exact c1
  · -- 24
    obtain ⟨t0, T, vs, rfl, rfl, k0, h⟩ := h
    obtain ⟨T1, T, v1, vs, rfl, rfl, c1, h⟩ := h
    obtain ⟨rfl, rfl⟩ := h
    change quiet D (assignUnaryOperator .neg v1.1) = (some p, D') at h1
    exact unary_good (Prod.mk.inj h1).1
  · -- 25
    obtain ⟨T0, T, v0, vs, rfl, rfl, c0, h⟩ := h
    obtain ⟨rfl, rfl⟩ := h
    change quiet D (some v0.1) = (some p, D') at h1
    cases h1
    exact c0
  · -- 26
    obtain ⟨T0, T, v0, vs, rfl, rfl, c0, h⟩ := h
    obtain ⟨t1, T, vs, rfl, rfl, k1, h⟩ := h
    obtain ⟨T2, T, v2, vs, rfl, rfl, c2, h⟩ := h
    obtain ⟨rfl, rfl⟩ := h
    change quiet D (assignBinaryOperator .mul v0.1 v2.1) = (some p, D') at h1
    exact binary_good (Prod.mk.inj h1).1
  · -- 27
    obtain ⟨T0, T, v0, vs, rfl, rfl, c0, h⟩ := h
    obtain ⟨t1, T, vs, rfl, rfl, k1, h⟩ := h
    obtain ⟨T2, T, v2, vs, rfl, rfl, c2, h⟩ := h
    obtain ⟨rfl, rfl⟩ := h
    change quiet D (assignBinaryOperator .div v0.1 v2.1) = (some p, D') at h1
    exact binary_good (Prod.mk.inj h1).1
  · -- 28
    obtain ⟨T0, T, v0, vs, rfl, rfl, c0, h⟩ := h
    obtain ⟨rfl, rfl⟩ := h
    change quiet D (some v0.1) = (some p, D') at h1
    cases h1
    exact c0
  · -- 29
    obtain ⟨T0, T, v0, vs, rfl, rfl, c0, h⟩ := h
    obtain ⟨t1, T, vs, rfl, rfl, k1, h⟩ := h
    obtain ⟨T2, T, v2, vs, rfl, rfl, c2, h⟩ := h
    obtain ⟨rfl, rfl⟩ := h
    change quiet D (assignBinaryOperator .pow v0.1 v2.1) = (some p, D') at h1
    exact binary_good (Prod.mk.inj h1).1
  · -- 30
    obtain ⟨T0, T, v0, vs, rfl, rfl, c0, h⟩ := h
    obtain ⟨rfl, rfl⟩ := h
    change quiet D (some v0.1) = (some p, D') at h1
    cases h1
    exact c0
  · -- 31
    obtain ⟨t0, T, vs, rfl, rfl, k0, h⟩ := h
    obtain ⟨T1, T, v1, vs, rfl, rfl, c1, h⟩ := h
    obtain ⟨rfl, rfl⟩ := h
    change quiet D (some v1.1) = (some p, D') at h1
    cases h1
    exact c1
  · -- 32
    obtain ⟨t0, T, vs, rfl, rfl, k0, h⟩ := h
    obtain ⟨T1, T, v1, vs, rfl, rfl, c1, h⟩ := h
    obtain ⟨rfl, rfl⟩ := h
    change quiet D (assignUnaryOperator .neg v1.1) = (some p, D') at h1
    exact unary_good (Prod.mk.inj h1).1
  · -- 33
    obtain ⟨T0, T, v0, vs, rfl, rfl, c0, h⟩ := h
    obtain ⟨rfl, rfl⟩ := h
    change quiet D (some v0.1) = (some p, D') at h1
    cases h1
    exact c0
  · -- 34
    obtain ⟨t0, T, vs, rfl, rfl, k0, h⟩ := h
    obtain ⟨T1, T, v1, vs, rfl, rfl, c1, h⟩ := h
    obtain ⟨t2, T, vs, rfl, rfl, k2, h⟩ := h
    obtain ⟨rfl, rfl⟩ := h
    change quiet D (assignUnaryOperator .id v1.1) = (some p, D') at h1
    exact unary_good (Prod.mk.inj h1).1
  · -- 35
    obtain ⟨t0, T, vs, rfl, rfl, k0, h⟩ := h
    obtain ⟨t1, T, vs, rfl, rfl, k1, h⟩ := h
    obtain ⟨T2, T, v2, vs, rfl, rfl, c2, h⟩ := h
    obtain ⟨t3, T, vs, rfl, rfl, k3, h⟩ := h
    obtain ⟨rfl, rfl⟩ := h
    change quiet D (assignFunction H (ParserToken.atom t0) v2.1) = (some p, D') at h1
    exact function_good (Prod.mk.inj h1).1
  · -- 36
    obtain ⟨t0, T, vs, rfl, rfl, k0, h⟩ := h
    obtain ⟨t1, T, vs, rfl, rfl, k1, h⟩ := h
    obtain ⟨t2, T, vs, rfl, rfl, k2, h⟩ := h
    obtain ⟨rfl, rfl⟩ := h
    change quiet D (assignFunctionNone H (ParserToken.atom t0)) = (some p, D') at h1
    exact functionNone_good (Prod.mk.inj h1).1
  · -- 37
    obtain ⟨T0, T, v0, vs, rfl, rfl, c0, h⟩ := h
    obtain ⟨rfl, rfl⟩ := h
    change quiet D (assignUnaryOperator .id v0.1) = (some p, D') at h1
    exact unary_good (Prod.mk.inj h1).1
  · -- 38
    obtain ⟨T0, T, v0, vs, rfl, rfl, c0, h⟩ := h
    obtain ⟨t1, T, vs, rfl, rfl, k1, h⟩ := h
    obtain ⟨T2, T, v2, vs, rfl, rfl, c2, h⟩ := h
    obtain ⟨rfl, rfl⟩ := h
    change quiet D (some (v2.1.append v0.1)) = (some p, D') at h1
    cases h1
    exact exprList_snoc c0 c2
  · -- 39
    obtain ⟨T0, T, v0, vs, rfl, rfl, c0, h⟩ := h
    obtain ⟨rfl, rfl⟩ := h
    change quiet D (makeExpressionList v0.1) = (some p, D') at h1
    exact exprList_one c0 (Prod.mk.inj h1).1
  · -- 40
    obtain ⟨t0, T, vs, rfl, rfl, k0, h⟩ := h
    obtain ⟨rfl, rfl⟩ := h
    change quiet D (assignIdentifier H D (ParserToken.atom t0)) = (some p, D') at h1
    exact identifier_good (Prod.mk.inj h1).1
  · -- 41
    obtain ⟨t0, T, vs, rfl, rfl, k0, h⟩ := h
    obtain ⟨rfl, rfl⟩ := h
    change quiet D (assignIdentifier H D (ParserToken.atom t0)) = (some p, D') at h1
    exact identifier_good (Prod.mk.inj h1).1
  · -- 42
    obtain ⟨t0, T, vs, rfl, rfl, k0, h⟩ := h
    obtain ⟨rfl, rfl⟩ := h
    change quiet D (assignInteger H (ParserToken.atom t0)) = (some p, D') at h1
    exact integer_good (Prod.mk.inj h1).1
  · -- 43
    obtain ⟨t0, T, vs, rfl, rfl, k0, h⟩ := h
    obtain ⟨rfl, rfl⟩ := h
    change quiet D (assignFloat H (ParserToken.atom t0)) = (some p, D') at h1
    exact float_good (Prod.mk.inj h1).1
  · -- 44
    obtain ⟨t0, T, vs, rfl, rfl, k0, h⟩ := h
    obtain ⟨rfl, rfl⟩ := h
    change quiet D (assignString (ParserToken.atom t0)) = (some p, D') at h1
    exact string_good (Prod.mk.inj h1).1
  · -- 45
    obtain ⟨t0, T, vs, rfl, rfl, k0, h⟩ := h
    obtain ⟨rfl, rfl⟩ := h
    change quiet D (some (ParserToken.atom t0)) = (some p, D') at h1
    cases h1
    exact ⟨t0, .int, rfl, rfl, k0⟩
  · -- 46
    obtain ⟨t0, T, vs, rfl, rfl, k0, h⟩ := h
    obtain ⟨rfl, rfl⟩ := h
    change quiet D (some (ParserToken.atom t0)) = (some p, D') at h1
    cases h1
    exact ⟨t0, .float, rfl, rfl, k0⟩
  · -- 47
    obtain ⟨t0, T, vs, rfl, rfl, k0, h⟩ := h
    obtain ⟨rfl, rfl⟩ := h
    change quiet D (some (ParserToken.atom t0)) = (some p, D') at h1
    cases h1
    exact ⟨t0, .str, rfl, rfl, k0⟩

theorem reads_rule (H : Host F W) (r : Fin 48) (T : List Tok) (vs : List (ParserToken F W × Lines)) (D D' : DeckState F W)
    (p : ParserToken F W) (h : ReadsAll H D (rhs r) T vs) (h1 : deckAct H r (vs.map Prod.fst) D = (some p, D')) :
    Reads H D (lhs r) T (p, lineAct r (vs.map Prod.snd)) := by
  fin_cases r
  · -- 0
    obtain ⟨T0, T, v0, vs, rfl, rfl, c0, r0, h⟩ := h
    obtain ⟨rfl, rfl⟩ := h
    change quiet D (some ParserToken.default) = (some p, D') at h1
    trivial
  · -- 1
    obtain ⟨T0, T, v0, vs, rfl, rfl, c0, r0, h⟩ := h
    obtain ⟨T1, T, v1, vs, rfl, rfl, c1, r1, h⟩ := h
    obtain ⟨rfl, rfl⟩ := h
    change quiet D (some ParserToken.default) = (some p, D') at h1
    trivial
  · -- 2
    obtain ⟨T0, T, v0, vs, rfl, rfl, c0, r0, h⟩ := h
    obtain ⟨rfl, rfl⟩ := h
    change quiet D (some ParserToken.default) = (some p, D') at h1
    trivial
  · -- 3
    obtain ⟨T0, T, v0, vs, rfl, rfl, c0, r0, h⟩ := h
    obtain ⟨T1, T, v1, vs, rfl, rfl, c1, r1, h⟩ := h
    obtain ⟨t2, T, vs, rfl, rfl, k2, h⟩ := h
    obtain ⟨rfl, rfl⟩ := h
    change effect (storeVariable H D v0.1 v1.1) = (some p, D') at h1
    trivial
  · -- 4
    obtain ⟨T0, T, v0, vs, rfl, rfl, c0, r0, h⟩ := h
    obtain ⟨t1, T, vs, rfl, rfl, k1, h⟩ := h
    obtain ⟨rfl, rfl⟩ := h
    change effect (updateVariable H D v0.1) = (some p, D') at h1
    trivial
  · -- 5
    obtain ⟨t0, T, vs, rfl, rfl, k0, h⟩ := h
    obtain ⟨t1, T, vs, rfl, rfl, k1, h⟩ := h
    obtain ⟨t2, T, vs, rfl, rfl, k2, h⟩ := h
    obtain ⟨rfl, rfl⟩ := h
    change quiet D (some ParserToken.default) = (some p, D') at h1
    trivial
  · -- 6
    obtain ⟨T0, T, v0, vs, rfl, rfl, c0, r0, h⟩ := h
    obtain ⟨rfl, rfl⟩ := h
    change quiet D (some ParserToken.default) = (some p, D') at h1
    trivial
  · -- 7
    obtain ⟨t0, T, vs, rfl, rfl, k0, h⟩ := h
    obtain ⟨rfl, rfl⟩ := h
    change effect D.endBlock = (some p, D') at h1
    trivial
  · -- 8
    exact h.elim
  · -- 9
    obtain ⟨t0, T, vs, rfl, rfl, k0, h⟩ := h
    obtain ⟨t1, T, vs, rfl, rfl, k1, h⟩ := h
    obtain ⟨t2, T, vs, rfl, rfl, k2, h⟩ := h
    obtain ⟨rfl, rfl⟩ := h
    change effect (createBlock H D (ParserToken.atom t0) (ParserToken.atom t1)) = (some p, D') at h1
    trivial
  · -- 10
    obtain ⟨t0, T, vs, rfl, rfl, k0, h⟩ := h
    obtain ⟨t1, T, vs, rfl, rfl, k1, h⟩ := h
    obtain ⟨rfl, rfl⟩ := h
    change effect (createBlock H D (ParserToken.atom t0) (ParserToken.atom t0)) = (some p, D') at h1
    trivial
  · -- 11
    obtain ⟨T0, T, v0, vs, rfl, rfl, c0, r0, h⟩ := h
    obtain ⟨t1, T, vs, rfl, rfl, k1, h⟩ := h
    obtain ⟨T2, T, v2, vs, rfl, rfl, c2, r2, h⟩ := h
    obtain ⟨rfl, rfl⟩ := h
    change quiet D (some (v2.1.append v0.1)) = (some p, D') at h1
    cases h1
    intro d hd x hx
    rcases List.mem_cons.1 hd with rfl | hd
    · simpa using valueIn_mono (r2 x hx) (T0 ++ [t1]) []
    · exact valueIn_mono (r0 d hd x hx) [] (t1 :: (T2 ++ []))
  · -- 12
    obtain ⟨T0, T, v0, vs, rfl, rfl, c0, r0, h⟩ := h
    obtain ⟨rfl, rfl⟩ := h
    change quiet D (some v0.1) = (some p, D') at h1
    cases h1
    intro d hd x hx
    have hd' : d ∈ v0.1.head :: v0.1.chain := hd
    rw [c0.2.1, List.mem_singleton] at hd'
    subst hd'
    simpa using r0 x hx
  · -- 13
    obtain ⟨t0, T, vs, rfl, rfl, k0, h⟩ := h
    obtain ⟨rfl, rfl⟩ := h
    change quiet D (some (ParserToken.atom t0)) = (some p, D') at h1
    cases h1
    intro x hx
    cases hx
  · -- 14
    obtain ⟨T0, T, v0, vs, rfl, rfl, c0, r0, h⟩ := h
    obtain ⟨rfl, rfl⟩ := h
    change quiet D (some v0.1) = (some p, D') at h1
    cases h1
    intro x hx
    simpa using r0 x hx
  · -- 15
    exact h.elim
  · -- 16
    obtain ⟨t0, T, vs, rfl, rfl, k0, h⟩ := h
    obtain ⟨t1, T, vs, rfl, rfl, k1, h⟩ := h
    obtain ⟨T2, T, v2, vs, rfl, rfl, c2, r2, h⟩ := h
    obtain ⟨rfl, rfl⟩ := h
    change quiet D (ParserToken.evaluateExpression (ParserToken.atom t0) v2.1) = (some p, D') at h1
    exact assignment_reads k0 k1 r2 (Prod.mk.inj h1).1
  · -- 17
    obtain ⟨T0, T, v0, vs, rfl, rfl, c0, r0, h⟩ := h
    obtain ⟨t1, T, vs, rfl, rfl, k1, h⟩ := h
    obtain ⟨T2, T, v2, vs, rfl, rfl, c2, r2, h⟩ := h
    obtain ⟨rfl, rfl⟩ := h
    change quiet D (assignBinaryOperator .add v0.1 v2.1) = (some p, D') at h1
    obtain ⟨e0, b0, d0⟩ := r0
    obtain ⟨e2, b2, d2⟩ := r2
    refine ⟨.add e0 e2, ?_, ?_⟩
    · have := means_app b0 (means_one (show meaning H.ops t1 = some (.expr .plus) by unfold meaning; rw [k1]) (means_app b2 (means_empty)))
      simpa [Grammar.Expression.tokens] using this
    · rw [← binary_reads (Prod.mk.inj h1).1, ← d0, ← d2]
      rfl
  · -- 18
    obtain ⟨T0, T, v0, vs, rfl, rfl, c0, r0, h⟩ := h
    obtain ⟨t1, T, vs, rfl, rfl, k1, h⟩ := h
    obtain ⟨T2, T, v2, vs, rfl, rfl, c2, r2, h⟩ := h
    obtain ⟨rfl, rfl⟩ := h
    change quiet D (assignBinaryOperator .sub v0.1 v2.1) = (some p, D') at h1
    obtain ⟨e0, b0, d0⟩ := r0
    obtain ⟨e2, b2, d2⟩ := r2
    refine ⟨.sub e0 e2, ?_, ?_⟩
    · have := means_app b0 (means_one (show meaning H.ops t1 = some (.expr .minus) by unfold meaning; rw [k1]) (means_app b2 (means_empty)))
      simpa [Grammar.Expression.tokens] using this
    · rw [← binary_reads (Prod.mk.inj h1).1, ← d0, ← d2]
      rfl
  · -- 19
    obtain ⟨T0, T, v0, vs, rfl, rfl, c0, r0, h⟩ := h
    obtain ⟨rfl, rfl⟩ := h
    change quiet D (some v0.1) = (some p, D') at h1
    obtain ⟨e0, b0, d0⟩ := r0
    refine ⟨.one e0, ?_, ?_⟩
    · have := means_app b0 (means_empty)
      simpa [Grammar.Expression.tokens] using this
    · cases h1
      exact d0
  · -- 20
    obtain ⟨T0, T, v0, vs, rfl, rfl, c0, r0, h⟩ := h
    obtain ⟨t1, T, vs, rfl, rfl, k1, h⟩ := h
    obtain ⟨T2, T, v2, vs, rfl, rfl, c2, r2, h⟩ := h
    obtain ⟨rfl, rfl⟩ := h
    change quiet D (assignBinaryOperator .add v0.1 v2.1) = (some p, D') at h1
    obtain ⟨e0, b0, d0⟩ := r0
    obtain ⟨e2, b2, d2⟩ := r2
    refine ⟨.add e0 e2, ?_, ?_⟩
    · have := means_app b0 (means_one (show meaning H.ops t1 = some (.expr .plus) by unfold meaning; rw [k1]) (means_app b2 (means_empty)))
      simpa [Grammar.Unsigned.tokens] using this
    · rw [← binary_reads (Prod.mk.inj h1).1, ← d0, ← d2]
      rfl
  · -- 21
    obtain ⟨T0, T, v0, vs, rfl, rfl, c0, r0, h⟩ := h
    obtain ⟨t1, T, vs, rfl, rfl, k1, h⟩ := h
    obtain ⟨T2, T, v2, vs, rfl, rfl, c2, r2, h⟩ := h
    obtain ⟨rfl, rfl⟩ := h
    change quiet D (assignBinaryOperator .sub v0.1 v2.1) = (some p, D') at h1
    obtain ⟨e0, b0, d0⟩ := r0
    obtain ⟨e2, b2, d2⟩ := r2
    refine ⟨.sub e0 e2, ?_, ?_⟩
    · have := means_app b0 (means_one (show meaning H.ops t1 = some (.expr .minus) by unfold meaning; rw [k1]) (means_app b2 (means_empty)))
      simpa [Grammar.Unsigned.tokens] using this
    · rw [← binary_reads (Prod.mk.inj h1).1, ← d0, ← d2]
      rfl
  · -- 22
    obtain ⟨T0, T, v0, vs, rfl, rfl, c0, r0, h⟩ := h
    obtain ⟨rfl, rfl⟩ := h
    change quiet D (some v0.1) = (some p, D') at h1
    obtain ⟨e0, b0, d0⟩ := r0
    refine ⟨.one e0, ?_, ?_⟩
    · have := means_app b0 (means_empty)
      simpa [Grammar.Unsigned.tokens] using this
    · cases h1
      exact d0
  · -- 23
    obtain ⟨t0, T, vs, rfl, rfl, k0, h⟩ := h
    obtain ⟨T1, T, v1, vs, rfl, rfl, c1, r1, h⟩ := h
    obtain ⟨rfl, rfl⟩ := h
    change quiet D (some v1.1) = (some p, D') at h1
    obtain ⟨e1, b1, d1⟩ := r1
    refine ⟨.plus e1, ?_, ?_⟩
    · have := means_one (show meaning H.ops t0 = some (.expr .plus) by unfold meaning; rw [k0]) (means_app b1 (means_empty))
      simpa [Grammar.SignedTerm.tokens] using this
    · cases h1
      exact d1
  · -- 24
    obtain ⟨t0, T, vs, rfl, rfl, k0, h⟩ := h
    obtain ⟨T1, T, v1, vs, rfl, rfl, c1, r1, h⟩ := h
    obtain ⟨rfl, rfl⟩ := h
    change quiet D (assignUnaryOperator .neg v1.1) = (some p, D') at h1
    obtain ⟨e1, b1, d1⟩ := r1
    refine ⟨.minus e1, ?_, ?_⟩
    · have := means_one (show meaning H.ops t0 = some (.expr .minus) by unfold meaning; rw [k0]) (means_app b1 (means_empty))
      simpa [Grammar.SignedTerm.tokens] using this
    · rw [← unary_reads (Prod.mk.inj h1).1, ← d1]
      rfl
  · -- 25
    obtain ⟨T0, T, v0, vs, rfl, rfl, c0, r0, h⟩ := h
    obtain ⟨rfl, rfl⟩ := h
    change quiet D (some v0.1) = (some p, D') at h1
    obtain ⟨e0, b0, d0⟩ := r0
    refine ⟨.one e0, ?_, ?_⟩
    · have := means_app b0 (means_empty)
      simpa [Grammar.SignedTerm.tokens] using this
    · cases h1
      exact d0
  · -- 26
    obtain ⟨T0, T, v0, vs, rfl, rfl, c0, r0, h⟩ := h
    obtain ⟨t1, T, vs, rfl, rfl, k1, h⟩ := h
    obtain ⟨T2, T, v2, vs, rfl, rfl, c2, r2, h⟩ := h
    obtain ⟨rfl, rfl⟩ := h
    change quiet D (assignBinaryOperator .mul v0.1 v2.1) = (some p, D') at h1
    obtain ⟨e0, b0, d0⟩ := r0
    obtain ⟨e2, b2, d2⟩ := r2
    refine ⟨.mul e0 e2, ?_, ?_⟩
    · have := means_app b0 (means_one (show meaning H.ops t1 = some (.expr .times) by unfold meaning; rw [k1]) (means_app b2 (means_empty)))
      simpa [Grammar.Term.tokens] using this
    · rw [← binary_reads (Prod.mk.inj h1).1, ← d0, ← d2]
      rfl
  · -- 27
    obtain ⟨T0, T, v0, vs, rfl, rfl, c0, r0, h⟩ := h
    obtain ⟨t1, T, vs, rfl, rfl, k1, h⟩ := h
    obtain ⟨T2, T, v2, vs, rfl, rfl, c2, r2, h⟩ := h
    obtain ⟨rfl, rfl⟩ := h
    change quiet D (assignBinaryOperator .div v0.1 v2.1) = (some p, D') at h1
    obtain ⟨e0, b0, d0⟩ := r0
    obtain ⟨e2, b2, d2⟩ := r2
    refine ⟨.div e0 e2, ?_, ?_⟩
    · have := means_app b0 (means_one (show meaning H.ops t1 = some (.expr .divide) by unfold meaning; rw [k1]) (means_app b2 (means_empty)))
      simpa [Grammar.Term.tokens] using this
    · rw [← binary_reads (Prod.mk.inj h1).1, ← d0, ← d2]
      rfl
  · -- 28
    obtain ⟨T0, T, v0, vs, rfl, rfl, c0, r0, h⟩ := h
    obtain ⟨rfl, rfl⟩ := h
    change quiet D (some v0.1) = (some p, D') at h1
    obtain ⟨e0, b0, d0⟩ := r0
    refine ⟨.one e0, ?_, ?_⟩
    · have := means_app b0 (means_empty)
      simpa [Grammar.Term.tokens] using this
    · cases h1
      exact d0
  · -- 29
    obtain ⟨T0, T, v0, vs, rfl, rfl, c0, r0, h⟩ := h
    obtain ⟨t1, T, vs, rfl, rfl, k1, h⟩ := h
    obtain ⟨T2, T, v2, vs, rfl, rfl, c2, r2, h⟩ := h
    obtain ⟨rfl, rfl⟩ := h
    change quiet D (assignBinaryOperator .pow v0.1 v2.1) = (some p, D') at h1
    obtain ⟨e0, b0, d0⟩ := r0
    obtain ⟨e2, b2, d2⟩ := r2
    refine ⟨.pow e0 e2, ?_, ?_⟩
    · have := means_app b0 (means_one (show meaning H.ops t1 = some (.expr .exponent) by unfold meaning; rw [k1]) (means_app b2 (means_empty)))
      simpa [Grammar.Power.tokens] using this
    · rw [← binary_reads (Prod.mk.inj h1).1, ← d0, ← d2]
      rfl
  · -- 30
    obtain ⟨T0, T, v0, vs, rfl, rfl, c0, r0, h⟩ := h
    obtain ⟨rfl, rfl⟩ := h
    change quiet D (some v0.1) = (some p, D') at h1
    obtain ⟨e0, b0, d0⟩ := r0
    refine ⟨.one e0, ?_, ?_⟩
    · have := means_app b0 (means_empty)
      simpa [Grammar.Power.tokens] using this
    · cases h1
      exact d0
  · -- 31
    obtain ⟨t0, T, vs, rfl, rfl, k0, h⟩ := h
    obtain ⟨T1, T, v1, vs, rfl, rfl, c1, r1, h⟩ := h
    obtain ⟨rfl, rfl⟩ := h
    change quiet D (some v1.1) = (some p, D') at h1
    obtain ⟨e1, b1, d1⟩ := r1
    refine ⟨.plus e1, ?_, ?_⟩
    · have := means_one (show meaning H.ops t0 = some (.expr .plus) by unfold meaning; rw [k0]) (means_app b1 (means_empty))
      simpa [Grammar.SignedAtomic.tokens] using this
    · cases h1
      exact d1
  · -- 32
    obtain ⟨t0, T, vs, rfl, rfl, k0, h⟩ := h
    obtain ⟨T1, T, v1, vs, rfl, rfl, c1, r1, h⟩ := h
    obtain ⟨rfl, rfl⟩ := h
    change quiet D (assignUnaryOperator .neg v1.1) = (some p, D') at h1
    obtain ⟨e1, b1, d1⟩ := r1
    refine ⟨.minus e1, ?_, ?_⟩
    · have := means_one (show meaning H.ops t0 = some (.expr .minus) by unfold meaning; rw [k0]) (means_app b1 (means_empty))
      simpa [Grammar.SignedAtomic.tokens] using this
    · rw [← unary_reads (Prod.mk.inj h1).1, ← d1]
      rfl
  · -- 33
    obtain ⟨T0, T, v0, vs, rfl, rfl, c0, r0, h⟩ := h
    obtain ⟨rfl, rfl⟩ := h
    change quiet D (some v0.1) = (some p, D') at h1
    obtain ⟨e0, b0, d0⟩ := r0
    refine ⟨.one e0, ?_, ?_⟩
    · have := means_app b0 (means_empty)
      simpa [Grammar.SignedAtomic.tokens] using this
    · cases h1
      exact d0
  · -- 34
    obtain ⟨t0, T, vs, rfl, rfl, k0, h⟩ := h
    obtain ⟨T1, T, v1, vs, rfl, rfl, c1, r1, h⟩ := h
    obtain ⟨t2, T, vs, rfl, rfl, k2, h⟩ := h
    obtain ⟨rfl, rfl⟩ := h
    change quiet D (assignUnaryOperator .id v1.1) = (some p, D') at h1
    obtain ⟨e1, b1, d1⟩ := r1
    refine ⟨.paren e1, ?_, ?_⟩
    · have := means_one (show meaning H.ops t0 = some (.expr .lbracket) by unfold meaning; rw [k0]) (means_app b1 (means_one (show meaning H.ops t2 = some (.expr .rbracket) by unfold meaning; rw [k2]) (means_empty)))
      simpa [Grammar.Atomic.tokens] using this
    · rw [← unary_reads (Prod.mk.inj h1).1, ← d1]
      rfl
  · -- 35
    obtain ⟨t0, T, vs, rfl, rfl, k0, h⟩ := h
    obtain ⟨t1, T, vs, rfl, rfl, k1, h⟩ := h
    obtain ⟨T2, T, v2, vs, rfl, rfl, c2, r2, h⟩ := h
    obtain ⟨t3, T, vs, rfl, rfl, k3, h⟩ := h
    obtain ⟨rfl, rfl⟩ := h
    change quiet D (assignFunction H (ParserToken.atom t0) v2.1) = (some p, D') at h1
    obtain ⟨e2, b2, d2⟩ := r2
    refine ⟨.call (textOf t0.text) e2, ?_, ?_⟩
    · have := means_one (meaning_identifier k0) (means_one (show meaning H.ops t1 = some (.expr .lbracket) by unfold meaning; rw [k1]) (means_app b2 (means_one (show meaning H.ops t3 = some (.expr .rbracket) by unfold meaning; rw [k3]) means_empty)))
      simpa [Grammar.Atomic.tokens] using this
    · rw [← function_reads (Prod.mk.inj h1).1, ← d2]
      rfl
  · -- 36
    obtain ⟨t0, T, vs, rfl, rfl, k0, h⟩ := h
    obtain ⟨t1, T, vs, rfl, rfl, k1, h⟩ := h
    obtain ⟨t2, T, vs, rfl, rfl, k2, h⟩ := h
    obtain ⟨rfl, rfl⟩ := h
    change quiet D (assignFunctionNone H (ParserToken.atom t0)) = (some p, D') at h1
    refine ⟨.callNone (textOf t0.text), means_one (meaning_identifier k0) (means_one (show meaning H.ops t1 = some (.expr .lbracket) by unfold meaning; rw [k1]) (means_one (show meaning H.ops t2 = some (.expr .rbracket) by unfold meaning; rw [k2]) means_empty)), ?_⟩
    exact functionNone_reads (Prod.mk.inj h1).1
  · -- 37
    obtain ⟨T0, T, v0, vs, rfl, rfl, c0, r0, h⟩ := h
    obtain ⟨rfl, rfl⟩ := h
    change quiet D (assignUnaryOperator .id v0.1) = (some p, D') at h1
    obtain ⟨e, b0, d0⟩ := r0
    exact ⟨e, by rw [List.append_nil]; exact b0, d0.trans (unary_reads (Prod.mk.inj h1).1)⟩
  · -- 38
    obtain ⟨T0, T, v0, vs, rfl, rfl, c0, r0, h⟩ := h
    obtain ⟨t1, T, vs, rfl, rfl, k1, h⟩ := h
    obtain ⟨T2, T, v2, vs, rfl, rfl, c2, r2, h⟩ := h
    obtain ⟨rfl, rfl⟩ := h
    change quiet D (some (v2.1.append v0.1)) = (some p, D') at h1
    obtain ⟨e0, b0, d0⟩ := r0
    obtain ⟨e2, b2, d2⟩ := r2
    refine ⟨.snoc e0 e2, ?_, ?_⟩
    · have := means_app b0 (means_one (show meaning H.ops t1 = some (.expr .comma) by unfold meaning; rw [k1]) (means_app b2 (means_empty)))
      simpa [Grammar.ExprList.tokens] using this
    · cases h1
      show _ = v2.1.head.data.bind fun e => (datas (v0.1.head :: v0.1.chain)).map (e :: ·)
      rw [← d0, ← d2, Grammar.ExprList.build]
      rcases e0.build (D.env H) with _ | x <;> rcases e2.build (D.env H) with _ | y <;> rfl
  · -- 39
    obtain ⟨T0, T, v0, vs, rfl, rfl, c0, r0, h⟩ := h
    obtain ⟨rfl, rfl⟩ := h
    change quiet D (makeExpressionList v0.1) = (some p, D') at h1
    obtain ⟨e0, b0, d0⟩ := r0
    refine ⟨.one e0, ?_, ?_⟩
    · have := means_app b0 (means_empty)
      simpa [Grammar.ExprList.tokens] using this
    · rw [← exprList_reads c0 (Prod.mk.inj h1).1, ← d0]
      rfl
  · -- 40
    obtain ⟨t0, T, vs, rfl, rfl, k0, h⟩ := h
    obtain ⟨rfl, rfl⟩ := h
    change quiet D (assignIdentifier H D (ParserToken.atom t0)) = (some p, D') at h1
    have := (Prod.mk.inj h1).1
    unfold assignIdentifier at this
    rw [if_pos (by simp [ParserToken.atom, k0])] at this
    cases this
  · -- 41
    obtain ⟨t0, T, vs, rfl, rfl, k0, h⟩ := h
    obtain ⟨rfl, rfl⟩ := h
    change quiet D (assignIdentifier H D (ParserToken.atom t0)) = (some p, D') at h1
    exact ⟨.ident _, means_one (meaning_identifier k0) means_empty, identifier_reads k0 (Prod.mk.inj h1).1⟩
  · -- 42
    obtain ⟨t0, T, vs, rfl, rfl, k0, h⟩ := h
    obtain ⟨rfl, rfl⟩ := h
    change quiet D (assignInteger H (ParserToken.atom t0)) = (some p, D') at h1
    obtain ⟨i, hi, hp⟩ := integer_reads k0 (Prod.mk.inj h1).1
    exact ⟨.lit (.int i), means_one hi means_empty, by rw [hp]; rfl⟩
  · -- 43
    obtain ⟨t0, T, vs, rfl, rfl, k0, h⟩ := h
    obtain ⟨rfl, rfl⟩ := h
    change quiet D (assignFloat H (ParserToken.atom t0)) = (some p, D') at h1
    obtain ⟨i, hi, hp⟩ := float_reads k0 (Prod.mk.inj h1).1
    exact ⟨.lit (.float i), means_one hi means_empty, by rw [hp]; rfl⟩
  · -- 44
    obtain ⟨t0, T, vs, rfl, rfl, k0, h⟩ := h
    obtain ⟨rfl, rfl⟩ := h
    change quiet D (assignString (ParserToken.atom t0)) = (some p, D') at h1
    exact ⟨.lit _, means_one (meaning_string k0) means_empty, by rw [string_reads k0 (Prod.mk.inj h1).1]; rfl⟩
  · -- 45
    obtain ⟨t0, T, vs, rfl, rfl, k0, h⟩ := h
    obtain ⟨rfl, rfl⟩ := h
    change quiet D (some (ParserToken.atom t0)) = (some p, D') at h1
    trivial
  · -- 46
    obtain ⟨t0, T, vs, rfl, rfl, k0, h⟩ := h
    obtain ⟨rfl, rfl⟩ := h
    change quiet D (some (ParserToken.atom t0)) = (some p, D') at h1
    trivial
  · -- 47
    obtain ⟨t0, T, vs, rfl, rfl, k0, h⟩ := h
    obtain ⟨rfl, rfl⟩ := h
    change quiet D (some (ParserToken.atom t0)) = (some p, D') at h1
    trivial

theorem tells_rule (H : Host F W) (r : Fin 48) (T : List Tok) (vs : List (ParserToken F W × Lines)) (D D' : DeckState F W)
    (hS : Sane D) (hk : ∀ t ∈ T, t.kind ≠ .pathIdentifier) (h : ReadsAll H D (rhs r) T vs)
    (h1 : deckAct H r (vs.map Prod.fst) D = (none, D')) : Tells H D D' T (excAct H r vs D) := by
  fin_cases r
  · -- 0
    obtain ⟨T0, T, v0, vs, rfl, rfl, c0, r0, h⟩ := h
    obtain ⟨rfl, rfl⟩ := h
    change quiet D (some ParserToken.default) = (none, D') at h1
    cases h1
  · -- 1
    obtain ⟨T0, T, v0, vs, rfl, rfl, c0, r0, h⟩ := h
    obtain ⟨T1, T, v1, vs, rfl, rfl, c1, r1, h⟩ := h
    obtain ⟨rfl, rfl⟩ := h
    change quiet D (some ParserToken.default) = (none, D') at h1
    cases h1
  · -- 2
    obtain ⟨T0, T, v0, vs, rfl, rfl, c0, r0, h⟩ := h
    obtain ⟨rfl, rfl⟩ := h
    change quiet D (some ParserToken.default) = (none, D') at h1
    cases h1
  · -- 3
    obtain ⟨T0, T, v0, vs, rfl, rfl, c0, r0, h⟩ := h
    obtain ⟨T1, T, v1, vs, rfl, rfl, c1, r1, h⟩ := h
    obtain ⟨t2, T, vs, rfl, rfl, k2, h⟩ := h
    obtain ⟨rfl, rfl⟩ := h
    change effect (storeVariable H D v0.1 v1.1) = (none, D') at h1
    exact tells_store (v2 := linedAtom t2) hS (by simp [k2]) c0 c1 r1 h1
  · -- 4
    obtain ⟨T0, T, v0, vs, rfl, rfl, c0, r0, h⟩ := h
    obtain ⟨t1, T, vs, rfl, rfl, k1, h⟩ := h
    obtain ⟨rfl, rfl⟩ := h
    change effect (updateVariable H D v0.1) = (none, D') at h1
    exact tells_update hS c0 r0 h1
  · -- 5
    obtain ⟨t0, T, vs, rfl, rfl, k0, h⟩ := h
    obtain ⟨t1, T, vs, rfl, rfl, k1, h⟩ := h
    obtain ⟨t2, T, vs, rfl, rfl, k2, h⟩ := h
    obtain ⟨rfl, rfl⟩ := h
    change quiet D (some ParserToken.default) = (none, D') at h1
    cases h1
  · -- 6
    obtain ⟨T0, T, v0, vs, rfl, rfl, c0, r0, h⟩ := h
    obtain ⟨rfl, rfl⟩ := h
    change quiet D (some ParserToken.default) = (none, D') at h1
    cases h1
  · -- 7
    obtain ⟨t0, T, vs, rfl, rfl, k0, h⟩ := h
    obtain ⟨rfl, rfl⟩ := h
    change effect D.endBlock = (none, D') at h1
    exact tells_end k0 h1
  · -- 8
    exact h.elim
  · -- 9
    obtain ⟨t0, T, vs, rfl, rfl, k0, h⟩ := h
    obtain ⟨t1, T, vs, rfl, rfl, k1, h⟩ := h
    obtain ⟨t2, T, vs, rfl, rfl, k2, h⟩ := h
    obtain ⟨rfl, rfl⟩ := h
    change effect (createBlock H D (ParserToken.atom t0) (ParserToken.atom t1)) = (none, D') at h1
    exact tells_createBlock hS k0 k1 (by simp) (by simp) h1
  · -- 10
    obtain ⟨t0, T, vs, rfl, rfl, k0, h⟩ := h
    obtain ⟨t1, T, vs, rfl, rfl, k1, h⟩ := h
    obtain ⟨rfl, rfl⟩ := h
    change effect (createBlock H D (ParserToken.atom t0) (ParserToken.atom t0)) = (none, D') at h1
    exact tells_createBlock hS k0 k0 (by simp) (by simp) h1
  · -- 11
    obtain ⟨T0, T, v0, vs, rfl, rfl, c0, r0, h⟩ := h
    obtain ⟨t1, T, vs, rfl, rfl, k1, h⟩ := h
    obtain ⟨T2, T, v2, vs, rfl, rfl, c2, r2, h⟩ := h
    obtain ⟨rfl, rfl⟩ := h
    change quiet D (some (v2.1.append v0.1)) = (none, D') at h1
    cases h1
  · -- 12
    obtain ⟨T0, T, v0, vs, rfl, rfl, c0, r0, h⟩ := h
    obtain ⟨rfl, rfl⟩ := h
    change quiet D (some v0.1) = (none, D') at h1
    cases h1
  · -- 13
    obtain ⟨t0, T, vs, rfl, rfl, k0, h⟩ := h
    obtain ⟨rfl, rfl⟩ := h
    change quiet D (some (ParserToken.atom t0)) = (none, D') at h1
    cases h1
  · -- 14
    obtain ⟨T0, T, v0, vs, rfl, rfl, c0, r0, h⟩ := h
    obtain ⟨rfl, rfl⟩ := h
    change quiet D (some v0.1) = (none, D') at h1
    cases h1
  · -- 15
    exact h.elim
  · -- 16
    obtain ⟨t0, T, vs, rfl, rfl, k0, h⟩ := h
    obtain ⟨t1, T, vs, rfl, rfl, k1, h⟩ := h
    obtain ⟨T2, T, v2, vs, rfl, rfl, c2, r2, h⟩ := h
    obtain ⟨rfl, rfl⟩ := h
    change quiet D (ParserToken.evaluateExpression (ParserToken.atom t0) v2.1) = (none, D') at h1
    exact absurd (Prod.mk.inj h1).1 (assignment_some k0)
  · -- 17
    obtain ⟨T0, T, v0, vs, rfl, rfl, c0, r0, h⟩ := h
    obtain ⟨t1, T, vs, rfl, rfl, k1, h⟩ := h
    obtain ⟨T2, T, v2, vs, rfl, rfl, c2, r2, h⟩ := h
    obtain ⟨rfl, rfl⟩ := h
    change quiet D (assignBinaryOperator .add v0.1 v2.1) = (none, D') at h1
    exact absurd (Prod.mk.inj h1).1 (binary_some c0.2.1 c2.2.1)
  · -- 18
    obtain ⟨T0, T, v0, vs, rfl, rfl, c0, r0, h⟩ := h
    obtain ⟨t1, T, vs, rfl, rfl, k1, h⟩ := h
    obtain ⟨T2, T, v2, vs, rfl, rfl, c2, r2, h⟩ := h
    obtain ⟨rfl, rfl⟩ := h
    change quiet D (assignBinaryOperator .sub v0.1 v2.1) = (none, D') at h1
    exact absurd (Prod.mk.inj h1).1 (binary_some c0.2.1 c2.2.1)
  · -- 19
    obtain ⟨T0, T, v0, vs, rfl, rfl, c0, r0, h⟩ := h
    obtain ⟨rfl, rfl⟩ := h
    change quiet D (some v0.1) = (none, D') at h1
    cases h1
  · -- 20
    obtain ⟨T0, T, v0, vs, rfl, rfl, c0, r0, h⟩ := h
    obtain ⟨t1, T, vs, rfl, rfl, k1, h⟩ := h
    obtain ⟨T2, T, v2, vs, rfl, rfl, c2, r2, h⟩ := h
    obtain ⟨rfl, rfl⟩ := h
    change quiet D (assignBinaryOperator .add v0.1 v2.1) = (none, D') at h1
    exact absurd (Prod.mk.inj h1).1 (binary_some c0.2.1 c2.2.1)
  · -- 21
    obtain ⟨T0, T, v0, vs, rfl, rfl, c0, r0, h⟩ := h
    obtain ⟨t1, T, vs, rfl, rfl, k1, h⟩ := h
    obtain ⟨T2, T, v2, vs, rfl, rfl, c2, r2, h⟩ := h
    obtain ⟨rfl, rfl⟩ := h
    change quiet D (assignBinaryOperator .sub v0.1 v2.1) = (none, D') at h1
    exact absurd (Prod.mk.inj h1).1 (binary_some c0.2.1 c2.2.1)
  · -- 22
    obtain ⟨T0, T, v0, vs, rfl, rfl, c0, r0, h⟩ := h
    obtain ⟨rfl, rfl⟩ := h
    change quiet D (some v0.1) = (none, D') at h1
    cases h1
  · -- 23
    obtain ⟨t0, T, vs, rfl, rfl, k0, h⟩ := h
    obtain ⟨T1, T, v1, vs, rfl, rfl, c1, r1, h⟩ := h
    obtain ⟨rfl, rfl⟩ := h
    change quiet D (some v1.1) = (none, D') at h1
    cases h1
  · -- 24
    obtain ⟨t0, T, vs, rfl, rfl, k0, h⟩ := h
    obtain ⟨T1, T, v1, vs, rfl, rfl, c1, r1, h⟩ := h
    obtain ⟨rfl, rfl⟩ := h
    change quiet D (assignUnaryOperator .neg v1.1) = (none, D') at h1
    exact absurd (Prod.mk.inj h1).1 (unary_some c1.2.1)
  · -- 25
    obtain ⟨T0, T, v0, vs, rfl, rfl, c0, r0, h⟩ := h
    obtain ⟨rfl, rfl⟩ := h
    change quiet D (some v0.1) = (none, D') at h1
    cases h1
  · -- 26
    obtain ⟨T0, T, v0, vs, rfl, rfl, c0, r0, h⟩ := h
    obtain ⟨t1, T, vs, rfl, rfl, k1, h⟩ := h
    obtain ⟨T2, T, v2, vs, rfl, rfl, c2, r2, h⟩ := h
    obtain ⟨rfl, rfl⟩ := h
    change quiet D (assignBinaryOperator .mul v0.1 v2.1) = (none, D') at h1
    exact absurd (Prod.mk.inj h1).1 (binary_some c0.2.1 c2.2.1)
  · -- 27
    obtain ⟨T0, T, v0, vs, rfl, rfl, c0, r0, h⟩ := h
    obtain ⟨t1, T, vs, rfl, rfl, k1, h⟩ := h
    obtain ⟨T2, T, v2, vs, rfl, rfl, c2, r2, h⟩ := h
    obtain ⟨rfl, rfl⟩ := h
    change quiet D (assignBinaryOperator .div v0.1 v2.1) = (none, D') at h1
    exact absurd (Prod.mk.inj h1).1 (binary_some c0.2.1 c2.2.1)
  · -- 28
    obtain ⟨T0, T, v0, vs, rfl, rfl, c0, r0, h⟩ := h
    obtain ⟨rfl, rfl⟩ := h
    change quiet D (some v0.1) = (none, D') at h1
    cases h1
  · -- 29
    obtain ⟨T0, T, v0, vs, rfl, rfl, c0, r0, h⟩ := h
    obtain ⟨t1, T, vs, rfl, rfl, k1, h⟩ := h
    obtain ⟨T2, T, v2, vs, rfl, rfl, c2, r2, h⟩ := h
    obtain ⟨rfl, rfl⟩ := h
    change quiet D (assignBinaryOperator .pow v0.1 v2.1) = (none, D') at h1
    exact absurd (Prod.mk.inj h1).1 (binary_some c0.2.1 c2.2.1)
  · -- 30
    obtain ⟨T0, T, v0, vs, rfl, rfl, c0, r0, h⟩ := h
    obtain ⟨rfl, rfl⟩ := h
    change quiet D (some v0.1) = (none, D') at h1
    cases h1
  · -- 31
    obtain ⟨t0, T, vs, rfl, rfl, k0, h⟩ := h
    obtain ⟨T1, T, v1, vs, rfl, rfl, c1, r1, h⟩ := h
    obtain ⟨rfl, rfl⟩ := h
    change quiet D (some v1.1) = (none, D') at h1
    cases h1
  · -- 32
    obtain ⟨t0, T, vs, rfl, rfl, k0, h⟩ := h
    obtain ⟨T1, T, v1, vs, rfl, rfl, c1, r1, h⟩ := h
    obtain ⟨rfl, rfl⟩ := h
    change quiet D (assignUnaryOperator .neg v1.1) = (none, D') at h1
    exact absurd (Prod.mk.inj h1).1 (unary_some c1.2.1)
  · -- 33
    obtain ⟨T0, T, v0, vs, rfl, rfl, c0, r0, h⟩ := h
    obtain ⟨rfl, rfl⟩ := h
    change quiet D (some v0.1) = (none, D') at h1
    cases h1
  · -- 34
    obtain ⟨t0, T, vs, rfl, rfl, k0, h⟩ := h
    obtain ⟨T1, T, v1, vs, rfl, rfl, c1, r1, h⟩ := h
    obtain ⟨t2, T, vs, rfl, rfl, k2, h⟩ := h
    obtain ⟨rfl, rfl⟩ := h
    change quiet D (assignUnaryOperator .id v1.1) = (none, D') at h1
    exact absurd (Prod.mk.inj h1).1 (unary_some c1.2.1)
  · -- 35
    obtain ⟨t0, T, vs, rfl, rfl, k0, h⟩ := h
    obtain ⟨t1, T, vs, rfl, rfl, k1, h⟩ := h
    obtain ⟨T2, T, v2, vs, rfl, rfl, c2, r2, h⟩ := h
    obtain ⟨t3, T, vs, rfl, rfl, k3, h⟩ := h
    obtain ⟨rfl, rfl⟩ := h
    change quiet D (assignFunction H (ParserToken.atom t0) v2.1) = (none, D') at h1
    exact tells_function k0 k1 k3 c2 r2 h1
  · -- 36
    obtain ⟨t0, T, vs, rfl, rfl, k0, h⟩ := h
    obtain ⟨t1, T, vs, rfl, rfl, k1, h⟩ := h
    obtain ⟨t2, T, vs, rfl, rfl, k2, h⟩ := h
    obtain ⟨rfl, rfl⟩ := h
    change quiet D (assignFunctionNone H (ParserToken.atom t0)) = (none, D') at h1
    exact tells_functionNone k0 k1 k2 h1
  · -- 37
    obtain ⟨T0, T, v0, vs, rfl, rfl, c0, r0, h⟩ := h
    obtain ⟨rfl, rfl⟩ := h
    change quiet D (assignUnaryOperator .id v0.1) = (none, D') at h1
    exact absurd (Prod.mk.inj h1).1 (unary_some c0)
  · -- 38
    obtain ⟨T0, T, v0, vs, rfl, rfl, c0, r0, h⟩ := h
    obtain ⟨t1, T, vs, rfl, rfl, k1, h⟩ := h
    obtain ⟨T2, T, v2, vs, rfl, rfl, c2, r2, h⟩ := h
    obtain ⟨rfl, rfl⟩ := h
    change quiet D (some (v2.1.append v0.1)) = (none, D') at h1
    cases h1
  · -- 39
    obtain ⟨T0, T, v0, vs, rfl, rfl, c0, r0, h⟩ := h
    obtain ⟨rfl, rfl⟩ := h
    change quiet D (makeExpressionList v0.1) = (none, D') at h1
    exact absurd (Prod.mk.inj h1).1 (exprList_some c0)
  · -- 40
    obtain ⟨t0, T, vs, rfl, rfl, k0, h⟩ := h
    obtain ⟨rfl, rfl⟩ := h
    change quiet D (assignIdentifier H D (ParserToken.atom t0)) = (none, D') at h1
    exact absurd k0 (hk t0 (by simp))
  · -- 41
    obtain ⟨t0, T, vs, rfl, rfl, k0, h⟩ := h
    obtain ⟨rfl, rfl⟩ := h
    change quiet D (assignIdentifier H D (ParserToken.atom t0)) = (none, D') at h1
    exact tells_identifier hS k0 h1
  · -- 42
    obtain ⟨t0, T, vs, rfl, rfl, k0, h⟩ := h
    obtain ⟨rfl, rfl⟩ := h
    change quiet D (assignInteger H (ParserToken.atom t0)) = (none, D') at h1
    exact tells_integer k0 h1
  · -- 43
    obtain ⟨t0, T, vs, rfl, rfl, k0, h⟩ := h
    obtain ⟨rfl, rfl⟩ := h
    change quiet D (assignFloat H (ParserToken.atom t0)) = (none, D') at h1
    exact tells_float k0 h1
  · -- 44
    obtain ⟨t0, T, vs, rfl, rfl, k0, h⟩ := h
    obtain ⟨rfl, rfl⟩ := h
    change quiet D (assignString (ParserToken.atom t0)) = (none, D') at h1
    exact absurd (Prod.mk.inj h1).1 (string_some k0)
  · -- 45
    obtain ⟨t0, T, vs, rfl, rfl, k0, h⟩ := h
    obtain ⟨rfl, rfl⟩ := h
    change quiet D (some (ParserToken.atom t0)) = (none, D') at h1
    cases h1
  · -- 46
    obtain ⟨t0, T, vs, rfl, rfl, k0, h⟩ := h
    obtain ⟨rfl, rfl⟩ := h
    change quiet D (some (ParserToken.atom t0)) = (none, D') at h1
    cases h1
  · -- 47
    obtain ⟨t0, T, vs, rfl, rfl, k0, h⟩ := h
    obtain ⟨rfl, rfl⟩ := h
    change quiet D (some (ParserToken.atom t0)) = (none, D') at h1
    cases h1

end Schnek.Lemma.ParserError
