import Verif.Lemma.Grammar

/-! The textbook grammar is unambiguous (a recursive descent parser finds the tree), and the grammar of the parser derives every
expression of the textbook grammar. -/

namespace Schnek.Lemma.Deck

open Schnek.Deck Schnek.Deck.Grammar Schnek.Spec

variable {F W : Type}

mutual

def pExpr : ℕ → List (Token F) → Option (Ast F × List (Token F))
  | 0, _ => none
  | n + 1, .plus :: s => (pTerm n s).bind fun p => pLoop n p.1 p.2
  | n + 1, .minus :: s => (pTerm n s).bind fun p => pLoop n (.neg p.1) p.2
  | n + 1, s => (pTerm n s).bind fun p => pLoop n p.1 p.2

def pLoop : ℕ → Ast F → List (Token F) → Option (Ast F × List (Token F))
  | 0, _, _ => none
  | n + 1, a, .plus :: s => (pTerm n s).bind fun p => pLoop n (.bin .add a p.1) p.2
  | n + 1, a, .minus :: s => (pTerm n s).bind fun p => pLoop n (.bin .sub a p.1) p.2
  | _ + 1, a, s => some (a, s)

def pTerm : ℕ → List (Token F) → Option (Ast F × List (Token F))
  | 0, _ => none
  | n + 1, s => (pPower n s).bind fun p => pTermLoop n p.1 p.2

def pTermLoop : ℕ → Ast F → List (Token F) → Option (Ast F × List (Token F))
  | 0, _, _ => none
  | n + 1, a, .times :: s => (pPower n s).bind fun p => pTermLoop n (.bin .mul a p.1) p.2
  | n + 1, a, .divide :: s => (pPower n s).bind fun p => pTermLoop n (.bin .div a p.1) p.2
  | _ + 1, a, s => some (a, s)

def pPower : ℕ → List (Token F) → Option (Ast F × List (Token F))
  | 0, _ => none
  | n + 1, s => (pAtom n s).bind fun p => pExponent n p.1 p.2

def pExponent : ℕ → Ast F → List (Token F) → Option (Ast F × List (Token F))
  | 0, _, _ => none
  | n + 1, a, .exponent :: .plus :: s => (pAtom n s).map fun p => (.bin .pow a p.1, p.2)
  | n + 1, a, .exponent :: .minus :: s => (pAtom n s).map fun p => (.bin .pow a (.neg p.1), p.2)
  | n + 1, a, .exponent :: s => (pAtom n s).map fun p => (.bin .pow a p.1, p.2)
  | _ + 1, a, s => some (a, s)

def pAtom : ℕ → List (Token F) → Option (Ast F × List (Token F))
  | 0, _ => none
  | _ + 1, .lit v :: s => some (.lit v, s)
  | _ + 1, .ident m :: .lbracket :: .rbracket :: s => some (.call m [], s)
  | n + 1, .ident m :: .lbracket :: s => (pArgs n s).bind fun p => match p.2 with
      | .rbracket :: r => some (.call m p.1, r)
      | _ => none
  | _ + 1, .ident m :: s => some (.var m, s)
  | n + 1, .lbracket :: s => (pExpr n s).bind fun p => match p.2 with
      | .rbracket :: r => some (.paren p.1, r)
      | _ => none
  | _ + 1, _ => none

def pArgs : ℕ → List (Token F) → Option (List (Ast F) × List (Token F))
  | 0, _ => none
  | n + 1, s => (pExpr n s).bind fun p => pArgsLoop n [p.1] p.2

def pArgsLoop : ℕ → List (Ast F) → List (Token F) → Option (List (Ast F) × List (Token F))
  | 0, _, _ => none
  | n + 1, l, .comma :: s => (pExpr n s).bind fun p => pArgsLoop n (l ++ [p.1]) p.2
  | _ + 1, l, s => some (l, s)

end

/-- for every large enough amount of fuel -/
def Ev {α : Type} (f : ℕ → Option α) (r : α) : Prop := ∃ N, ∀ n, N ≤ n → f n = some r

theorem Ev.map {α β : Type} {f : ℕ → Option α} {g : ℕ → Option β} {x : α} {r : β} (hf : Ev f x)
    (h : ∀ n, f n = some x → g (n + 1) = some r) : Ev g r := by
  obtain ⟨N, hN⟩ := hf
  refine ⟨N + 1, fun n hn => ?_⟩
  obtain ⟨m, rfl⟩ : ∃ m, n = m + 1 := ⟨n - 1, by omega⟩
  exact h m (hN m (by omega))

theorem Ev.both {α β γ : Type} {f : ℕ → Option α} {g : ℕ → Option β} {k : ℕ → Option γ} {x : α} {y : β} {r : γ}
    (hf : Ev f x) (hg : Ev g y) (h : ∀ n, f n = some x → g n = some y → k (n + 1) = some r) : Ev k r := by
  obtain ⟨N, hN⟩ := hf
  obtain ⟨M, hM⟩ := hg
  refine ⟨max N M + 1, fun n hn => ?_⟩
  obtain ⟨m, rfl⟩ : ∃ m, n = m + 1 := ⟨n - 1, by omega⟩
  exact h m (hN m (by omega)) (hM m (by omega))

/-- first token of what follows an atom -/
def stop₀ : List (Token F) → Prop
  | .lbracket :: _ => False
  | _ => True

/-- first token of what follows a power -/
def stop₁ : List (Token F) → Prop
  | .lbracket :: _ => False
  | .exponent :: _ => False
  | _ => True

/-- first token of what follows a term -/
def stop₂ : List (Token F) → Prop
  | .lbracket :: _ => False
  | .exponent :: _ => False
  | .times :: _ => False
  | .divide :: _ => False
  | _ => True

/-- first token of what follows an expression -/
def stop₃ : List (Token F) → Prop
  | .lbracket :: _ => False
  | .exponent :: _ => False
  | .times :: _ => False
  | .divide :: _ => False
  | .plus :: _ => False
  | .minus :: _ => False
  | _ => True

theorem stop₁_of (r : List (Token F)) (h : stop₂ r) : stop₁ r := by
  unfold stop₂ at h; unfold stop₁; split at h <;> simp_all
theorem stop₀_of (r : List (Token F)) (h : stop₁ r) : stop₀ r := by
  unfold stop₁ at h; unfold stop₀; split at h <;> simp_all
theorem stop₂_of (r : List (Token F)) (h : stop₃ r) : stop₂ r := by
  unfold stop₃ at h; unfold stop₂; split at h <;> simp_all

theorem pExponent_stop (n : ℕ) (a : Ast F) (r : List (Token F)) (h : stop₁ r) :
    pExponent (n + 1) a r = some (a, r) := by
  unfold pExponent
  split <;> simp_all [stop₁]

theorem pTermLoop_stop (n : ℕ) (a : Ast F) (r : List (Token F)) (h : stop₂ r) :
    pTermLoop (n + 1) a r = some (a, r) := by
  unfold pTermLoop
  split <;> simp_all [stop₂]

theorem pLoop_stop (n : ℕ) (a : Ast F) (r : List (Token F)) (h : stop₃ r) :
    pLoop (n + 1) a r = some (a, r) := by
  unfold pLoop
  split <;> simp_all [stop₃]

theorem ev_pLoop_stop (a : Ast F) (r : List (Token F)) (h : stop₃ r) : Ev (fun n => pLoop n a r) (a, r) :=
  ⟨1, fun n hn => by obtain ⟨m, rfl⟩ : ∃ m, n = m + 1 := ⟨n - 1, by omega⟩; exact pLoop_stop m a r h⟩

theorem ev_pTermLoop_stop (a : Ast F) (r : List (Token F)) (h : stop₂ r) : Ev (fun n => pTermLoop n a r) (a, r) :=
  ⟨1, fun n hn => by obtain ⟨m, rfl⟩ : ∃ m, n = m + 1 := ⟨n - 1, by omega⟩; exact pTermLoop_stop m a r h⟩

theorem ev_pExponent_stop (a : Ast F) (r : List (Token F)) (h : stop₁ r) : Ev (fun n => pExponent n a r) (a, r) :=
  ⟨1, fun n hn => by obtain ⟨m, rfl⟩ : ∃ m, n = m + 1 := ⟨n - 1, by omega⟩; exact pExponent_stop m a r h⟩

/-- first token of an atom -/
def start₀ : List (Token F) → Prop
  | .lit _ :: _ => True
  | .ident _ :: _ => True
  | .lbracket :: _ => True
  | _ => False

/-- first token of an expression -/
def start₁ : List (Token F) → Prop
  | .plus :: _ => True
  | .minus :: _ => True
  | .lit _ :: _ => True
  | .ident _ :: _ => True
  | .lbracket :: _ => True
  | _ => False

theorem start₀_append {s : List (Token F)} (h : start₀ s) (r : List (Token F)) : start₀ (s ++ r) := by
  cases s with
  | nil => exact h.elim
  | cons t s => cases t <;> simp_all [start₀]

theorem start₁_append {s : List (Token F)} (h : start₁ s) (r : List (Token F)) : start₁ (s ++ r) := by
  cases s with
  | nil => exact h.elim
  | cons t s => cases t <;> simp_all [start₁]

theorem start₁_of {s : List (Token F)} (h : start₀ s) : start₁ s := by
  cases s with
  | nil => exact h.elim
  | cons t s => cases t <;> simp_all [start₀, start₁]

theorem pExpr_start (n : ℕ) (s : List (Token F)) (h : start₀ s) :
    pExpr (n + 1) s = (pTerm n s).bind fun p => pLoop n p.1 p.2 := by
  unfold pExpr
  split <;> simp_all [start₀]

theorem pExponent_start (n : ℕ) (a : Ast F) (s : List (Token F)) (h : start₀ s) :
    pExponent (n + 1) a (.exponent :: s) = (pAtom n s).map fun p => (.bin .pow a p.1, p.2) := by
  cases s with
  | nil => exact h.elim
  | cons t s => cases t <;> simp_all [start₀, pExponent]

theorem pAtom_call (n : ℕ) (m : String) (s : List (Token F)) (h : start₁ s) :
    pAtom (n + 1) (.ident m :: .lbracket :: s) = (pArgs n s).bind fun p => match p.2 with
      | .rbracket :: r => some (.call m p.1, r)
      | _ => none := by
  cases s with
  | nil => exact h.elim
  | cons t s => cases t <;> simp_all [start₁, pAtom]

theorem pAtom_var (n : ℕ) (m : String) (r : List (Token F)) (h : stop₀ r) :
    pAtom (n + 1) (.ident m :: r) = some (.var m, r) := by
  cases r with
  | nil => rfl
  | cons t s => cases t <;> simp_all [stop₀, pAtom]

theorem parse_all {s : List (Token F)} {a : Ast F} (h : IsExpr s a) :
    start₁ s ∧ ∀ r res, stop₂ r → Ev (fun n => pLoop n a r) res → Ev (fun n => pExpr n (s ++ r)) res := by
  refine IsExpr.rec
    (motive_1 := fun s a _ => start₁ s ∧ ∀ r res, stop₂ r → Ev (fun n => pLoop n a r) res → Ev (fun n => pExpr n (s ++ r)) res)
    (motive_2 := fun s a _ => start₀ s ∧ ∀ r res, stop₁ r → Ev (fun n => pTermLoop n a r) res → Ev (fun n => pTerm n (s ++ r)) res)
    (motive_3 := fun s a _ => start₀ s ∧ ∀ r, stop₁ r → Ev (fun n => pPower n (s ++ r)) (a, r))
    (motive_4 := fun s a _ => start₀ s ∧ ∀ r, stop₀ r → Ev (fun n => pAtom n (s ++ r)) (a, r))
    (motive_5 := fun s l _ => start₁ s ∧ ∀ r res, stop₃ r → Ev (fun n => pArgsLoop n l r) res → Ev (fun n => pArgs n (s ++ r)) res)
    ?_ ?_ ?_ ?_ ?_ ?_ ?_ ?_ ?_ ?_ ?_ ?_ ?_ ?_ ?_ ?_ ?_ ?_ ?_ h
  -- IsExpr
  · intro s a _ ih
    refine ⟨start₁_of ih.1, fun r res hr hl => ?_⟩
    refine (ih.2 r _ (stop₁_of r hr) (ev_pTermLoop_stop a r hr)).both hl fun n h1 h2 => ?_
    rw [pExpr_start n _ (start₀_append ih.1 r), h1]
    exact h2
  · intro s a _ ih
    refine ⟨trivial, fun r res hr hl => ?_⟩
    refine (ih.2 r _ (stop₁_of r hr) (ev_pTermLoop_stop a r hr)).both hl fun n h1 h2 => ?_
    rw [List.cons_append, pExpr, h1]
    exact h2
  · intro s a _ ih
    refine ⟨trivial, fun r res hr hl => ?_⟩
    refine (ih.2 r _ (stop₁_of r hr) (ev_pTermLoop_stop a r hr)).both hl fun n h1 h2 => ?_
    rw [List.cons_append, pExpr, h1]
    exact h2
  · intro s a s' b _ _ ih ih'
    refine ⟨start₁_append ih.1 _, fun r res hr hl => ?_⟩
    rw [List.append_assoc]
    refine ih.2 _ res trivial ?_
    refine (ih'.2 r _ (stop₁_of r hr) (ev_pTermLoop_stop b r hr)).both hl fun n h1 h2 => ?_
    rw [List.cons_append, pLoop, h1]
    exact h2
  · intro s a s' b _ _ ih ih'
    refine ⟨start₁_append ih.1 _, fun r res hr hl => ?_⟩
    rw [List.append_assoc]
    refine ih.2 _ res trivial ?_
    refine (ih'.2 r _ (stop₁_of r hr) (ev_pTermLoop_stop b r hr)).both hl fun n h1 h2 => ?_
    rw [List.cons_append, pLoop, h1]
    exact h2
  -- IsTerm
  · intro s a _ ih
    refine ⟨ih.1, fun r res hr hl => ?_⟩
    refine (ih.2 r hr).both hl fun n h1 h2 => ?_
    rw [pTerm, h1]
    exact h2
  · intro s a s' b _ _ ih ih'
    refine ⟨start₀_append ih.1 _, fun r res hr hl => ?_⟩
    rw [List.append_assoc]
    refine ih.2 _ res trivial ?_
    refine (ih'.2 r hr).both hl fun n h1 h2 => ?_
    rw [List.cons_append, pTermLoop, h1]
    exact h2
  · intro s a s' b _ _ ih ih'
    refine ⟨start₀_append ih.1 _, fun r res hr hl => ?_⟩
    rw [List.append_assoc]
    refine ih.2 _ res trivial ?_
    refine (ih'.2 r hr).both hl fun n h1 h2 => ?_
    rw [List.cons_append, pTermLoop, h1]
    exact h2
  -- IsPower
  · intro s a _ ih
    refine ⟨ih.1, fun r hr => ?_⟩
    refine (ih.2 r (stop₀_of r hr)).both (ev_pExponent_stop a r hr) fun n h1 h2 => ?_
    rw [pPower, h1]
    exact h2
  · intro s a s' b _ _ ih ih'
    refine ⟨start₀_append ih.1 _, fun r hr => ?_⟩
    rw [List.append_assoc]
    have h3 : Ev (fun n => pExponent n a (.exponent :: (s' ++ r))) (.bin .pow a b, r) :=
      (ih'.2 r (stop₀_of r hr)).map fun n h1 => by
        rw [pExponent_start n a _ (start₀_append ih'.1 r), h1]; rfl
    refine (ih.2 (.exponent :: (s' ++ r)) trivial).both h3 fun n h1 h2 => ?_
    rw [List.cons_append, pPower, h1]
    exact h2
  · intro s a s' b _ _ ih ih'
    refine ⟨start₀_append ih.1 _, fun r hr => ?_⟩
    rw [List.append_assoc]
    have h3 : Ev (fun n => pExponent n a (.exponent :: .plus :: (s' ++ r))) (.bin .pow a b, r) :=
      (ih'.2 r (stop₀_of r hr)).map fun n h1 => by
        rw [pExponent, h1]; rfl
    refine (ih.2 (.exponent :: .plus :: (s' ++ r)) trivial).both h3 fun n h1 h2 => ?_
    rw [List.cons_append, List.cons_append, pPower, h1]
    exact h2
  · intro s a s' b _ _ ih ih'
    refine ⟨start₀_append ih.1 _, fun r hr => ?_⟩
    rw [List.append_assoc]
    have h3 : Ev (fun n => pExponent n a (.exponent :: .minus :: (s' ++ r))) (.bin .pow a (.neg b), r) :=
      (ih'.2 r (stop₀_of r hr)).map fun n h1 => by
        rw [pExponent, h1]; rfl
    refine (ih.2 (.exponent :: .minus :: (s' ++ r)) trivial).both h3 fun n h1 h2 => ?_
    rw [List.cons_append, List.cons_append, pPower, h1]
    exact h2
  -- IsAtom
  · intro v
    exact ⟨trivial, fun r _ => ⟨1, fun n hn => by obtain ⟨m, rfl⟩ : ∃ m, n = m + 1 := ⟨n - 1, by omega⟩; rfl⟩⟩
  · intro v
    exact ⟨trivial, fun r hr => ⟨1, fun n hn => by
      obtain ⟨m, rfl⟩ : ∃ m, n = m + 1 := ⟨n - 1, by omega⟩; exact pAtom_var m v r hr⟩⟩
  · intro s a _ ih
    refine ⟨trivial, fun r _ => ?_⟩
    have h2 := ih.2 (.rbracket :: r) _ trivial (ev_pLoop_stop a (.rbracket :: r) trivial)
    refine h2.map fun n h1 => ?_
    rw [List.cons_append, List.append_assoc, List.singleton_append, pAtom, h1]
    rfl
  · intro m s l _ ih
    refine ⟨trivial, fun r _ => ?_⟩
    have h2 := ih.2 (.rbracket :: r) (l, .rbracket :: r) trivial ⟨1, fun n hn => by
      obtain ⟨m, rfl⟩ : ∃ m, n = m + 1 := ⟨n - 1, by omega⟩; rfl⟩
    refine h2.map fun n h1 => ?_
    rw [List.cons_append, List.cons_append, List.append_assoc, List.singleton_append,
      pAtom_call n m _ (start₁_append ih.1 _), h1]
    rfl
  · intro m
    exact ⟨trivial, fun r _ => ⟨1, fun n hn => by obtain ⟨m, rfl⟩ : ∃ m, n = m + 1 := ⟨n - 1, by omega⟩; rfl⟩⟩
  -- IsArgs
  · intro s a _ ih
    refine ⟨ih.1, fun r res hr hl => ?_⟩
    refine (ih.2 r _ (stop₂_of r hr) (ev_pLoop_stop a r hr)).both hl fun n h1 h2 => ?_
    rw [pArgs, h1]
    exact h2
  · intro s l s' a _ _ ih ih'
    refine ⟨start₁_append ih.1 _, fun r res hr hl => ?_⟩
    rw [List.append_assoc]
    refine ih.2 _ res trivial ?_
    refine (ih'.2 r _ (stop₂_of r hr) (ev_pLoop_stop a r hr)).both hl fun n h1 h2 => ?_
    rw [List.cons_append, pArgsLoop, h1]
    exact h2

/-- A sequence of tokens has at most one reading. -/
theorem isExpr_unique {s : List (Token F)} {a b : Ast F} (ha : IsExpr s a) (hb : IsExpr s b) : a = b := by
  obtain ⟨N, hN⟩ := (parse_all ha).2 [] (a, []) trivial (ev_pLoop_stop a [] trivial)
  obtain ⟨M, hM⟩ := (parse_all hb).2 [] (b, []) trivial (ev_pLoop_stop b [] trivial)
  have h1 := hN (max N M) (by omega)
  have h2 := hM (max N M) (by omega)
  simp only [h1, Option.some.injEq, Prod.mk.injEq, and_true] at h2
  exact h2

/-! ## the grammar derives every expression -/

def snocUnsigned (op : Bool) (t : Grammar.Term F) : Grammar.Unsigned F → Grammar.Unsigned F
  | .add a b => .add a (snocUnsigned op t b)
  | .sub a b => .sub a (snocUnsigned op t b)
  | .one a => if op then .add a (.one t) else .sub a (.one t)

theorem snocUnsigned_tokens (op : Bool) (t : Grammar.Term F) : (d : Grammar.Unsigned F) →
    (snocUnsigned op t d).tokens = d.tokens ++ (if op then .plus else .minus) :: t.tokens
  | .add a b => by simp [snocUnsigned, Unsigned.tokens, snocUnsigned_tokens op t b]
  | .sub a b => by simp [snocUnsigned, Unsigned.tokens, snocUnsigned_tokens op t b]
  | .one a => by cases op <;> simp [snocUnsigned, Unsigned.tokens]

def snocExpression (op : Bool) (t : Grammar.Term F) : Grammar.Expression F → Grammar.Expression F
  | .add a b => .add a (snocUnsigned op t b)
  | .sub a b => .sub a (snocUnsigned op t b)
  | .one a => if op then .add a (.one t) else .sub a (.one t)

theorem snocExpression_tokens (op : Bool) (t : Grammar.Term F) : (d : Grammar.Expression F) →
    (snocExpression op t d).tokens = d.tokens ++ (if op then .plus else .minus) :: t.tokens
  | .add a b => by simp [snocExpression, Expression.tokens, snocUnsigned_tokens op t b]
  | .sub a b => by simp [snocExpression, Expression.tokens, snocUnsigned_tokens op t b]
  | .one a => by cases op <;> simp [snocExpression, Expression.tokens, Unsigned.tokens]

def snocTerm (op : Bool) (t : Grammar.Power F) : Grammar.Term F → Grammar.Term F
  | .mul a b => .mul a (snocTerm op t b)
  | .div a b => .div a (snocTerm op t b)
  | .one a => if op then .mul a (.one t) else .div a (.one t)

theorem snocTerm_tokens (op : Bool) (t : Grammar.Power F) : (d : Grammar.Term F) →
    (snocTerm op t d).tokens = d.tokens ++ (if op then .times else .divide) :: t.tokens
  | .mul a b => by simp [snocTerm, Term.tokens, snocTerm_tokens op t b]
  | .div a b => by simp [snocTerm, Term.tokens, snocTerm_tokens op t b]
  | .one a => by cases op <;> simp [snocTerm, Term.tokens]

theorem derivable {s : List (Token F)} {a : Ast F} (h : IsExpr s a) : ∃ d : Grammar.Expression F, d.tokens = s := by
  refine IsExpr.rec
    (motive_1 := fun s _ _ => ∃ d : Grammar.Expression F, d.tokens = s)
    (motive_2 := fun s _ _ => ∃ d : Grammar.Term F, d.tokens = s)
    (motive_3 := fun s _ _ => ∃ d : Grammar.Power F, d.tokens = s)
    (motive_4 := fun s _ _ => ∃ d : Grammar.Atomic F, d.tokens = s)
    (motive_5 := fun s _ _ => ∃ d : Grammar.ExprList F, d.tokens = s)
    ?_ ?_ ?_ ?_ ?_ ?_ ?_ ?_ ?_ ?_ ?_ ?_ ?_ ?_ ?_ ?_ ?_ ?_ ?_ h
  · rintro s a _ ⟨d, rfl⟩
    exact ⟨.one (.one d), rfl⟩
  · rintro s a _ ⟨d, rfl⟩
    exact ⟨.one (.plus d), rfl⟩
  · rintro s a _ ⟨d, rfl⟩
    exact ⟨.one (.minus d), rfl⟩
  · rintro s a s' b _ _ ⟨d, rfl⟩ ⟨d', rfl⟩
    exact ⟨snocExpression true d' d, snocExpression_tokens true d' d⟩
  · rintro s a s' b _ _ ⟨d, rfl⟩ ⟨d', rfl⟩
    exact ⟨snocExpression false d' d, snocExpression_tokens false d' d⟩
  · rintro s a _ ⟨d, rfl⟩
    exact ⟨.one d, rfl⟩
  · rintro s a s' b _ _ ⟨d, rfl⟩ ⟨d', rfl⟩
    exact ⟨snocTerm true d' d, snocTerm_tokens true d' d⟩
  · rintro s a s' b _ _ ⟨d, rfl⟩ ⟨d', rfl⟩
    exact ⟨snocTerm false d' d, snocTerm_tokens false d' d⟩
  · rintro s a _ ⟨d, rfl⟩
    exact ⟨.one d, rfl⟩
  · rintro s a s' b _ _ ⟨d, rfl⟩ ⟨d', rfl⟩
    exact ⟨.pow d (.one d'), rfl⟩
  · rintro s a s' b _ _ ⟨d, rfl⟩ ⟨d', rfl⟩
    exact ⟨.pow d (.plus d'), rfl⟩
  · rintro s a s' b _ _ ⟨d, rfl⟩ ⟨d', rfl⟩
    exact ⟨.pow d (.minus d'), rfl⟩
  · intro v
    exact ⟨.lit v, rfl⟩
  · intro n
    exact ⟨.ident n, rfl⟩
  · rintro s a _ ⟨d, rfl⟩
    exact ⟨.paren d, rfl⟩
  · rintro n s l _ ⟨d, rfl⟩
    exact ⟨.call n d, rfl⟩
  · intro n
    exact ⟨.callNone n, rfl⟩
  · rintro s a _ ⟨d, rfl⟩
    exact ⟨.one d, rfl⟩
  · rintro s l s' a _ _ ⟨d, rfl⟩ ⟨d', rfl⟩
    exact ⟨.snoc d d', rfl⟩

end Schnek.Lemma.Deck
