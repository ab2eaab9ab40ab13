import Verif.Spec.Expression
import Mathlib.Tactic.Common

namespace Schnek.Lemma.Deck

open Schnek.Deck Schnek.Deck.Grammar Schnek.Spec

variable {F W : Type}

/-! ## values -/

theorem convert_self (O : FloatOps F) (v : Val F) : convert O v.ty v = some v := by
  cases v <;> rfl

theorem convert_ty (O : FloatOps F) (t : Ty) (v w : Val F) (h : convert O t v = some w) : w.ty = t := by
  cases t <;> cases v <;> simp [convert, Option.map_eq_some_iff] at h <;>
    first
    | (subst h; rfl)
    | (obtain ⟨a, _, rfl⟩ := h; rfl)

theorem unOp_ty (O : FloatOps F) (op : UnOp) (v w : Val F) (h : op.eval O v = some w) : w.ty = v.ty := by
  cases op <;> cases v <;> simp [UnOp.eval, Option.map_eq_some_iff] at h <;>
    first
    | (subst h; rfl)
    | (obtain ⟨a, _, rfl⟩ := h; rfl)

theorem binOp_ty (O : FloatOps F) (op : BinOp) (v w x : Val F) (h : op.eval O v w = some x) :
    x.ty = v.ty ∧ w.ty = v.ty := by
  cases op <;> cases v <;> cases w <;> simp [BinOp.eval, Option.map_eq_some_iff] at h <;>
    first
    | (subst h; exact ⟨rfl, rfl⟩)
    | (obtain ⟨a, _, rfl⟩ := h; exact ⟨rfl, rfl⟩)
    | (obtain ⟨_, a, _, rfl⟩ := h; exact ⟨rfl, rfl⟩)

theorem toType_eq (O : FloatOps F) : toType O = convert O := by
  funext t v
  cases t <;> cases v <;> rfl

theorem intValue_eq (i : ℤ) : intValue i = (checkInt i).map (Val.int (F := F)) := by
  unfold checkInt intValue
  have : (-2 ^ 31 ≤ i ∧ i < 2 ^ 31) ↔ (-2147483648 ≤ i ∧ i ≤ 2147483647) := by omega
  by_cases h : -2 ^ 31 ≤ i ∧ i < 2 ^ 31
  · rw [if_pos h, if_pos (this.mp h)]; rfl
  · rw [if_neg h, if_neg fun h' => h (this.mpr h')]; rfl

theorem operate_eq (O : FloatOps F) (op : BinOp) : operate O op = op.eval O := by
  funext v w
  cases v <;> cases w <;> cases op <;> simp only [operate, BinOp.eval, intValue_eq] <;> rfl

theorem negated_eq (O : FloatOps F) : negated O = UnOp.neg.eval O := by
  funext v
  cases v <;> simp [negated, UnOp.eval, intValue_eq]

theorem applyOp_ty (O : FloatOps F) (op : BinOp) (v w x : Val F) (h : applyOp O op v w = some x) :
    x.ty = wider v.ty w.ty := by
  simp only [applyOp, toType_eq, operate_eq, Option.bind_eq_some_iff] at h
  obtain ⟨v', hv', w', hw', hx⟩ := h
  rw [(binOp_ty O op _ _ _ hx).1, convert_ty O _ _ _ hv']

theorem wider_self (t : Ty) : wider t t = t := by cases t <;> rfl

theorem wider_left (s t : Ty) : wider s (wider s t) = wider s t := by cases s <;> cases t <;> rfl

theorem wider_right (s t : Ty) : wider t (wider s t) = wider s t := by cases s <;> cases t <;> rfl

theorem applyOp_same (O : FloatOps F) (op : BinOp) (v w : Val F) (h : w.ty = v.ty) :
    applyOp O op v w = op.eval O v w := by
  have h1 := convert_self O w
  rw [h] at h1
  simp [applyOp, toType_eq, operate_eq, h, wider_self, convert_self, h1]

/-! ## trees -/

theorem ast_ty (O : FloatOps F) (env : Env F W) (σ : State F W) (hσ : Env.Typed env σ) :
    (a : Ast F) → ∀ v, a.eval O env σ = some v → v.ty = a.ty env
  | .lit w => by simp [Ast.eval, Ast.ty]
  | .var n => by
      intro v h
      simp only [Ast.eval, Option.map_eq_some_iff] at h
      obtain ⟨⟨x, t⟩, hx, rfl⟩ := h
      simp [Ast.ty, hx, hσ n x t hx]
  | .paren a => by simpa [Ast.eval, Ast.ty] using ast_ty O env σ hσ a
  | .neg a => by
      intro v h
      simp only [Ast.eval, negated_eq, Option.bind_eq_some_iff] at h
      obtain ⟨x, hx, h⟩ := h
      rw [Ast.ty, unOp_ty O _ _ _ h, ast_ty O env σ hσ a x hx]
  | .bin op a b => by
      intro v h
      simp only [Ast.eval, negated_eq, Option.bind_eq_some_iff] at h
      obtain ⟨x, hx, y, hy, h⟩ := h
      rw [Ast.ty, applyOp_ty O _ _ _ _ h, ast_ty O env σ hσ a x hx, ast_ty O env σ hσ b y hy]
  | .call n args => by
      intro v h
      simp only [Ast.eval, negated_eq, Option.bind_eq_some_iff] at h
      obtain ⟨f, hf, vs, hvs, ws, hws, h⟩ := h
      simp [Ast.ty, hf, f.typed _ _ _ h]

/-- the object and the tree have the same type and always the same value -/
structure Agrees (O : FloatOps F) (env : Env F W) (e : Expr F W) (a : Ast F) : Prop where
  ty : e.ty = a.ty env
  eval : ∀ σ, Env.Typed env σ → e.eval O σ = a.eval O env σ

theorem Agrees.val_ty {O : FloatOps F} {env : Env F W} {e : Expr F W} {a : Ast F} (h : Agrees O env e a)
    {σ : State F W} (hσ : Env.Typed env σ) {v : Val F} (hv : e.eval O σ = some v) : v.ty = e.ty := by
  rw [h.ty]
  exact ast_ty O env σ hσ a v (by rw [← h.eval σ hσ, hv])

theorem convertArg_ty (t : Ty) (e : Expr F W) : (convertArg t e).ty = t := by
  unfold convertArg
  split_ifs with h
  · exact h
  · rfl

theorem convertArg_eval {O : FloatOps F} {env : Env F W} {e : Expr F W} {a : Ast F} (h : Agrees O env e a)
    {σ : State F W} (hσ : Env.Typed env σ) (t : Ty) :
    (convertArg t e).eval O σ = (e.eval O σ).bind (convert O t) := by
  unfold convertArg
  split_ifs with ht
  · cases hv : e.eval O σ with
    | none => rfl
    | some v =>
        have := h.val_ty hσ hv
        subst ht
        rw [← this, Option.bind_some, convert_self]
  · rfl

theorem promote_eq (e₁ e₂ : Expr F W) :
    promote e₁ e₂ = (convertArg (wider e₁.ty e₂.ty) e₁, convertArg (wider e₁.ty e₂.ty) e₂) := by
  unfold promote convertArg
  cases h₁ : e₁.ty <;> cases h₂ : e₂.ty <;> simp [wider]

/-! ## lists of operands -/

/-- an operand that is not spliced -/
def Single (op : BinOp) (e : Expr F W) : Prop := e.asTerms op = .cons true e .nil

/-- the list `e₂` contributes to `BinaryOp<op>(e₁, e₂)` -/
def signed (op : BinOp) (ts : Terms F W) : Terms F W := if op.isPositive then ts else ts.flipFirst

theorem asTerms_congr (op op' : BinOp) (h : op.positive = op'.positive) (e : Expr F W) :
    e.asTerms op = e.asTerms op' := by
  cases e <;> try rfl
  rename_i o es
  cases op <;> cases op' <;> simp [BinOp.positive] at h <;> cases o <;> simp [Expr.asTerms, BinOp.inverted]

theorem evalRest_congr (O : FloatOps F) (σ : State F W) (op op' : BinOp) (h : op.positive = op'.positive) :
    (ts : Terms F W) → ∀ v, ts.evalRest O σ op v = ts.evalRest O σ op' v
  | .nil => fun _ => rfl
  | .cons p e ts => by
      have hn : op.negative = op'.negative := by
        cases op <;> cases op' <;> simp [BinOp.positive, BinOp.negative] at h ⊢
      intro v
      simp only [Terms.evalRest, h, hn, evalRest_congr O σ op op' h ts]

theorem signedOp (op : BinOp) : (if op.isPositive = true then op.positive else op.negative) = op := by
  cases op <;> rfl

theorem single_cast (op : BinOp) (t : Ty) (e : Expr F W) : Single op (.cast t e) := rfl

theorem single_convertArg (op : BinOp) (t : Ty) (e : Expr F W) (h : Single op e) : Single op (convertArg t e) := by
  unfold convertArg
  split_ifs
  · exact h
  · rfl

theorem single_congr {op op' : BinOp} (h : op.positive = op'.positive) {e : Expr F W} (hs : Single op e) :
    Single op' e := by
  unfold Single at *
  rw [← asTerms_congr op op' h, hs]

theorem mkBinary_single (op : BinOp) (e₁ e₂ : Expr F W) (h : Single op e₁) :
    mkBinary op e₁ e₂ = .binary op (.cons true e₁ (signed op (e₂.asTerms op))) := by
  unfold mkBinary
  rw [h]
  rfl

theorem asTerms_mkBinary (op op' : BinOp) (hp : op.positive = op'.positive) (e₁ e₂ : Expr F W) (h : Single op e₁) :
    (mkBinary op e₁ e₂).asTerms op' = .cons true e₁ (signed op (e₂.asTerms op)) := by
  rw [mkBinary_single op e₁ e₂ h, ← asTerms_congr op op' hp]
  simp [Expr.asTerms]

theorem mkBinary_eval (O : FloatOps F) (σ : State F W) (op : BinOp) (e₁ e₂ : Expr F W) (h : Single op e₁) :
    (mkBinary op e₁ e₂).eval O σ =
      (e₁.eval O σ).bind fun v => (signed op (e₂.asTerms op)).evalRest O σ op v := by
  rw [mkBinary_single op e₁ e₂ h]
  rfl

theorem signed_cons (op : BinOp) (e : Expr F W) (ts : Terms F W) :
    signed op (.cons true e ts) = .cons op.isPositive e ts := by
  cases op <;> rfl

/-- A built chain `e` of operands, all of type `T`; `R acc op` is the tree for `acc op chain`. -/
structure Hom (O : FloatOps F) (env : Env F W) (p : BinOp) (T : Ty) (e : Expr F W) (R : Ast F → BinOp → Ast F) : Prop where
  ty : e.ty = T
  eval : ∀ acc op σ, op.positive = p → acc.ty env = T → Env.Typed env σ →
    (acc.eval O env σ).bind (fun v => (signed op (e.asTerms op)).evalRest O σ op v) = (R acc op).eval O env σ

theorem hom_one {O : FloatOps F} {env : Env F W} {p : BinOp} {T : Ty} {e : Expr F W} {a : Ast F}
    (h : Agrees O env e a) (ht : e.ty = T) (hs : Single p e) (hp : p.positive = p) :
    Hom O env p T e (fun acc op => .bin op acc a) := by
  refine ⟨ht, ?_⟩
  intro acc op σ hop hacc hσ
  have hs' : e.asTerms op = .cons true e .nil := single_congr (op := p) (op' := op) (by rw [hp, hop]) hs
  rw [hs', signed_cons]
  simp only [Terms.evalRest, signedOp, Option.bind_fun_some, Ast.eval]
  cases hv : acc.eval O env σ with
  | none => rfl
  | some v =>
      simp only [Option.bind_some]
      rw [← h.eval σ hσ]
      cases hw : e.eval O σ with
      | none => rfl
      | some w =>
          simp only [Option.bind_some]
          rw [applyOp_same]
          rw [h.val_ty hσ hw, ht, ← hacc, ast_ty O env σ hσ acc v hv]

theorem hom_cons {O : FloatOps F} {env : Env F W} {p op' : BinOp} {T : Ty} {e e' : Expr F W} {a : Ast F}
    {R : Ast F → BinOp → Ast F}
    (h : Agrees O env e a) (ht : e.ty = T) (hs : Single p e) (hp : p.positive = p) (hop' : op'.positive = p)
    (hH : Hom O env p T e' R) :
    Hom O env p T (assignBinary op' e e') (fun acc op => R (.bin op acc a) op') := by
  have hs' : Single op' e := single_congr (op := p) (by rw [hp, hop']) hs
  have hpr : assignBinary op' e e' = mkBinary op' e e' := by
    unfold assignBinary
    rw [promote_eq, ht, hH.ty, wider_self]
    unfold convertArg
    rw [if_pos ht, if_pos hH.ty]
  rw [hpr]
  refine ⟨?_, ?_⟩
  · rw [mkBinary_single op' e e' hs']
    exact ht
  intro acc op σ hop hacc hσ
  rw [asTerms_mkBinary op' op (by rw [hop, hop']) e e' hs', signed_cons]
  have hty : (Ast.bin op acc a).ty env = T := by
    show wider (acc.ty env) (a.ty env) = T
    rw [hacc, ← h.ty, ht, wider_self]
  rw [← hH.eval (.bin op acc a) op' σ hop' hty hσ]
  simp only [Terms.evalRest, signedOp, Ast.eval]
  cases hv : acc.eval O env σ with
  | none => rfl
  | some v =>
      simp only [Option.bind_some]
      rw [← h.eval σ hσ]
      cases hw : e.eval O σ with
      | none => rfl
      | some w =>
          simp only [Option.bind_some]
          rw [applyOp_same]
          · congr 1
            funext x
            exact evalRest_congr O σ op op' (by rw [hop, hop']) _ x
          · rw [h.val_ty hσ hw, ht, ← hacc, ast_ty O env σ hσ acc v hv]

theorem agrees_two {O : FloatOps F} {env : Env F W} {op : BinOp} {e₁ e₂ : Expr F W} {a₁ a₂ : Ast F}
    (h₁ : Agrees O env e₁ a₁) (h₂ : Agrees O env e₂ a₂) (hs₁ : Single op e₁) (hs₂ : Single op e₂) :
    Agrees O env (assignBinary op e₁ e₂) (.bin op a₁ a₂) := by
  have hc₁ := single_convertArg op (wider e₁.ty e₂.ty) e₁ hs₁
  have hc₂ := single_convertArg op (wider e₁.ty e₂.ty) e₂ hs₂
  unfold assignBinary
  rw [promote_eq]
  refine ⟨?_, ?_⟩
  · rw [mkBinary_single _ _ _ hc₁]
    show (convertArg _ _).ty = _
    rw [convertArg_ty, h₁.ty, h₂.ty]
    rfl
  · intro σ hσ
    rw [mkBinary_eval O σ _ _ _ hc₁]
    simp only []
    rw [hc₂, signed_cons]
    simp only [Terms.evalRest, signedOp, Option.bind_fun_some, Ast.eval, ← h₁.eval σ hσ, ← h₂.eval σ hσ,
      convertArg_eval h₁ hσ, convertArg_eval h₂ hσ]
    cases hv : e₁.eval O σ with
    | none => rfl
    | some v =>
        cases hw : e₂.eval O σ with
        | none => simp
        | some w => simp [applyOp, toType_eq, operate_eq, h₁.val_ty hσ hv, h₂.val_ty hσ hw]

theorem agrees_chain {O : FloatOps F} {env : Env F W} {p op op' : BinOp} {e₁ e₂ e' : Expr F W} {a₁ a₂ : Ast F}
    {R : Ast F → BinOp → Ast F}
    (h₁ : Agrees O env e₁ a₁) (h₂ : Agrees O env e₂ a₂) (hs₁ : Single p e₁) (hs₂ : Single p e₂)
    (hp : p.positive = p) (hop : op.positive = p) (hop' : op'.positive = p)
    (hH : Hom O env p (wider (a₁.ty env) (a₂.ty env)) e' R)
    (hR : (R (.bin op a₁ a₂) op').ty env = wider (a₁.ty env) (a₂.ty env)) :
    Agrees O env (assignBinary op e₁ (assignBinary op' e₂ e')) (R (.bin op a₁ a₂) op') := by
  set T := wider (a₁.ty env) (a₂.ty env) with hT
  have hw2 : wider e₂.ty e'.ty = T := by rw [hH.ty, h₂.ty, hT, wider_right]
  have hin : assignBinary op' e₂ e' = mkBinary op' (convertArg T e₂) e' := by
    unfold assignBinary
    rw [promote_eq, hw2]
    simp only []
    congr 1
    unfold convertArg
    rw [if_pos hH.ty]
  have hc₂ : Single op' (convertArg T e₂) := single_convertArg _ _ _ (single_congr (op := p) (by rw [hp, hop']) hs₂)
  have hc₁ : Single op (convertArg T e₁) := single_convertArg _ _ _ (single_congr (op := p) (by rw [hp, hop]) hs₁)
  have hinty : (assignBinary op' e₂ e').ty = T := by
    rw [hin, mkBinary_single _ _ _ hc₂]
    exact convertArg_ty T e₂
  have hw1 : wider e₁.ty (assignBinary op' e₂ e').ty = T := by rw [hinty, h₁.ty, hT, wider_left]
  have hout : assignBinary op e₁ (assignBinary op' e₂ e') = mkBinary op (convertArg T e₁) (assignBinary op' e₂ e') := by
    conv_lhs => unfold assignBinary
    rw [promote_eq]
    have : wider e₁.ty (mkBinary op' (promote e₂ e').1 (promote e₂ e').2).ty = T := hw1
    rw [this]
    simp only []
    have h3 : convertArg T (assignBinary op' e₂ e') = assignBinary op' e₂ e' := by
      unfold convertArg
      rw [if_pos hinty]
    exact congrArg _ h3
  refine ⟨?_, ?_⟩
  · rw [hout, mkBinary_single _ _ _ hc₁, hR]
    exact convertArg_ty T e₁
  · intro σ hσ
    rw [hout, mkBinary_eval O σ _ _ _ hc₁, hin, asTerms_mkBinary op' op (by rw [hop, hop']) _ _ hc₂, signed_cons]
    have hty : (Ast.bin op a₁ a₂).ty env = T := rfl
    rw [← hH.eval (.bin op a₁ a₂) op' σ hop' hty hσ]
    simp only [Terms.evalRest, signedOp, Ast.eval, ← h₁.eval σ hσ, ← h₂.eval σ hσ, convertArg_eval h₁ hσ,
      convertArg_eval h₂ hσ]
    cases hv : e₁.eval O σ with
    | none => rfl
    | some v =>
        cases hw : e₂.eval O σ with
        | none => simp
        | some w =>
            simp only [Option.bind_some, applyOp, toType_eq, operate_eq, h₁.val_ty hσ hv, h₂.val_ty hσ hw, h₁.ty, h₂.ty, ← hT]
            cases convert O T v with
            | none => rfl
            | some v' =>
                cases convert O T w with
                | none => rfl
                | some w' =>
                    simp only [Option.bind_some]
                    congr 1
                    funext x
                    exact evalRest_congr O σ op op' (by rw [hop, hop']) _ x

end Schnek.Lemma.Deck
