import Verif.Spec.Fault
import Verif.Lemma.Known
import Verif.Lemma.DeckBuild

namespace Schnek.Lemma.Fault

open Schnek.Deck Schnek.Spec

variable {F W : Type}

/-! ## the values are those of `eval` -/

theorem toOption_orFault {α : Type} (f : Fault) (x : Option α) : (orFault f x).toOption = x := by cases x <;> rfl

theorem toOption_map {α β : Type} (g : α → β) (x : Except Fault α) : (x.map g).toOption = x.toOption.map g := by cases x <;> rfl

theorem toOption_bind {α β : Type} (g : α → Except Fault β) (x : Except Fault α) :
    (x.bind g).toOption = x.toOption.bind fun a => (g a).toOption := by cases x <;> rfl

theorem unOp_toOption (O : FloatOps F) (op : UnOp) (v : Val F) : (op.tryEval O v).toOption = op.eval O v := by
  cases op <;> cases v <;> simp [UnOp.tryEval, UnOp.eval, toOption_map, toOption_orFault] <;> rfl

theorem binOp_toOption (O : FloatOps F) (op : BinOp) (v w : Val F) : (op.tryEval O v w).toOption = op.eval O v w := by
  cases op <;> cases v <;> cases w <;> simp only [BinOp.tryEval, BinOp.eval, toOption_map, toOption_orFault] <;> try rfl
  split
  · rfl
  · rw [toOption_map, toOption_orFault]

theorem convert_toOption (O : FloatOps F) (t : Ty) (v : Val F) : (tryConvert O t v).toOption = convert O t v := by
  cases t <;> cases v <;> simp only [tryConvert, convert, toOption_map, toOption_orFault] <;> rfl

mutual

theorem eval_toOption (O : FloatOps F) (σ : State F W) : (e : Expr F W) → (e.tryEval O σ).toOption = e.eval O σ
  | .value v => rfl
  | .ref t v => by
      rw [Expr.tryEval, Expr.eval]
      split <;> rfl
  | .ext t v => by
      rw [Expr.tryEval, Expr.eval]
      split <;> rfl
  | .unary op e => by
      rw [Expr.tryEval, Expr.eval, toOption_bind, eval_toOption O σ e]
      congr 1
      funext v
      exact unOp_toOption O op v
  | .binary op es => by rw [Expr.tryEval, Expr.eval, first_toOption O σ op es]
  | .cast t e => by
      rw [Expr.tryEval, Expr.eval, toOption_bind, eval_toOption O σ e]
      congr 1
      funext v
      exact convert_toOption O t v
  | .call f args => by
      rw [Expr.tryEval, Expr.eval, toOption_bind, args_toOption O σ args]
      congr 1
      funext v
      exact toOption_orFault _ _

theorem first_toOption (O : FloatOps F) (σ : State F W) (op : BinOp) : (es : Terms F W) →
    (es.tryEvalFirst O σ op).toOption = es.evalFirst O σ op
  | .nil => rfl
  | .cons _ e es => by
      rw [Terms.tryEvalFirst, Terms.evalFirst, toOption_bind, eval_toOption O σ e]
      congr 1
      funext v
      exact rest_toOption O σ op es v

theorem rest_toOption (O : FloatOps F) (σ : State F W) (op : BinOp) : (es : Terms F W) → ∀ v,
    (es.tryEvalRest O σ op v).toOption = es.evalRest O σ op v
  | .nil, v => by rw [Terms.tryEvalRest, Terms.evalRest]; rfl
  | .cons pos e es, v => by
      rw [Terms.tryEvalRest, Terms.evalRest, toOption_bind, eval_toOption O σ e]
      congr 1
      funext w
      rw [toOption_bind, binOp_toOption]
      congr 1
      funext x
      exact rest_toOption O σ op es x

theorem args_toOption (O : FloatOps F) (σ : State F W) : (es : Args F W) → (es.tryEval O σ).toOption = es.eval O σ
  | .nil => rfl
  | .cons e es => by
      rw [Args.tryEval, Args.eval, toOption_bind, eval_toOption O σ e]
      congr 1
      funext v
      rw [toOption_map, args_toOption O σ es]

end

theorem ok_iff {α : Type} {x : Except Fault α} {o : Option α} (h : x.toOption = o) (a : α) : x = .ok a ↔ o = some a := by
  subst h
  cases x <;> simp [Except.toOption]

theorem error_none {α : Type} {x : Except Fault α} {o : Option α} (h : x.toOption = o) {f : Fault} (hx : x = .error f) : o = none := by
  subst h hx
  rfl

theorem error_of_none {α : Type} {x : Except Fault α} {o : Option α} (h : x.toOption = o) (ho : o = none) : ∃ f, x = .error f := by
  cases x with
  | error f => exact ⟨f, rfl⟩
  | ok a => subst h; cases ho

theorem bind_error {α β : Type} {x : Except Fault α} {g : α → Except Fault β} {f : Fault} (h : x.bind g = .error f) :
    x = .error f ∨ ∃ a, x = .ok a ∧ g a = .error f := by
  cases x with
  | error e => exact Or.inl (by cases h; rfl)
  | ok a => exact Or.inr ⟨a, rfl, h⟩

theorem map_error {α β : Type} {x : Except Fault α} {g : α → β} {f : Fault} (h : x.map g = .error f) : x = .error f := by
  cases x with
  | error e => cases h; rfl
  | ok a => cases h

theorem orFault_error {α : Type} {x : Option α} {f f' : Fault} (h : orFault f x = .error f') : f' = f ∧ x = none := by
  cases x with
  | none => cases h; exact ⟨rfl, rfl⟩
  | some a => cases h

theorem checkInt_none {i : ℤ} : checkInt i = none ↔ ¬ InInt i := by
  unfold checkInt InInt
  split <;> simp <;> omega

/-! ## parts -/

theorem self_parts (e : Expr F W) : e ∈ parts e := by cases e <;> simp [parts]

mutual

theorem parts_sub : (e : Expr F W) → ∀ s ∈ parts e, parts s ⊆ parts e
  | .value v => fun s hs => by
      rw [parts, List.mem_singleton] at hs
      rw [hs]
      exact List.Subset.refl _
  | .ref t v => fun s hs => by
      rw [parts, List.mem_singleton] at hs
      rw [hs]
      exact List.Subset.refl _
  | .ext t x => fun s hs => by
      rw [parts, List.mem_singleton] at hs
      rw [hs]
      exact List.Subset.refl _
  | .unary op e => fun s hs => by
      rcases List.mem_cons.1 (by simpa only [parts] using hs) with rfl | hs
      · exact List.Subset.refl _
      · rw [parts.eq_4]
        exact List.Subset.trans (parts_sub e s hs) (List.subset_cons_self _ _)
  | .binary op es => fun s hs => by
      rcases List.mem_cons.1 (by simpa only [parts] using hs) with rfl | hs
      · exact List.Subset.refl _
      · rw [parts.eq_5]
        exact List.Subset.trans (parts_sub_terms es s hs) (List.subset_cons_self _ _)
  | .cast t e => fun s hs => by
      rcases List.mem_cons.1 (by simpa only [parts] using hs) with rfl | hs
      · exact List.Subset.refl _
      · rw [parts.eq_6]
        exact List.Subset.trans (parts_sub e s hs) (List.subset_cons_self _ _)
  | .call f es => fun s hs => by
      rcases List.mem_cons.1 (by simpa only [parts] using hs) with rfl | hs
      · exact List.Subset.refl _
      · rw [parts.eq_7]
        exact List.Subset.trans (parts_sub_args es s hs) (List.subset_cons_self _ _)

theorem parts_sub_terms : (es : Terms F W) → ∀ s ∈ partsTerms es, parts s ⊆ partsTerms es
  | .nil => fun s hs => by cases hs
  | .cons p e es => fun s hs => by
      rw [partsTerms] at hs ⊢
      rcases List.mem_append.1 hs with hs | hs
      · exact List.Subset.trans (parts_sub e s hs) (List.subset_append_left _ _)
      · exact List.Subset.trans (parts_sub_terms es s hs) (List.subset_append_right _ _)

theorem parts_sub_args : (es : Args F W) → ∀ s ∈ partsArgs es, parts s ⊆ partsArgs es
  | .nil => fun s hs => by cases hs
  | .cons e es => fun s hs => by
      rw [partsArgs] at hs ⊢
      rcases List.mem_append.1 hs with hs | hs
      · exact List.Subset.trans (parts_sub e s hs) (List.subset_append_left _ _)
      · exact List.Subset.trans (parts_sub_args es s hs) (List.subset_append_right _ _)

end

theorem reason_mono {O : FloatOps F} {σ : State F W} {e s : Expr F W} (h : parts s ⊆ parts e) {f : Fault} (hr : Reason O σ s f) :
    Reason O σ e f := by
  cases f with
  | typeCast =>
    obtain ⟨t, u, x, h1, h2⟩ := hr
    exact ⟨t, u, x, h h1, h2⟩
  | function =>
    obtain ⟨t, u, x, h1, h2⟩ := hr
    exact ⟨t, u, x, h h1, h2⟩
  | undefined =>
    rcases hr with ⟨u, i, h1, h2⟩ | ⟨u, i, h1, h2⟩ | ⟨op, b, p, u, c, x, y, h1, h2⟩
    · exact Or.inl ⟨u, i, h h1, h2⟩
    · exact Or.inr (Or.inl ⟨u, i, h h1, h2⟩)
    · exact Or.inr (Or.inr ⟨op, b, p, u, c, x, y, h h1, h2⟩)
  | badGet =>
    obtain ⟨u, h1, h2⟩ := hr
    exact ⟨u, h h1, h2⟩

theorem sameTypes_mono {e s : Expr F W} (h : parts s ⊆ parts e) (he : SameTypes e) : SameTypes s := fun op es hs => he op es (h hs)

/-! ## reasons -/

theorem append_nil : (es : Terms F W) → es.append .nil = es
  | .nil => rfl
  | .cons p e es => by rw [Terms.append, append_nil es]

theorem append_assoc : (a b c : Terms F W) → (a.append b).append c = a.append (b.append c)
  | .nil, b, c => rfl
  | .cons p e es, b, c => by rw [Terms.append, Terms.append, Terms.append, append_assoc es b c]

theorem rest_append (O : FloatOps F) (σ : State F W) (op : BinOp) : (a b : Terms F W) → ∀ v : Val F,
    (a.append b).evalRest O σ op v = (a.evalRest O σ op v).bind fun w => b.evalRest O σ op w
  | .nil, b, v => by simp [Terms.append, Terms.evalRest]
  | .cons p e es, b, v => by
    rw [Terms.append, Terms.evalRest, Terms.evalRest]
    rcases e.eval O σ with _ | w
    · rfl
    · simp only [Option.bind_some]
      rcases BinOp.eval O (if p = true then op.positive else op.negative) v w with _ | x
      · rfl
      · simp only [Option.bind_some]
        exact rest_append O σ op es b x

theorem first_append (O : FloatOps F) (σ : State F W) (op : BinOp) (a b : Terms F W) (ha : a ≠ .nil) :
    (a.append b).evalFirst O σ op = (a.evalFirst O σ op).bind fun w => b.evalRest O σ op w := by
  cases a with
  | nil => exact absurd rfl ha
  | cons p e es =>
    rw [Terms.append, Terms.evalFirst, Terms.evalFirst]
    rcases e.eval O σ with _ | w
    · rfl
    · exact rest_append O σ op es b w

theorem unOp_error {O : FloatOps F} {op : UnOp} {v : Val F} {f : Fault} (h : op.tryEval O v = .error f) :
    op = .neg ∧ f = .undefined ∧ ∃ i, v = .int i ∧ ¬ InInt (-i) := by
  cases op <;> cases v <;> simp only [UnOp.tryEval] at h <;> try cases h
  obtain ⟨h1, h2⟩ := orFault_error (map_error h)
  exact ⟨rfl, h1, _, rfl, checkInt_none.1 h2⟩

theorem convert_error {O : FloatOps F} {t : Ty} {v : Val F} {f : Fault} (h : tryConvert O t v = .error f) :
    (f = .undefined ∧ t = .int ∧ ∃ x, v = .float x ∧ O.toInt x = none) ∨
    (f = .typeCast ∧ ∃ s, v = .str s ∧ (t = .int ∧ O.readInt s = none ∨ t = .float ∧ O.readFloat s = none)) := by
  cases t <;> cases v <;> simp only [tryConvert] at h <;> try cases h
  · obtain ⟨h1, h2⟩ := orFault_error (map_error h)
    exact Or.inl ⟨h1, rfl, _, rfl, h2⟩
  · obtain ⟨h1, h2⟩ := orFault_error (map_error h)
    exact Or.inr ⟨h1, _, rfl, Or.inl ⟨rfl, h2⟩⟩
  · obtain ⟨h1, h2⟩ := orFault_error (map_error h)
    exact Or.inr ⟨h1, _, rfl, Or.inr ⟨rfl, h2⟩⟩

theorem binOp_error {O : FloatOps F} {op : BinOp} {v w : Val F} {f : Fault} (ht : v.ty = w.ty) (h : op.tryEval O v w = .error f) :
    f = .undefined ∧ ∃ a b, v = .int a ∧ w = .int b ∧ UndefinedInt O op a b := by
  cases op <;> cases v <;> cases w <;> simp only [BinOp.tryEval] at h <;> try cases h
  all_goals try cases ht
  · obtain ⟨h1, h2⟩ := orFault_error (map_error h)
    exact ⟨h1, _, _, rfl, rfl, checkInt_none.1 h2⟩
  · obtain ⟨h1, h2⟩ := orFault_error (map_error h)
    exact ⟨h1, _, _, rfl, rfl, checkInt_none.1 h2⟩
  · obtain ⟨h1, h2⟩ := orFault_error (map_error h)
    exact ⟨h1, _, _, rfl, rfl, checkInt_none.1 h2⟩
  · split at h
    · cases h
      exact ⟨rfl, _, _, rfl, rfl, Or.inl (by assumption)⟩
    · obtain ⟨h1, h2⟩ := orFault_error (map_error h)
      exact ⟨h1, _, _, rfl, rfl, Or.inr (checkInt_none.1 h2)⟩
  · obtain ⟨h1, h2⟩ := orFault_error (map_error h)
    exact ⟨h1, _, _, rfl, rfl, h2⟩

mutual

theorem reason (O : FloatOps F) (σ : State F W) : (e : Expr F W) → SameTypes e → ∀ f, e.tryEval O σ = .error f → Reason O σ e f
  | .value v, _, f, h => by cases h
  | .ref t v, _, f, h => by
      rw [Expr.tryEval] at h
      split at h
      · cases h
      · cases h
        exact ⟨_, self_parts _, Or.inl ⟨t, v, rfl, by assumption⟩⟩
  | .ext t v, _, f, h => by
      rw [Expr.tryEval] at h
      split at h
      · cases h
      · cases h
        exact ⟨_, self_parts _, Or.inr ⟨t, v, rfl, by assumption⟩⟩
  | .unary op e, hs, f, h => by
      have hp : parts e ⊆ parts (.unary op e) := by rw [parts.eq_4]; exact List.subset_cons_self _ _
      rw [Expr.tryEval] at h
      rcases bind_error h with h | ⟨v, hv, h⟩
      · exact reason_mono hp (reason O σ e (sameTypes_mono hp hs) f h)
      · obtain ⟨rfl, rfl, i, rfl, hi⟩ := unOp_error h
        exact Or.inl ⟨e, i, self_parts _, (ok_iff (eval_toOption O σ e) _).1 hv, hi⟩
  | .binary op es, hs, f, h => by
      obtain ⟨t, ht, hu⟩ := hs op es (self_parts _)
      have hp : partsTerms es ⊆ parts (.binary op es) := by rw [parts.eq_5]; exact List.subset_cons_self _ _
      have hsub : ∀ op' es', .binary op' es' ∈ partsTerms es → ∃ t, operands es' ≠ [] ∧ ∀ s ∈ operands es', s.ty = t :=
        fun op' es' h => hs op' es' (hp h)
      rw [Expr.tryEval] at h
      rcases reasonFirst O σ op es t ht hu hsub f h with ⟨s, h1, h2⟩ | ⟨rfl, b, p, s, c, x, y, h1, h2⟩
      · exact reason_mono (fun _ h => hp (h1 h)) h2
      · refine Or.inr (Or.inr ⟨op, b, p, s, c, x, y, ?_, h2⟩)
        rw [← h1]
        exact self_parts _
  | .cast t e, hs, f, h => by
      have hp : parts e ⊆ parts (.cast t e) := by rw [parts.eq_6]; exact List.subset_cons_self _ _
      rw [Expr.tryEval] at h
      rcases bind_error h with h | ⟨v, hv, h⟩
      · exact reason_mono hp (reason O σ e (sameTypes_mono hp hs) f h)
      · have hv := (ok_iff (eval_toOption O σ e) _).1 hv
        rcases convert_error h with ⟨rfl, rfl, x, rfl, hx⟩ | ⟨rfl, s, rfl, hx⟩
        · exact Or.inr (Or.inl ⟨e, x, self_parts _, hv, hx⟩)
        · exact ⟨t, e, s, self_parts _, hv, hx⟩
  | .call g args, hs, f, h => by
      have hp : partsArgs args ⊆ parts (.call g args) := by rw [parts.eq_7]; exact List.subset_cons_self _ _
      rw [Expr.tryEval] at h
      rcases bind_error h with h | ⟨v, hv, h⟩
      · obtain ⟨s, h1, h2⟩ := reasonArgs O σ args (fun op' es' h => hs op' es' (hp h)) f h
        exact reason_mono (fun _ h => hp (h1 h)) h2
      · obtain ⟨rfl, h'⟩ := orFault_error h
        exact ⟨g, args, v, self_parts _, (ok_iff (args_toOption O σ args) _).1 hv, h'⟩

theorem reasonFirst (O : FloatOps F) (σ : State F W) (op : BinOp) : (es : Terms F W) → ∀ t, operands es ≠ [] → (∀ s ∈ operands es, s.ty = t) →
    (∀ op' es', .binary op' es' ∈ partsTerms es → ∃ t, operands es' ≠ [] ∧ ∀ s ∈ operands es', s.ty = t) →
    ∀ f, es.tryEvalFirst O σ op = .error f → (∃ s, parts s ⊆ partsTerms es ∧ Reason O σ s f) ∨
      (f = .undefined ∧ ∃ before pos s after a b, es = Terms.append before (.cons pos s after) ∧
        (Expr.binary op before).eval O σ = some (.int a) ∧ s.eval O σ = some (.int b) ∧
        UndefinedInt O (if pos then op.positive else op.negative) a b)
  | .nil, t, h0, _, _, f, h => absurd rfl h0
  | .cons p e es, t, _, hu, hs, f, h => by
      rw [Terms.tryEvalFirst] at h
      rcases bind_error h with h | ⟨v, hv, h⟩
      · refine Or.inl ⟨e, ?_, reason O σ e (fun op' es' h => hs op' es' ?_) f h⟩
        · rw [partsTerms]
          exact List.subset_append_left _ _
        · rw [partsTerms]
          exact List.mem_append_left _ h
      · have hv := (ok_iff (eval_toOption O σ e) _).1 hv
        have hvt : v.ty = t := by rw [Lemma.Deck.eval_ty O σ e v hv]; exact hu e (by simp [operands])
        have := reasonRest O σ op es t (.cons p e .nil) v (by rw [Expr.eval, Terms.evalFirst, hv]; rfl) hvt
          (fun s h => hu s (by simp [operands, h])) (fun op' es' h => hs op' es' (by rw [partsTerms]; exact List.mem_append_right _ h)) f h
        rcases this with ⟨s, h1, h2⟩ | ⟨h0, b, p', s, c, x, y, h1, h2⟩
        · refine Or.inl ⟨s, fun _ h => ?_, h2⟩
          rw [partsTerms]
          exact List.mem_append_right _ (h1 h)
        · exact Or.inr ⟨h0, b, p', s, c, x, y, h1, h2⟩

theorem reasonRest (O : FloatOps F) (σ : State F W) (op : BinOp) : (es : Terms F W) → ∀ (t : Ty) (pre : Terms F W) (v : Val F),
    (Expr.binary op pre).eval O σ = some v → v.ty = t → (∀ s ∈ operands es, s.ty = t) →
    (∀ op' es', .binary op' es' ∈ partsTerms es → ∃ t, operands es' ≠ [] ∧ ∀ s ∈ operands es', s.ty = t) →
    ∀ f, es.tryEvalRest O σ op v = .error f → (∃ s, parts s ⊆ partsTerms es ∧ Reason O σ s f) ∨
      (f = .undefined ∧ ∃ before pos s after a b, pre.append es = Terms.append before (.cons pos s after) ∧
        (Expr.binary op before).eval O σ = some (.int a) ∧ s.eval O σ = some (.int b) ∧
        UndefinedInt O (if pos then op.positive else op.negative) a b)
  | .nil, t, pre, v, _, _, _, _, f, h => by
      rw [Terms.tryEvalRest] at h
      cases h
  | .cons p e es, t, pre, v, hpre, hvt, hu, hs, f, h => by
      rw [Terms.tryEvalRest] at h
      rcases bind_error h with h | ⟨w, hw, h⟩
      · refine Or.inl ⟨e, ?_, reason O σ e (fun op' es' h => hs op' es' ?_) f h⟩
        · rw [partsTerms]
          exact List.subset_append_left _ _
        · rw [partsTerms]
          exact List.mem_append_left _ h
      · have hw := (ok_iff (eval_toOption O σ e) _).1 hw
        have hwt : w.ty = t := by rw [Lemma.Deck.eval_ty O σ e w hw]; exact hu e (by simp [operands])
        rcases bind_error h with h | ⟨x, hx, h⟩
        · obtain ⟨rfl, a, b, rfl, rfl, hab⟩ := binOp_error (hvt.trans hwt.symm) h
          exact Or.inr ⟨rfl, pre, p, e, es, a, b, rfl, hpre, hw, hab⟩
        · have hx := (ok_iff (binOp_toOption O _ _ _) _).1 hx
          have hne : pre ≠ .nil := by
            rintro rfl
            cases hpre
          have := reasonRest O σ op es t (pre.append (.cons p e .nil)) x
            (by
              rw [Expr.eval] at hpre ⊢
              rw [first_append O σ op _ _ hne, hpre, Option.bind_some, Terms.evalRest, hw, Option.bind_some, hx]
              rfl)
            ((Lemma.Deck.binOp_ty O _ _ _ _ hx).1.trans hvt) (fun s h => hu s (by simp [operands, h]))
            (fun op' es' h => hs op' es' (by rw [partsTerms]; exact List.mem_append_right _ h)) f h
          rcases this with ⟨s, h1, h2⟩ | ⟨h0, b, p', s, c, x, y, h1, h2⟩
          · refine Or.inl ⟨s, fun _ h => ?_, h2⟩
            rw [partsTerms]
            exact List.mem_append_right _ (h1 h)
          · refine Or.inr ⟨h0, b, p', s, c, x, y, ?_, h2⟩
            rw [← h1, append_assoc]
            rfl

theorem reasonArgs (O : FloatOps F) (σ : State F W) : (es : Args F W) →
    (∀ op' es', .binary op' es' ∈ partsArgs es → ∃ t, operands es' ≠ [] ∧ ∀ s ∈ operands es', s.ty = t) →
    ∀ f, es.tryEval O σ = .error f → ∃ s, parts s ⊆ partsArgs es ∧ Reason O σ s f
  | .nil, _, f, h => by cases h
  | .cons e es, hs, f, h => by
      rw [Args.tryEval] at h
      rcases bind_error h with h | ⟨v, hv, h⟩
      · refine ⟨e, ?_, reason O σ e (fun op' es' h => hs op' es' ?_) f h⟩
        · rw [partsArgs]
          exact List.subset_append_left _ _
        · rw [partsArgs]
          exact List.mem_append_left _ h
      · obtain ⟨s, h1, h2⟩ := reasonArgs O σ es (fun op' es' h => hs op' es' (by rw [partsArgs]; exact List.mem_append_right _ h)) f
          (map_error h)
        refine ⟨s, fun _ h => ?_, h2⟩
        rw [partsArgs]
        exact List.mem_append_right _ (h1 h)

end

/-! ## every reason is one -/

theorem binOp_undefined {O : FloatOps F} {op : BinOp} {a b : ℤ} (h : UndefinedInt O op a b) : op.eval O (.int a) (.int b) = none := by
  cases op with
  | add => simp [BinOp.eval, checkInt_none.2 h]
  | sub => simp [BinOp.eval, checkInt_none.2 h]
  | mul => simp [BinOp.eval, checkInt_none.2 h]
  | div =>
    rcases h with h | h
    · simp [BinOp.eval, h]
    · simp [BinOp.eval, checkInt_none.2 h]
  | pow =>
    have h' : O.powInt a b = none := h
    simp [BinOp.eval, h']

mutual

/-- an expression with a part that has no value has none -/
theorem strict (O : FloatOps F) (σ : State F W) : (e : Expr F W) → ∀ s ∈ parts e, s.eval O σ = none → e.eval O σ = none
  | .value v, s, hs, h => by
      rw [parts, List.mem_singleton] at hs
      rw [← hs, h]
  | .ref t v, s, hs, h => by
      rw [parts, List.mem_singleton] at hs
      rw [← hs, h]
  | .ext t x, s, hs, h => by
      rw [parts, List.mem_singleton] at hs
      rw [← hs, h]
  | .unary op e, s, hs, h => by
      rcases List.mem_cons.1 (by simpa only [parts] using hs) with rfl | hs
      · exact h
      · rw [Expr.eval, strict O σ e s hs h]
        rfl
  | .binary op es, s, hs, h => by
      rcases List.mem_cons.1 (by simpa only [parts] using hs) with rfl | hs
      · exact h
      · rw [Expr.eval, strictFirst O σ op es s hs h]
  | .cast t e, s, hs, h => by
      rcases List.mem_cons.1 (by simpa only [parts] using hs) with rfl | hs
      · exact h
      · rw [Expr.eval, strict O σ e s hs h]
        rfl
  | .call f es, s, hs, h => by
      rcases List.mem_cons.1 (by simpa only [parts] using hs) with rfl | hs
      · exact h
      · rw [Expr.eval, strictArgs O σ es s hs h]
        rfl

theorem strictFirst (O : FloatOps F) (σ : State F W) (op : BinOp) : (es : Terms F W) → ∀ s ∈ partsTerms es, s.eval O σ = none →
    es.evalFirst O σ op = none
  | .nil, s, hs, h => by cases hs
  | .cons p e es, s, hs, h => by
      rw [partsTerms] at hs
      rw [Terms.evalFirst]
      rcases List.mem_append.1 hs with hs | hs
      · rw [strict O σ e s hs h]
        rfl
      · rcases e.eval O σ with _ | v
        · rfl
        · exact strictRest O σ op es s hs h v

theorem strictRest (O : FloatOps F) (σ : State F W) (op : BinOp) : (es : Terms F W) → ∀ s ∈ partsTerms es, s.eval O σ = none →
    ∀ v, es.evalRest O σ op v = none
  | .nil, s, hs, h, v => by cases hs
  | .cons p e es, s, hs, h, v => by
      rw [partsTerms] at hs
      rw [Terms.evalRest]
      rcases List.mem_append.1 hs with hs | hs
      · rw [strict O σ e s hs h]
        rfl
      · rcases e.eval O σ with _ | w
        · rfl
        · simp only [Option.bind_some]
          rcases BinOp.eval O (if p = true then op.positive else op.negative) v w with _ | x
          · rfl
          · exact strictRest O σ op es s hs h x

theorem strictArgs (O : FloatOps F) (σ : State F W) : (es : Args F W) → ∀ s ∈ partsArgs es, s.eval O σ = none → es.eval O σ = none
  | .nil, s, hs, h => by cases hs
  | .cons e es, s, hs, h => by
      rw [partsArgs] at hs
      rw [Args.eval]
      rcases List.mem_append.1 hs with hs | hs
      · rw [strict O σ e s hs h]
        rfl
      · rw [strictArgs O σ es s hs h]
        rcases e.eval O σ with _ | v <;> rfl

end

theorem reason_none (O : FloatOps F) (σ : State F W) (e : Expr F W) (f : Fault) (h : Reason O σ e f) : e.eval O σ = none := by
  cases f with
  | typeCast =>
    obtain ⟨t, s, x, h1, h2, h3⟩ := h
    refine strict O σ e _ h1 ?_
    rw [Expr.eval, h2, Option.bind_some]
    rcases h3 with ⟨rfl, h3⟩ | ⟨rfl, h3⟩ <;> simp [convert, h3]
  | function =>
    obtain ⟨g, args, vs, h1, h2, h3⟩ := h
    refine strict O σ e _ h1 ?_
    rw [Expr.eval, h2, Option.bind_some, h3]
  | undefined =>
    rcases h with ⟨s, i, h1, h2, h3⟩ | ⟨s, x, h1, h2, h3⟩ | ⟨op, b, p, s, c, x, y, h1, h2, h3, h4⟩
    · refine strict O σ e _ h1 ?_
      rw [Expr.eval, h2, Option.bind_some, UnOp.eval, checkInt_none.2 h3]
      rfl
    · refine strict O σ e _ h1 ?_
      rw [Expr.eval, h2, Option.bind_some]
      simp [convert, h3]
    · refine strict O σ e _ h1 ?_
      have hne : b ≠ .nil := by
        rintro rfl
        cases h2
      rw [Expr.eval] at h2 ⊢
      rw [first_append O σ op _ _ hne, h2, Option.bind_some, Terms.evalRest, h3, Option.bind_some, binOp_undefined h4]
      rfl
  | badGet =>
    obtain ⟨s, h1, ⟨t, v, rfl, h2⟩ | ⟨t, v, rfl, h2⟩⟩ := h
    · refine strict O σ e _ h1 ?_
      rw [Expr.eval, if_neg h2]
    · refine strict O σ e _ h1 ?_
      rw [Expr.eval, if_neg h2]

/-! ## the expressions of a setup file -/

/-- the types of the references are those the variables have -/
def Refs (Q : ℕ → Ty → Prop) (e : Expr F W) : Prop :=
  (∀ t v, .ref t v ∈ parts e → Q v t) ∧ (∀ t x, .ext t x ∉ parts e) ∧ SameTypes e

def RefsTerms (Q : ℕ → Ty → Prop) (es : Terms F W) : Prop :=
  (∀ t v, .ref t v ∈ partsTerms es → Q v t) ∧ (∀ t x, .ext t x ∉ partsTerms es) ∧
    ∀ op' es', .binary op' es' ∈ partsTerms es → ∃ t, operands es' ≠ [] ∧ ∀ s ∈ operands es', s.ty = t

def RefsArgs (Q : ℕ → Ty → Prop) (es : Args F W) : Prop :=
  (∀ t v, .ref t v ∈ partsArgs es → Q v t) ∧ (∀ t x, .ext t x ∉ partsArgs es) ∧
    ∀ op' es', .binary op' es' ∈ partsArgs es → ∃ t, operands es' ≠ [] ∧ ∀ s ∈ operands es', s.ty = t

variable {Q : ℕ → Ty → Prop}

theorem refs_unary (op : UnOp) (e : Expr F W) (h : Refs Q e) : Refs Q (.unary op e) := by
  obtain ⟨h1, h2, h3⟩ := h
  refine ⟨fun t v hv => ?_, fun t x hx => ?_, fun op' es' he => ?_⟩
  · rcases List.mem_cons.1 (by simpa only [parts] using hv) with hv | hv
    · cases hv
    · exact h1 t v hv
  · rcases List.mem_cons.1 (by simpa only [parts] using hx) with hv | hv
    · cases hv
    · exact h2 t x hv
  · rcases List.mem_cons.1 (by simpa only [parts] using he) with hv | hv
    · cases hv
    · exact h3 op' es' hv

theorem refs_cast (t : Ty) (e : Expr F W) (h : Refs Q e) : Refs Q (.cast t e) := by
  obtain ⟨h1, h2, h3⟩ := h
  refine ⟨fun t v hv => ?_, fun t x hx => ?_, fun op' es' he => ?_⟩
  · rcases List.mem_cons.1 (by simpa only [parts] using hv) with hv | hv
    · cases hv
    · exact h1 t v hv
  · rcases List.mem_cons.1 (by simpa only [parts] using hx) with hv | hv
    · cases hv
    · exact h2 t x hv
  · rcases List.mem_cons.1 (by simpa only [parts] using he) with hv | hv
    · cases hv
    · exact h3 op' es' hv

theorem refsTerms_cons (p : Bool) (e : Expr F W) (es : Terms F W) : RefsTerms Q (.cons p e es) ↔ Refs Q e ∧ RefsTerms Q es := by
  unfold RefsTerms Refs SameTypes
  simp only [partsTerms, List.mem_append, not_or]
  constructor
  · rintro ⟨h1, h2, h3⟩
    exact ⟨⟨fun t v h => h1 t v (Or.inl h), fun t v => (h2 t v).1, fun a b h => h3 a b (Or.inl h)⟩,
      fun t v h => h1 t v (Or.inr h), fun t v => (h2 t v).2, fun a b h => h3 a b (Or.inr h)⟩
  · rintro ⟨⟨h1, h2, h3⟩, h4, h5, h6⟩
    exact ⟨fun t v h => h.elim (h1 t v) (h4 t v), fun t v => ⟨h2 t v, h5 t v⟩, fun a b h => h.elim (h3 a b) (h6 a b)⟩

theorem refsArgs_cons (e : Expr F W) (es : Args F W) : RefsArgs Q (.cons e es) ↔ Refs Q e ∧ RefsArgs Q es := by
  unfold RefsArgs Refs SameTypes
  simp only [partsArgs, List.mem_append, not_or]
  constructor
  · rintro ⟨h1, h2, h3⟩
    exact ⟨⟨fun t v h => h1 t v (Or.inl h), fun t v => (h2 t v).1, fun a b h => h3 a b (Or.inl h)⟩,
      fun t v h => h1 t v (Or.inr h), fun t v => (h2 t v).2, fun a b h => h3 a b (Or.inr h)⟩
  · rintro ⟨⟨h1, h2, h3⟩, h4, h5, h6⟩
    exact ⟨fun t v h => h.elim (h1 t v) (h4 t v), fun t v => ⟨h2 t v, h5 t v⟩, fun a b h => h.elim (h3 a b) (h6 a b)⟩

theorem refsTerms_nil : RefsTerms Q (.nil : Terms F W) := ⟨by simp [partsTerms], by simp [partsTerms], by simp [partsTerms]⟩

theorem refsTerms_append : ∀ a b : Terms F W, RefsTerms Q a → RefsTerms Q b → RefsTerms Q (a.append b)
  | .nil, b, _, h => h
  | .cons p e es, b, h, h' => by
      rw [refsTerms_cons] at h
      rw [Terms.append, refsTerms_cons]
      exact ⟨h.1, refsTerms_append es b h.2 h'⟩

theorem partsTerms_append : ∀ a b : Terms F W, partsTerms (a.append b) = partsTerms a ++ partsTerms b
  | .nil, b => rfl
  | .cons p e es, b => by rw [Terms.append, partsTerms, partsTerms, partsTerms_append es b, List.append_assoc]

theorem operands_append : ∀ a b : Terms F W, operands (a.append b) = operands a ++ operands b
  | .nil, b => rfl
  | .cons p e es, b => by rw [Terms.append, operands, operands, operands_append es b, List.cons_append]

theorem refs_binary_iff (op : BinOp) (es : Terms F W) :
    Refs Q (.binary op es) ↔ RefsTerms Q es ∧ ∃ t, operands es ≠ [] ∧ ∀ s ∈ operands es, s.ty = t := by
  constructor
  · rintro ⟨h1, h2, h3⟩
    refine ⟨⟨fun t v h => h1 t v ?_, fun t v h => h2 t v ?_, fun a b h => h3 a b ?_⟩, h3 op es (self_parts _)⟩
    all_goals (simp only [parts]; exact List.mem_cons_of_mem _ h)
  · rintro ⟨⟨h1, h2, h3⟩, h4⟩
    refine ⟨fun t v hv => ?_, fun t x hx => ?_, fun op' es' he => ?_⟩
    · rcases List.mem_cons.1 (by simpa only [parts] using hv) with hv | hv
      · cases hv
      · exact h1 t v hv
    · rcases List.mem_cons.1 (by simpa only [parts] using hx) with hv | hv
      · cases hv
      · exact h2 t x hv
    · rcases List.mem_cons.1 (by simpa only [parts] using he) with hv | hv
      · cases hv
        exact h4
      · exact h3 op' es' hv

theorem operands_ty {es : Terms F W} {t : Ty} (h0 : operands es ≠ []) (h : ∀ s ∈ operands es, s.ty = t) : es.ty = t := by
  cases es with
  | nil => exact absurd rfl h0
  | cons p e es => exact h e (by simp [operands])

theorem refs_asTerms (op : BinOp) (e : Expr F W) (h : Refs Q e) :
    RefsTerms Q (e.asTerms op) ∧ operands (e.asTerms op) ≠ [] ∧ ∀ s ∈ operands (e.asTerms op), s.ty = e.ty := by
  have h0 : RefsTerms Q (.cons true e .nil) ∧ operands (.cons true e .nil : Terms F W) ≠ [] ∧
      ∀ s ∈ operands (.cons true e .nil : Terms F W), s.ty = e.ty := by
    refine ⟨(refsTerms_cons _ _ _).2 ⟨h, refsTerms_nil⟩, by simp [operands], ?_⟩
    intro s hs
    simp only [operands, List.mem_singleton] at hs
    rw [hs]
  cases e with
  | binary op' es =>
    rw [Expr.asTerms]
    split
    · obtain ⟨h1, t, h2, h3⟩ := (refs_binary_iff op' es).1 h
      refine ⟨h1, h2, fun s hs => ?_⟩
      rw [Expr.ty, operands_ty h2 h3]
      exact h3 s hs
    · exact h0
  | _ => exact h0

theorem refs_flip (es : Terms F W) (h : RefsTerms Q es) : RefsTerms Q es.flipFirst := by
  cases es with
  | nil => exact h
  | cons p e es =>
    rw [refsTerms_cons] at h
    rw [Terms.flipFirst, refsTerms_cons]
    exact h

theorem operands_flip (es : Terms F W) : operands es.flipFirst = operands es := by cases es <;> rfl

theorem refs_promote (e₁ e₂ : Expr F W) (h₁ : Refs Q e₁) (h₂ : Refs Q e₂) :
    Refs Q (promote e₁ e₂).1 ∧ Refs Q (promote e₁ e₂).2 ∧ (promote e₁ e₂).1.ty = (promote e₁ e₂).2.ty := by
  unfold promote
  rcases h1 : e₁.ty <;> rcases h2 : e₂.ty
  all_goals
    refine ⟨?_, ?_, ?_⟩
    · first | exact h₁ | exact refs_cast _ _ h₁
    · first | exact h₂ | exact refs_cast _ _ h₂
    · simp [Expr.ty, h1, h2]

theorem refs_binary (op : BinOp) (e₁ e₂ : Expr F W) (h₁ : Refs Q e₁) (h₂ : Refs Q e₂) : Refs Q (assignBinary op e₁ e₂) := by
  obtain ⟨h1, h2, h3⟩ := refs_promote e₁ e₂ h₁ h₂
  obtain ⟨a1, a2, a3⟩ := refs_asTerms op _ h1
  obtain ⟨b1, b2, b3⟩ := refs_asTerms op _ h2
  unfold assignBinary mkBinary
  refine (refs_binary_iff _ _).2 ⟨refsTerms_append _ _ a1 ?_, (promote e₁ e₂).1.ty, ?_, ?_⟩
  · split
    · exact b1
    · exact refs_flip _ b1
  · rw [operands_append]
    simp [a2]
  · intro s hs
    rw [operands_append] at hs
    rcases List.mem_append.1 hs with hs | hs
    · exact a3 s hs
    · rw [h3]
      split at hs
      · exact b3 s hs
      · rw [operands_flip] at hs
        exact b3 s hs

theorem refs_bind {x y : Option (Expr F W)} (op : BinOp) {r : Expr F W}
    (h : (x.bind fun x => y.map fun y => assignBinary op x y) = some r) (hx : ∀ e, x = some e → Refs Q e)
    (hy : ∀ e, y = some e → Refs Q e) : Refs Q r := by
  simp only [Option.bind_eq_some_iff, Option.map_eq_some_iff] at h
  obtain ⟨a, ha, b, hb, rfl⟩ := h
  exact refs_binary op a b (hx a ha) (hy b hb)

theorem refs_map {x : Option (Expr F W)} (op : UnOp) {r : Expr F W} (h : x.map (assignUnary op) = some r)
    (hx : ∀ e, x = some e → Refs Q e) : Refs Q r := by
  simp only [Option.map_eq_some_iff] at h
  obtain ⟨a, ha, rfl⟩ := h
  exact refs_unary op a (hx a ha)

theorem refs_makeList : ∀ (ts : List Ty) (es : List (Expr F W)) (a : Args F W), (∀ e ∈ es, Refs Q e) → makeList ts es = some a →
    RefsArgs Q a
  | [], [], a, _, h => by
      simp only [makeList, Option.some.injEq] at h
      rw [← h]; exact ⟨by simp [partsArgs], by simp [partsArgs], by simp [partsArgs]⟩
  | [], _ :: _, a, _, h => by simp [makeList] at h
  | _ :: _, [], a, _, h => by simp [makeList] at h
  | t :: ts, e :: es, a, he, h => by
      simp only [makeList, Option.map_eq_some_iff] at h
      obtain ⟨b, hb, rfl⟩ := h
      rw [refsArgs_cons]
      refine ⟨?_, refs_makeList ts es b (fun e he' => he e (List.mem_cons_of_mem _ he')) hb⟩
      unfold convertArg
      split
      · exact he e List.mem_cons_self
      · exact refs_cast _ _ (he e List.mem_cons_self)

theorem refs_getExpression (reg : String → Option (Func F W)) (n : String) (es : List (Expr F W)) (r : Expr F W)
    (he : ∀ e ∈ es, Refs Q e) (h : getExpression reg n es = some r) : Refs Q r := by
  simp only [getExpression, Option.bind_eq_some_iff, Option.map_eq_some_iff] at h
  obtain ⟨f, -, a, ha, rfl⟩ := h
  obtain ⟨h1, h2, h3⟩ := refs_makeList _ _ _ he ha
  refine ⟨fun t v hv => ?_, fun t x hx => ?_, fun op' es' he => ?_⟩
  · rcases List.mem_cons.1 (by simpa only [parts] using hv) with hv | hv
    · cases hv
    · exact h1 t v hv
  · rcases List.mem_cons.1 (by simpa only [parts] using hx) with hv | hv
    · cases hv
    · exact h2 t x hv
  · rcases List.mem_cons.1 (by simpa only [parts] using he) with hv | hv
    · cases hv
    · exact h3 op' es' hv

open Schnek.Deck.Grammar

mutual

theorem refs_expression (env : Env F W) (hQ : ∀ n p, env.lookup n = some p → Q p.1 p.2) : (g : Expression F) → ∀ e,
    g.build env = some e → Refs Q e
  | .add a b, e, h => refs_bind _ (by simpa only [Expression.build] using h) (refs_signedTerm env hQ a) (refs_unsigned env hQ b)
  | .sub a b, e, h => refs_bind _ (by simpa only [Expression.build] using h) (refs_signedTerm env hQ a) (refs_unsigned env hQ b)
  | .one a, e, h => refs_signedTerm env hQ a e (by simpa only [Expression.build] using h)

theorem refs_unsigned (env : Env F W) (hQ : ∀ n p, env.lookup n = some p → Q p.1 p.2) : (g : Unsigned F) → ∀ e,
    g.build env = some e → Refs Q e
  | .add a b, e, h => refs_bind _ (by simpa only [Unsigned.build] using h) (refs_term env hQ a) (refs_unsigned env hQ b)
  | .sub a b, e, h => refs_bind _ (by simpa only [Unsigned.build] using h) (refs_term env hQ a) (refs_unsigned env hQ b)
  | .one a, e, h => refs_term env hQ a e (by simpa only [Unsigned.build] using h)

theorem refs_signedTerm (env : Env F W) (hQ : ∀ n p, env.lookup n = some p → Q p.1 p.2) : (g : SignedTerm F) → ∀ e,
    g.build env = some e → Refs Q e
  | .plus a, e, h => refs_term env hQ a e (by simpa only [SignedTerm.build] using h)
  | .minus a, e, h => refs_map _ (by simpa only [SignedTerm.build] using h) (refs_term env hQ a)
  | .one a, e, h => refs_term env hQ a e (by simpa only [SignedTerm.build] using h)

theorem refs_term (env : Env F W) (hQ : ∀ n p, env.lookup n = some p → Q p.1 p.2) : (g : Term F) → ∀ e,
    g.build env = some e → Refs Q e
  | .mul a b, e, h => refs_bind _ (by simpa only [Term.build] using h) (refs_power env hQ a) (refs_term env hQ b)
  | .div a b, e, h => refs_bind _ (by simpa only [Term.build] using h) (refs_power env hQ a) (refs_term env hQ b)
  | .one a, e, h => refs_power env hQ a e (by simpa only [Term.build] using h)

theorem refs_power (env : Env F W) (hQ : ∀ n p, env.lookup n = some p → Q p.1 p.2) : (g : Power F) → ∀ e,
    g.build env = some e → Refs Q e
  | .pow a b, e, h => refs_bind _ (by simpa only [Power.build] using h) (refs_atomic env hQ a) (refs_signedAtomic env hQ b)
  | .one a, e, h => refs_atomic env hQ a e (by simpa only [Power.build] using h)

theorem refs_signedAtomic (env : Env F W) (hQ : ∀ n p, env.lookup n = some p → Q p.1 p.2) : (g : SignedAtomic F) → ∀ e,
    g.build env = some e → Refs Q e
  | .plus a, e, h => refs_atomic env hQ a e (by simpa only [SignedAtomic.build] using h)
  | .minus a, e, h => refs_map _ (by simpa only [SignedAtomic.build] using h) (refs_atomic env hQ a)
  | .one a, e, h => refs_atomic env hQ a e (by simpa only [SignedAtomic.build] using h)

theorem refs_atomic (env : Env F W) (hQ : ∀ n p, env.lookup n = some p → Q p.1 p.2) : (g : Atomic F) → ∀ e,
    g.build env = some e → Refs Q e
  | .paren a, e, h => refs_map _ (by simpa only [Atomic.build] using h) (refs_expression env hQ a)
  | .call n args, e, h => by
      simp only [Atomic.build, Option.bind_eq_some_iff] at h
      obtain ⟨l, hl, h⟩ := h
      refine refs_getExpression _ _ _ _ ?_ h
      intro a ha
      rcases Lemma.Deck.mem_assignFunctionArgs a l [] ha with ha | ha
      · simp at ha
      · exact refs_exprList env hQ args l hl a ha
  | .callNone n, e, h => refs_getExpression env.func n [] e (fun a ha => by simp at ha) (by simpa only [Atomic.build] using h)
  | .lit v, e, h => by
      simp only [Atomic.build, Option.some.injEq] at h
      rw [← h]
      exact refs_unary _ _ ⟨by simp [parts], by simp [parts], by intro a b h; simp [parts] at h⟩
  | .ident n, e, h => by
      simp only [Atomic.build, Option.map_eq_some_iff] at h
      obtain ⟨p, hp, rfl⟩ := h
      refine refs_unary _ _ ⟨fun t v hv => ?_, by simp [parts], by intro a b h; simp [parts] at h⟩
      simp only [parts, List.mem_singleton, Expr.ref.injEq] at hv
      rw [hv.1, hv.2]
      exact hQ n p hp

theorem refs_exprList (env : Env F W) (hQ : ∀ n p, env.lookup n = some p → Q p.1 p.2) : (g : ExprList F) → ∀ l,
    g.build env = some l → ∀ e ∈ l, Refs Q e
  | .snoc a b, l, h => by
      simp only [ExprList.build, Option.bind_eq_some_iff, Option.map_eq_some_iff] at h
      obtain ⟨l', hl', y, hy, rfl⟩ := h
      intro e he
      rcases List.mem_cons.mp he with rfl | he
      · exact refs_expression env hQ b e hy
      · exact refs_exprList env hQ a l' hl' e he
  | .one a, l, h => by
      simp only [ExprList.build, Option.map_eq_some_iff] at h
      obtain ⟨y, hy, rfl⟩ := h
      intro e he
      simp only [List.mem_singleton] at he
      rw [he]
      exact refs_expression env hQ a y hy

end


mutual

theorem fixed_of_constant (σ : State F W) : (e : Expr F W) → e.isConstant σ = true → ∀ t v, .ref t v ∈ parts e → σ.fixed v = true
  | .value v, _, t, w, hw => by simp [parts] at hw
  | .ref t' v, h, t, w, hw => by
      simp only [parts, List.mem_singleton, Expr.ref.injEq] at hw
      rw [hw.2]
      exact h
  | .ext t' x, h, t, w, hw => by cases h
  | .unary op e, h, t, w, hw => by
      rcases List.mem_cons.1 (by simpa only [parts] using hw) with hw | hw
      · cases hw
      · exact fixed_of_constant σ e h t w hw
  | .binary op es, h, t, w, hw => by
      rcases List.mem_cons.1 (by simpa only [parts] using hw) with hw | hw
      · cases hw
      · exact fixed_of_constantTerms σ es h t w hw
  | .cast t' e, h, t, w, hw => by
      rcases List.mem_cons.1 (by simpa only [parts] using hw) with hw | hw
      · cases hw
      · exact fixed_of_constant σ e h t w hw
  | .call f es, h, t, w, hw => by
      rcases List.mem_cons.1 (by simpa only [parts] using hw) with hw | hw
      · cases hw
      · rw [Expr.isConstant, Bool.and_eq_true] at h
        exact fixed_of_constantArgs σ es h.2 t w hw

theorem fixed_of_constantTerms (σ : State F W) : (es : Terms F W) → es.isConstant σ = true → ∀ t v, .ref t v ∈ partsTerms es →
    σ.fixed v = true
  | .nil, _, t, w, hw => by cases hw
  | .cons p e es, h, t, w, hw => by
      rw [Terms.isConstant, Bool.and_eq_true] at h
      rw [partsTerms] at hw
      rcases List.mem_append.1 hw with hw | hw
      · exact fixed_of_constant σ e h.1 t w hw
      · exact fixed_of_constantTerms σ es h.2 t w hw

theorem fixed_of_constantArgs (σ : State F W) : (es : Args F W) → es.isConstant σ = true → ∀ t v, .ref t v ∈ partsArgs es →
    σ.fixed v = true
  | .nil, _, t, w, hw => by cases hw
  | .cons e es, h, t, w, hw => by
      rw [Args.isConstant, Bool.and_eq_true] at h
      rw [partsArgs] at hw
      rcases List.mem_append.1 hw with hw | hw
      · exact fixed_of_constant σ e h.1 t w hw
      · exact fixed_of_constantArgs σ es h.2 t w hw

end

/-- the type the variable has -/
def HasType (D : DeckState F W) (v : ℕ) (t : Ty) : Prop := ∃ x, D.heap[v]? = some x ∧ x.ty = t

/-- A constant expression in which variables have the types they are used with does not fail by a wrong type. -/
theorem constant_reason {O : FloatOps F} {D : DeckState F W} {e : Expr F W} {f : Fault}
    (hD : ∀ (v : ℕ) (x : Variable F W), D.heap[v]? = some x → Lemma.Deck.Typed x) (he : Refs (HasType D) e)
    (hc : e.isConstant D.state = true) (h : e.tryEval O D.state = .error f) : f ≠ .badGet ∧ Reason O D.state e f := by
  have hr := reason O D.state e he.2.2 f h
  refine ⟨?_, hr⟩
  rintro rfl
  obtain ⟨s, hs, ⟨t, v, rfl, hv⟩ | ⟨t, x, rfl, -⟩⟩ := hr
  · obtain ⟨x, hx, ht⟩ := he.1 t v hs
    have hf := fixed_of_constant D.state e hc t v hs
    refine hv ?_
    have h1 : D.state.fixed v = x.fixed := by simp [DeckState.state, hx]
    have h2 : D.state.value v = x.value := by simp [DeckState.state, hx]
    rw [h2, ← ht]
    exact (hD v x hx).1 (by rw [← h1]; exact hf)
  · exact he.2.1 t x hs

/-- the expressions of a file -/
theorem refs_env (H : Host F W) {D D' : DeckState F W} (h : ∃ l, D'.heap = D.heap ++ l) (g : Expression F) (e : Expr F W)
    (hg : g.build (D.env H) = some e) : Refs (HasType D') e := by
  refine refs_expression (D.env H) ?_ g e hg
  rintro n ⟨v, t⟩ hp
  obtain ⟨l, hl⟩ := h
  have hp' : ((D.store.getVariable D.store.cursor n).bind fun v => D.heap[v]?.map fun x => (v, x.ty)) = some (v, t) := hp
  rw [Option.bind_eq_some_iff] at hp'
  obtain ⟨w, -, hw⟩ := hp'
  rw [Option.map_eq_some_iff] at hw
  obtain ⟨x, hx, hxt⟩ := hw
  obtain ⟨rfl, rfl⟩ := Prod.mk.inj hxt
  refine ⟨x, ?_, rfl⟩
  rw [hl]
  rw [List.getElem?_append_left (List.getElem?_eq_some_iff.1 hx).1]
  exact hx

end Schnek.Lemma.Fault
