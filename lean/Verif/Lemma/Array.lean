import Verif.Spec.Array
import Verif.Lemma.Range

namespace Schnek.Lemma.Arrays

open Schnek.Arrays Spec

variable {F : Type} {n : ℕ} (O : Ops F)

theorem storeLoop_iff (x : ℕ) (f : Memory F n → Fin n → Option (Val F))
    (hf : ∀ (m m' : Memory F n) i, m'.ty = m.ty → (∀ y, m'.data y i = m.data y i) → f m' i = f m i) :
    ∀ (l : List (Fin n)) (m m' : Memory F n), l.Nodup →
      (storeLoop O x f l m = some m' ↔ m'.ty = m.ty ∧ (∀ i ∈ l, (f m i).bind (convert O (m.ty x)) = some (m'.data x i)) ∧
        ∀ y j, ¬ (y = x ∧ j ∈ l) → m'.data y j = m.data y j)
  | [], m, m', _ => by
    simp only [storeLoop, Option.some.injEq, List.not_mem_nil, false_imp_iff, implies_true, and_false, not_false_eq_true, true_and,
      forall_true_left]
    constructor
    · rintro rfl; exact ⟨rfl, fun _ _ => rfl⟩
    · rintro ⟨h1, h2⟩
      cases m; cases m'
      simp only [Memory.mk.injEq] at *
      exact ⟨h1.symm, funext fun y => funext fun j => (h2 y j).symm⟩
  | i :: l, m, m', hnd => by
    rw [List.nodup_cons] at hnd
    simp only [storeLoop]
    cases hfi : f m i with
    | none => simp [hfi]
    | some v =>
      cases hc : convert O (m.ty x) v with
      | none => simp [hfi, hc, store]
      | some w =>
        simp only [Option.bind_some, store, hc, Option.map_some]
        set m1 : Memory F n := { m with data := fun y j => if y = x ∧ j = i then w else m.data y j } with hm1
        rw [storeLoop_iff x f hf l m1 m' hnd.2]
        have hfl : ∀ j ∈ l, f m1 j = f m j := fun j hj => hf m m1 j rfl fun y => by
          have : j ≠ i := fun h => hnd.1 (h ▸ hj)
          simp [hm1, this]
        constructor
        · rintro ⟨h1, h2, h3⟩
          refine ⟨h1, fun j hj => ?_, fun y j hyj => ?_⟩
          · rcases List.mem_cons.mp hj with rfl | hj
            · rw [hfi, Option.bind_some, hc, h3 x j (by simp [hnd.1])]; simp [hm1]
            · rw [← hfl j hj]; exact h2 j hj
          · rw [h3 y j fun h => hyj ⟨h.1, List.mem_cons_of_mem _ h.2⟩]
            simp only [hm1]
            rw [if_neg fun h => hyj ⟨h.1, by simp [h.2]⟩]
        · rintro ⟨h1, h2, h3⟩
          refine ⟨h1, fun j hj => ?_, fun y j hyj => ?_⟩
          · rw [hfl j hj]; exact h2 j (List.mem_cons_of_mem _ hj)
          · simp only [hm1]
            by_cases h : y = x ∧ j = i
            · rw [if_pos h, h.1, h.2]
              have := h2 i (by simp)
              rw [hfi, Option.bind_some, hc] at this
              exact (Option.some.inj this).symm
            · rw [if_neg h]
              refine h3 y j fun hc => ?_
              rcases List.mem_cons.mp hc.2 with hj | hj
              · exact h ⟨hc.1, hj⟩
              · exact hyj ⟨hc.1, hj⟩

theorem convert_iff (T : Ty) (v w : Val F) : convert O T v = some w ↔ Converted O T v w := by
  cases T <;> cases v <;> simp [convert, Converted, Val.ty, eq_comm]

theorem storeLoop_replaced (x : ℕ) (f : Memory F n → Fin n → Option (Val F))
    (hf : ∀ (m m' : Memory F n) i, m'.ty = m.ty → (∀ y, m'.data y i = m.data y i) → f m' i = f m i) (m m' : Memory F n) :
    storeLoop O x f (List.finRange n) m = some m' ↔ Replaced O m m' x (f m) := by
  rw [storeLoop_iff O x f hf _ _ _ (List.nodup_finRange n), Replaced]
  simp only [Option.bind_eq_some_iff, convert_iff]
  refine and_congr_right fun _ => and_congr ⟨fun h i => h i (List.mem_finRange i), fun h i _ => h i⟩ ⟨fun h y hy => ?_, fun h y j hj => ?_⟩
  · funext j; exact h y j fun hc => hy hc.1
  · rw [h y fun hc => hj ⟨hc, List.mem_finRange j⟩]

/-- The value of an operand. -/
def Operand.at? : Operand F n → Fin n → Option (Val F)
  | .arr _ a, i => some (a i)
  | .expr e, i => e.at? O i
  | .scal _ v, _ => some v

/-- The type of an operand. -/
def Operand.ty : Operand F n → Ty
  | .arr T _ => T
  | .expr e => e.valueType
  | .scal T _ => T

theorem checkInt_map (a : ℤ) : (checkInt a).map (Val.int (F := F)) = asInt a := by
  unfold checkInt asInt
  have : (-2 ^ 31 ≤ a ∧ a < 2 ^ 31) ↔ (-2147483648 ≤ a ∧ a ≤ 2147483647) := by omega
  by_cases h : -2 ^ 31 ≤ a ∧ a < 2 ^ 31
  · rw [if_pos h, if_pos (this.mp h)]; rfl
  · rw [if_neg h, if_neg fun h' => h (this.mpr h')]; rfl

theorem intOp_map (op : BinOp) (a b : ℤ) :
    (intOp op a b).map (Val.int (F := F)) = if op = .div ∧ b = 0 then none else asInt (exact op a b) := by
  cases op <;> simp only [intOp, exact, checkInt_map, reduceCtorEq, false_and, if_false, true_and]
  split
  · rfl
  · exact checkInt_map _

theorem apply_arith (op : BinOp) (x y : Val F) : apply O op (promote x.ty y.ty) x y = arith O op x y := by
  cases x <;> cases y
  · exact intOp_map op _ _
  all_goals cases op <;> rfl

theorem apply_ty (op : BinOp) (T : Ty) (x y z : Val F) (hx : x.ty = T) (hy : y.ty = T) (h : apply O op T x y = some z) : z.ty = T := by
  subst hx
  cases x <;> cases y <;> simp_all [Val.ty, apply, convert]
  · obtain ⟨_, _, rfl⟩ := h; rfl
  · subst h; rfl

theorem apply_same (op : BinOp) (T : Ty) (x y : Val F) (hx : x.ty = T) (hy : y.ty = T) : apply O op T x y = arith O op x y := by
  rw [← apply_arith, hx, hy]; cases T <;> rfl

theorem applyUn_same (op : UnOp) (T : Ty) (x : Val F) (hx : x.ty = T) : applyUn O op T x = arithUn O op x := by
  subst hx; cases x <;> cases op <;> first | rfl | exact checkInt_map _

theorem arithUn_ty (op : UnOp) (x z : Val F) (h : arithUn O op x = some z) : z.ty = x.ty := by
  cases x <;> cases op <;> simp_all [arithUn, asInt, Val.ty] <;> first | (obtain ⟨_, rfl⟩ := h; rfl) | (subst h; rfl)

theorem mkBin_at (op : BinOp) (T : Ty) (A B : Operand F n) (E : Ex F n) (hA : Operand.ty A = T) (hB : Operand.ty B = T)
    (h : mkBin op A B = some E) :
    E.valueType = T ∧ ∀ i, E.at? O i = (Operand.at? O A i).bind fun x => (Operand.at? O B i).bind fun y => apply O op T x y := by
  cases A <;> cases B <;> simp only [mkBin, Operand.ty] at h hA hB <;> subst hA <;>
    first
    | (rw [if_pos hB.symm] at h; obtain rfl := Option.some.inj h; exact ⟨rfl, fun i => rfl⟩)
    | (obtain rfl := Option.some.inj h; first | exact ⟨rfl, fun i => rfl⟩ | (rw [← hB]; exact ⟨rfl, fun i => rfl⟩))
    | (simp at h)

theorem build_component (m : Memory F n) (hm : WellTyped m) (T : Ty) :
    ∀ (e : Term F) (A : Operand F n), Uniform m T e → build m e = some A →
      Operand.ty A = T ∧ ∀ i, Operand.at? O A i = component O m i e ∧ ∀ v, component O m i e = some v → v.ty = T
  | .arr x, A, hu, hb => by
    obtain rfl := Option.some.inj hb
    refine ⟨hu, fun i => ⟨rfl, fun v hv => ?_⟩⟩
    obtain rfl := Option.some.inj hv
    exact (hm x i).trans hu
  | .scal v, A, hu, hb => by
    obtain rfl := Option.some.inj hb
    refine ⟨hu, fun i => ⟨rfl, fun v hv => ?_⟩⟩
    obtain rfl := Option.some.inj hv
    exact hu
  | .un op e, A, hu, hb => by
    simp only [build, Option.bind_eq_some_iff, Option.map_eq_some_iff] at hb
    obtain ⟨a, ha, E, hE, rfl⟩ := hb
    obtain ⟨h1, h2⟩ := build_component m hm T e a hu ha
    cases a with
    | arr T' a =>
      obtain rfl := Option.some.inj hE
      refine ⟨h1, fun i => ?_⟩
      obtain ⟨h3, h4⟩ := h2 i
      simp only [Operand.at?] at h3
      simp only [Operand.at?, Ex.at?, component, ← h3, Option.bind_some]
      rw [show T' = T from h1, applyUn_same O op T _ (h4 _ h3.symm)]
      exact ⟨rfl, fun v hv => (arithUn_ty O _ _ _ hv).trans (h4 _ h3.symm)⟩
    | expr => simp [mkUn] at hE
    | scal => simp [mkUn] at hE
  | .bin op e1 e2, A, hu, hb => by
    simp only [build, Option.bind_eq_some_iff, Option.map_eq_some_iff] at hb
    obtain ⟨a, ha, b, hb, E, hE, rfl⟩ := hb
    obtain ⟨h1, h2⟩ := build_component m hm T e1 a hu.1 ha
    obtain ⟨h3, h4⟩ := build_component m hm T e2 b hu.2 hb
    obtain ⟨h5, h6⟩ := mkBin_at O op T a b E h1 h3 hE
    refine ⟨h5, fun i => ?_⟩
    simp only [Operand.at?]
    rw [h6, (h2 i).1, (h4 i).1]
    simp only [component]
    cases hx : component O m i e1 with
    | none => simp
    | some x =>
      cases hy : component O m i e2 with
      | none => simp
      | some y =>
        simp only [Option.bind_some]
        have hxT := (h2 i).2 x hx
        have hyT := (h4 i).2 y hy
        rw [← apply_same O op T x y hxT hyT]
        exact ⟨rfl, fun v hv => apply_ty O op T x y v hxT hyT hv⟩

end Schnek.Lemma.Arrays
