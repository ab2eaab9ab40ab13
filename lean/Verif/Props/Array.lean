import Verif.Lemma.Stream
import Verif.Props.Range
import Mathlib.Algebra.BigOperators.Fin
import Mathlib.Algebra.BigOperators.Group.Finset.Basic
import Mathlib.Algebra.Order.Field.Basic
import Mathlib.Data.Rat.Floor
import Mathlib.Tactic.Ring
import Mathlib.Tactic.FieldSimp
import Mathlib.Tactic.Linarith

/-!
# Arrays

C53, C76, C77, C78
-/

namespace Schnek.Props

open Spec Arrays Lemma.Arrays

section

variable {F : Type} {n : ℕ}

/-- **C53** Assignment of an expression all of whose arrays and numbers have the same type: every component of the target becomes the
expression evaluated for that component with the values from before the assignment (converted to the type of the target), and no other
array changes. The target may occur in the expression. It is undefined only if one of these component values is.

Missing for the full property: expressions that mix `int` and `double`, see `C53_violated_mixed`. -/
theorem C53_assign_partial (O : Ops F) (m m' : Memory F n) (hm : WellTyped m) (T : Ty) (e : Term F) (hu : Uniform m T e) (E : Ex F n)
    (hE : build m e = some (.expr E)) (x : ℕ) :
    assign O m x E = some m' ↔ Replaced O m m' x fun i => component O m i e := by
  obtain ⟨_, h⟩ := build_component O m hm T e _ hu hE
  rw [assign, storeLoop_replaced O x _ fun _ _ _ _ _ => rfl]
  have : (fun i => E.at? O i) = fun i => component O m i e := funext fun i => (h i).1
  rw [this]

/-- **C53** An expression that is stored, and assigned after the arrays in it have been given other values or have been destroyed: it
has the values of its operands at the time when it was written. (For expressions of one type, see above.) -/
theorem C53_stored_partial (O : Ops F) (m m₂ m' : Memory F n) (hm : WellTyped m) (T : Ty) (e : Term F) (hu : Uniform m T e) (E : Ex F n)
    (hE : build m e = some (.expr E)) (x : ℕ) :
    assign O m₂ x E = some m' ↔ Replaced O m₂ m' x fun i => component O m i e := by
  obtain ⟨_, h⟩ := build_component O m hm T e _ hu hE
  rw [assign, storeLoop_replaced O x _ fun _ _ _ _ _ => rfl]
  have : (fun i => E.at? O i) = fun i => component O m i e := funext fun i => (h i).1
  rw [this]

/-- **C53** `x += expr` and the like, for expressions of one type: `x` becomes, component by component, `x` + the expression. -/
theorem C53_op_assign_partial (O : Ops F) (m m' : Memory F n) (hm : WellTyped m) (T : Ty) (e : Term F) (hu : Uniform m T e)
    (E : Ex F n) (hE : build m e = some (.expr E)) (op : BinOp) (x : ℕ) :
    opAssign O op m x E = some m' ↔ Replaced O m m' x fun i => (component O m i e).bind fun v => arith O op (m.data x i) v := by
  obtain ⟨_, h⟩ := build_component O m hm T e _ hu hE
  rw [opAssign, storeLoop_replaced O x _ fun m m' i _ hd => by simp only [hd]]
  have : (fun i => E.at? O i) = fun i => component O m i e := funext fun i => (h i).1
  simp only [apply_arith, funext_iff] at this ⊢
  simp only [this]

/-- **C53** `x = y`, `x += y` and `x += 1.5` and the like, for arrays of any types and also if `y` is `x`. -/
theorem C53_op_assign_array (O : Ops F) (m m' : Memory F n) (op : BinOp) (x y : ℕ) (v : Val F) :
    (assignArray O m x y = some m' ↔ Replaced O m m' x fun i => some (m.data y i)) ∧
      (opAssignArray O op m x y = some m' ↔ Replaced O m m' x fun i => arith O op (m.data x i) (m.data y i)) ∧
        (opAssignScalar O op m x v = some m' ↔ Replaced O m m' x fun i => arith O op (m.data x i) v) := by
  refine ⟨?_, ?_, ?_⟩
  · rw [assignArray, storeLoop_replaced O x _ fun m m' i _ hd => by simp only [hd]]
  · rw [opAssignArray, storeLoop_replaced O x _ fun m m' i _ hd => by simp only [hd]]
    simp only [apply_arith]
  · rw [opAssignScalar, storeLoop_replaced O x _ fun m m' i _ hd => by simp only [hd]]
    simp only [apply_arith]

end

/-- Exact arithmetic with rational numbers. -/
def ratArith : Ops ℚ where
  neg := (- ·)
  add := (· + ·)
  sub := (· - ·)
  mul := (· * ·)
  div := (· / ·)
  ofInt := fun i => i
  toInt := fun x => some (if 0 ≤ x then ⌊x⌋ else ⌈x⌉)

/-- Two arrays of `double`s (1.5, 2) and (1, 0.5). -/
def twoArrays : Memory ℚ 2 where
  ty := fun _ => .dbl
  data := fun x i => if x = 0 then .dbl (if i = 0 then 3 / 2 else 2) else .dbl (if i = 0 then 1 else 1 / 2)

/-- `(a + b) * 2.0` with the target `a`: the hypotheses are met, and the result is (5, 5). -/
example : WellTyped twoArrays ∧ Uniform twoArrays .dbl (.bin .mul (.bin .add (.arr 0) (.arr 1)) (.scal (.dbl 2))) ∧
    ∃ E, build twoArrays (.bin .mul (.bin .add (.arr 0) (.arr 1)) (.scal (.dbl 2))) = some (.expr E) ∧
      ∀ i, (assign ratArith twoArrays 0 E).map (fun m' => m'.data 0 i) = some (.dbl 5) := by
  refine ⟨fun x i => ?_, ⟨⟨rfl, rfl⟩, rfl⟩, _, rfl, ?_⟩
  · simp only [twoArrays]; split <;> rfl
  · decide +kernel

/-- **C53** violated: `x = (a + b) * 2` for arrays of `double`s and the `int` number 2. The multiplication is carried out with
`int`s: the result is (4, 4), not (5, 5). -/
theorem C53_violated_mixed : ∃ (m m' : Memory ℚ 2) (e : Term ℚ) (E : Ex ℚ 2), WellTyped m ∧ build m e = some (.expr E) ∧
    assign ratArith m 0 E = some m' ∧ (∀ i, m'.data 0 i = .dbl 4) ∧ ∀ i, component ratArith m i e = some (.dbl 5) := by
  obtain ⟨E, hE⟩ : ∃ E, E = Ex.bin .mul .int (.bin .add .dbl (.arr .dbl (twoArrays.data 0)) (.arr .dbl (twoArrays.data 1)))
    (.const .int (.int 2)) := ⟨_, rfl⟩
  have h : ∀ i, (assign ratArith twoArrays 0 E).map (fun m' => m'.data 0 i) = some (.dbl 4) := by
    subst hE; decide +kernel
  cases hm : assign ratArith twoArrays 0 E with
  | none => rw [hm] at h; simp at h
  | some m' =>
    refine ⟨twoArrays, m', .bin .mul (.bin .add (.arr 0) (.arr 1)) (.scal (.int 2)), E, fun x i => ?_, ?_, hm, fun i => ?_, ?_⟩
    · simp only [twoArrays]; split <;> rfl
    · subst hE; rfl
    · have := h i
      rw [hm] at this
      exact Option.some.inj this
    · decide +kernel

section

variable {T : Type} {n : ℕ}

/-- **C53** Comparisons of arrays with elements from a linear order (e.g. `int`, or `double` without NaN): `==` is equality, `!=` its
negation; `<=` and `<` hold if they hold for all components. -/
theorem C53_compare [LinearOrder T] (a b : Fin n → T) :
    (eq (fun x y => decide (x ≠ y)) a b = true ↔ a = b) ∧ (ne (fun x y => decide (x ≠ y)) a b = true ↔ a ≠ b) ∧
      (le (fun x y => decide (x > y)) a b = true ↔ ∀ i, a i ≤ b i) ∧ (lt (fun x y => decide (x ≥ y)) a b = true ↔ ∀ i, a i < b i) := by
  have h1 : ∀ l, eq.go (fun x y => decide (x ≠ y)) a b l = true ↔ ∀ i ∈ l, a i = b i := by
    intro l
    induction l with
    | nil => simp [eq.go]
    | cons i l ih => by_cases h : a i = b i <;> simp [eq.go, h] at ih ⊢; exact ih
  have h2 : ∀ l, ne.go (fun x y => decide (x ≠ y)) a b l = true ↔ ¬ ∀ i ∈ l, a i = b i := by
    intro l
    induction l with
    | nil => simp [ne.go]
    | cons i l ih => by_cases h : a i = b i <;> simp [ne.go, h] at ih ⊢; exact ih
  have h3 : ∀ l, le.go (fun x y => decide (x > y)) a b l = true ↔ ∀ i ∈ l, a i ≤ b i := by
    intro l
    induction l with
    | nil => simp [le.go]
    | cons i l ih => by_cases h : b i < a i <;> simp [le.go, h] at ih ⊢ <;> simp_all
  have h4 : ∀ l, lt.go (fun x y => decide (x ≥ y)) a b l = true ↔ ∀ i ∈ l, a i < b i := by
    intro l
    induction l with
    | nil => simp [lt.go]
    | cons i l ih => by_cases h : b i ≤ a i <;> simp [lt.go, h] at ih ⊢ <;> simp_all
  refine ⟨?_, ?_, ?_, ?_⟩
  · rw [eq, h1]; simp [funext_iff]
  · rw [ne, h2]; simp [funext_iff]
  · rw [le, h3]; simp
  · rw [lt, h4]; simp

/-- **C53** violated for NaN (here: the `none` of a type whose comparisons with `none` are all false, except `!=`): `a < b` and
`a <= b` hold for arrays of which no component is less than, or equal to, the other. -/
theorem C53_violated_nan : ∃ (a b : Fin 2 → Option ℤ),
    let less := fun x y : Option ℤ => match x, y with | some x, some y => decide (x < y) | _, _ => false
    let lessEq := fun x y : Option ℤ => match x, y with | some x, some y => decide (x ≤ y) | _, _ => false
    (∀ i, less (a i) (b i) = false ∧ lessEq (a i) (b i) = false) ∧
      lt (fun x y => lessEq y x) a b = true ∧ le (fun x y => less y x) a b = true := by
  refine ⟨fun _ => none, fun _ => some 1, ?_⟩
  decide

/-- **C53** `sum`, `product`, `sqr` run over all components once; `project` keeps the first components; `projectDim` removes one. -/
theorem C53_reductions [CommRing T] (a : Fin (n + 1) → T) (junk : Fin n → T) (dim : Fin (n + 1)) (k : ℕ) (hk : k ≤ n + 1) :
    sum a = ∑ i, a i ∧ product a = ∏ i, a i ∧ sqr a = ∑ i, a i ^ 2 ∧ (∀ i : Fin k, project a k hk i = a (Fin.castLE hk i)) ∧
      projectDim junk a dim = dim.removeNth a := by
  have hs : ∀ (l : List (Fin (n + 1))) (f : Fin (n + 1) → T) (s : T), l.foldl (fun s i => s + f i) s = s + (l.map f).sum := by
    intro l f
    induction l with
    | nil => simp
    | cons i l ih => intro s; rw [List.foldl_cons, ih]; simp [add_assoc]
  have hp : ∀ (l : List (Fin (n + 1))) (s : T), l.foldl (fun s i => s * a i) s = s * (l.map a).prod := by
    intro l
    induction l with
    | nil => simp
    | cons i l ih => intro s; rw [List.foldl_cons, ih]; simp [mul_assoc]
  refine ⟨?_, ?_, ?_, fun i => rfl, ?_⟩
  · rw [sum, hs, zero_add, ← List.ofFn_eq_map, List.sum_ofFn]
  · rw [product, hp, one_mul, ← List.ofFn_eq_map, List.prod_ofFn]
  · rw [sqr, hs _ (fun i => a i * a i), zero_add, ← List.ofFn_eq_map, List.sum_ofFn]
    simp [sq]
  · funext j
    simp only [projectDim, Fin.removeNth, Fin.succAbove]
    by_cases h : j.1 < dim.1
    · rw [dif_pos h, if_pos (by simpa [Fin.lt_def] using h)]; rfl
    · rw [dif_neg h, if_pos (by omega), if_neg (by simpa [Fin.lt_def] using h)]; rfl

end

/-! ## Cross product and mean -/

section

variable {K : Type}

/-- **C76** If the result is another array than the arguments, `crossProduct` stores the cross product, and leaves everything else
alone. Missing for the full property: the result may be one of the arguments, see `C76_violated_alias`. -/
theorem C76_cross_product_partial [CommRing K] (m : ℕ → Fin 3 → K) (r a b : ℕ) (ha : r ≠ a) (hb : r ≠ b) :
    crossProduct m r a b r = ![m a 1 * m b 2 - m a 2 * m b 1, m a 2 * m b 0 - m a 0 * m b 2, m a 0 * m b 1 - m a 1 * m b 0] ∧
      (∀ y, y ≠ r → crossProduct m r a b y = m y) ∧
      ∑ i, crossProduct m r a b r i * m a i = 0 ∧ ∑ i, crossProduct m r a b r i * m b i = 0 := by
  have h0 : crossProduct m r a b r 0 = m a 1 * m b 2 - m a 2 * m b 1 := by simp [crossProduct, put]
  have h1 : crossProduct m r a b r 1 = m a 2 * m b 0 - m a 0 * m b 2 := by simp [crossProduct, put, ha.symm, hb.symm]
  have h2 : crossProduct m r a b r 2 = m a 0 * m b 1 - m a 1 * m b 0 := by simp [crossProduct, put, ha.symm, hb.symm]
  refine ⟨?_, fun y hy => ?_, ?_, ?_⟩
  · funext i; fin_cases i
    · exact h0
    · exact h1
    · exact h2
  · funext i; simp [crossProduct, put, hy]
  · rw [Fin.sum_univ_three, h0, h1, h2]; ring
  · rw [Fin.sum_univ_three, h0, h1, h2]; ring

example : (0 : ℕ) ≠ 1 ∧ (0 : ℕ) ≠ 2 ∧
    crossProduct (fun x => if x = 1 then ![1, 2, 3] else ![4, 5, (6 : ℤ)]) 0 1 2 0 = ![-3, 6, -3] := by decide

/-- **C76** violated: `crossProduct(a, a, b)` does not store the cross product of `a` and `b`. -/
theorem C76_violated_alias : ∃ (m : ℕ → Fin 3 → ℤ), crossProduct m 0 0 1 0 ≠
    ![m 0 1 * m 1 2 - m 0 2 * m 1 1, m 0 2 * m 1 0 - m 0 0 * m 1 2, m 0 0 * m 1 1 - m 0 1 * m 1 0] :=
  ⟨fun x => if x = 0 then ![1, 2, 3] else ![4, 5, 6], by decide⟩

/-- **C77** `mean` of at least one value is their sum divided by their number, and lies between any bounds of the values. -/
theorem C77_mean [Field K] [LinearOrder K] [IsStrictOrderedRing K] (l : List K) (hl : l ≠ []) :
    ∃ μ, mean l = some μ ∧ μ * l.length = l.sum ∧ ∀ lo hi, (∀ x ∈ l, lo ≤ x ∧ x ≤ hi) → lo ≤ μ ∧ μ ≤ hi := by
  have key : ∀ (l : List K) (s : K × ℕ), meanLoop l s = (s.1 + l.sum, s.2 + l.length) := by
    intro l
    induction l with
    | nil => intro s; simp [meanLoop]
    | cons x l ih =>
      rintro ⟨m, c⟩
      rw [meanLoop, ih]
      simp [add_assoc, add_comm 1 l.length]
  have hpos : (0 : K) < l.length := by
    have : 0 < l.length := List.length_pos_iff.mpr hl
    exact_mod_cast this
  refine ⟨l.sum / l.length, ?_, div_mul_cancel₀ _ hpos.ne', fun lo hi h => ?_⟩
  · simp [mean, key, hl]
  · have hb : ∀ l : List K, (∀ x ∈ l, lo ≤ x ∧ x ≤ hi) → lo * l.length ≤ l.sum ∧ l.sum ≤ hi * l.length := by
      intro l
      induction l with
      | nil => simp
      | cons x l ih =>
        intro h
        obtain ⟨h1, h2⟩ := ih fun y hy => h y (List.mem_cons_of_mem _ hy)
        obtain ⟨h3, h4⟩ := h x (by simp)
        simp only [List.length_cons, List.sum_cons, Nat.cast_add, Nat.cast_one, mul_add, mul_one]
        exact ⟨by linarith, by linarith⟩
    obtain ⟨h1, h2⟩ := hb l h
    exact ⟨(le_div_iff₀ hpos).mpr h1, (div_le_iff₀ hpos).mpr h2⟩

example : mean [(1 : ℚ), 2, 6] = some 3 := by decide +kernel

end

/-! ## Stream output -/

section

variable {T : Type} {n : ℕ}

/-- **C78** Writing a grid to a stream writes every element of the grid exactly once, the first index running fastest, with a space
between the elements of a row, a newline at the end of every row (rank 2 and above) and another one at the end of every two-dimensional
slice (rank 3 and above). -/
theorem C78_stream_grid (r : Range (n + 1)) (hne : ∀ i, r.lo i ≤ r.hi i) (g : Idx (n + 1) → T) :
    ∃ l, Enumerates ColexLt (InBox r.lo r.hi) l ∧ streamGrid r g = l.flatMap fun p => .val (g p) :: separator r.hi p := by
  obtain ⟨l, hl, hf⟩ := C02_forEachF r
  refine ⟨l, hl, ?_⟩
  have hl' : l = Lemma.enumF r (n + 1) le_rfl r.lo := by
    have h1 := hf (List (Idx (n + 1))) (fun p s => s ++ [p]) []
    rw [Range.forEachF, (Lemma.forEachFImpl_spec r _ (n + 1) le_rfl r.lo []).1, Lemma.Stream.foldl_append, Lemma.Stream.foldl_append] at h1
    simpa using h1.symm
  have hle : le (fun a b : ℤ => decide (a > b)) r.lo r.hi = true := (C53_compare r.lo r.hi).2.2.1.mpr hne
  rw [streamGrid, if_pos hle, Lemma.Stream.rows_eq r hne g n, hl']
  rfl

/-- **C78** Writing a grid without elements writes nothing. -/
theorem C78_stream_empty (r : Range (n + 1)) (he : ∃ i, r.hi i < r.lo i) (g : Idx (n + 1) → T) : streamGrid r g = [] := by
  obtain ⟨i, hi⟩ := he
  rw [streamGrid, if_neg]
  intro h
  have := (C53_compare r.lo r.hi).2.2.1.mp h i
  omega

/-- **C78** Writing an array writes the elements in order with a space between any two. -/
theorem C78_stream_array (a : Fin n → T) : streamArray a = ((List.ofFn a).map Piece.val).intersperse .space := by
  have h : ∀ (f : Fin n → T) (i : Fin n) (l : List (Fin n)),
      Piece.val (f i) :: l.flatMap (fun j => [.space, .val (f j)]) = (((i :: l).map f).map Piece.val).intersperse .space := by
    intro f i l
    induction l generalizing i with
    | nil => simp
    | cons j l ih =>
      rw [List.map_cons, List.map_cons, List.map_cons, List.map_cons, List.intersperse_cons₂, ← List.map_cons, ← List.map_cons, ← ih]
      rfl
  rw [streamArray, List.ofFn_eq_map]
  cases List.finRange n with
  | nil => rfl
  | cons i l => exact h a i l

/-- A grid of three columns and two rows. -/
example : streamGrid (⟨![0, 1], ![2, 2]⟩ : Range 2) (fun p => p 0 + 10 * p 1) =
    [.val 10, .space, .val 11, .space, .val 12, .newline, .val 20, .space, .val 21, .space, .val 22, .newline] := by
  decide +kernel

example : streamArray ![(3 : ℤ), 1, 4] = [.val 3, .space, .val 1, .space, .val 4] := by decide

end

end Schnek.Props
