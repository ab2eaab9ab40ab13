import Verif.Model.Kokkos
import Verif.Spec.Range
import Mathlib.Data.List.Nodup
import Mathlib.Tactic.Push

/-!
# C12: grids with Kokkos storage
-/

namespace Schnek.Props.Kokkos

open Schnek Schnek.Spec Schnek.Kokkos Function

variable {n : ℕ}

/-- The grid at `x` has exactly the memory its range describes: an access is defined if and only if the
index is in the range. -/
def Consistent (h : Heap n) (x : ℕ) : Prop :=
  ∀ ob, h.objs x = some ob → ∀ p, InBox ob.range.lo ob.range.hi p ↔ (access h x p).isSome

/-- Histories for which the property holds: no assignment, and resize only of a grid that shares its data
with no other live grid. -/
def OpOk (h : Heap n) : Op n → Prop
  | .assign _ _ => False
  | .resize a _ => ∀ oa, h.objs a = some oa → ∀ x ox, h.objs x = some ox → ox.view = oa.view → x = a
  | _ => True

/-- The grids that have not been given a size: those constructed without arguments and their copies, until they are resized. -/
def unsized (D : ℕ → Prop) : Op n → ℕ → Prop
  | .constructDefault a => fun x => D x ∨ x = a
  | .construct a _ => fun x => D x ∧ x ≠ a
  | .copy a b => fun x => (x ≠ a ∧ D x) ∨ (x = a ∧ D b)
  | .assign a b => fun x => (x ≠ a ∧ D x) ∨ (x = a ∧ D b)
  | .resize a _ => fun x => D x ∧ x ≠ a
  | .destroy a => fun x => D x ∧ x ≠ a

/-- `Reach h D`: the state `h` can be reached, and then `D` are the grids that have not been given a size -/
inductive Reach : Heap n → (ℕ → Prop) → Prop
  | empty : Reach Heap.empty (fun _ => False)
  | step {h h' : Heap n} {D : ℕ → Prop} {op : Op n} : Reach h D → OpOk h op → Kokkos.step h op = .ok h' → Reach h' (unsized D op)

private structure Inv (h : Heap n) (D : ℕ → Prop) : Prop where
  key : ∀ x ob, h.objs x = some ob → x ∈ h.keys ob.share ∧ ob.share < h.nextMap ∧ ob.view < h.nextView
  alive : ∀ s, s < h.nextMap → ∀ x ∈ h.keys s, ∃ ob, h.objs x = some ob ∧ ob.share = s
  nodup : ∀ s, (h.keys s).Nodup
  ext : ∀ x ob, h.objs x = some ob → (¬ D x → h.extents ob.view = Storage.dims ob.range) ∧ (D x → h.extents ob.view = fun _ => 0)
  same : ∀ x y ox oy, h.objs x = some ox → h.objs y = some oy → (ox.share = oy.share ↔ ox.view = oy.view)

private theorem inv_create {h h' : Heap n} {D D' : ℕ → Prop} (hi : Inv h D) (a : ℕ) (r : Range n) (e : Idx n)
    (hD : ∀ x, x ≠ a → (D' x ↔ D x)) (he : (¬ D' a → e = Storage.dims r) ∧ (D' a → e = fun _ => 0))
    (hs : create h a r e = .ok h') : Inv h' D' := by
  cases ha : h.objs a with
  | some _ => simp [create, ha] at hs
  | none =>
    simp only [create, ha] at hs
    cases hs
    have hobj : ∀ x ob, update h.objs a (some (⟨r, h.nextView, h.nextMap⟩ : Obj n)) x = some ob →
        (x = a ∧ ob = ⟨r, h.nextView, h.nextMap⟩) ∨ (x ≠ a ∧ h.objs x = some ob) := by
      intro x ob hx
      by_cases hxa : x = a
      · subst hxa; simp at hx; exact Or.inl ⟨rfl, hx.symm⟩
      · rw [update_of_ne hxa] at hx; exact Or.inr ⟨hxa, hx⟩
    constructor
    · intro x ob hx
      rcases hobj x ob hx with ⟨rfl, rfl⟩ | ⟨hxa, hx'⟩
      · simp
      · obtain ⟨k1, k2, k3⟩ := hi.key x ob hx'
        refine ⟨?_, by show _ < h.nextMap + 1; omega, by show _ < h.nextView + 1; omega⟩
        simp only
        rw [update_of_ne (by omega)]; exact k1
    · intro s hs x hx
      simp only at hs hx ⊢
      by_cases hss : s = h.nextMap
      · subst hss
        simp only [update_self, List.mem_singleton] at hx
        subst hx
        exact ⟨⟨r, h.nextView, h.nextMap⟩, by simp, rfl⟩
      · rw [update_of_ne hss] at hx
        obtain ⟨ob, e1, e2⟩ := hi.alive s (by omega) x hx
        have : x ≠ a := by rintro rfl; rw [ha] at e1; cases e1
        exact ⟨ob, by rw [update_of_ne this, e1], e2⟩
    · intro s
      simp only
      by_cases hss : s = h.nextMap
      · subst hss; simp
      · rw [update_of_ne hss]; exact hi.nodup s
    · intro x ob hx
      simp only
      rcases hobj x ob hx with ⟨rfl, rfl⟩ | ⟨hxa, hx'⟩
      · simpa using he
      · rw [update_of_ne (by have := (hi.key x ob hx').2.2; omega), hD x hxa]
        exact hi.ext x ob hx'
    · intro x y ox oy hx hy
      rcases hobj x ox hx with ⟨rfl, rfl⟩ | ⟨hxa, hx'⟩
      · rcases hobj y oy hy with ⟨rfl, rfl⟩ | ⟨hya, hy'⟩
        · simp
        · have := hi.key y oy hy'
          simp only
          constructor <;> intro <;> omega
      · rcases hobj y oy hy with ⟨rfl, rfl⟩ | ⟨hya, hy'⟩
        · have := hi.key x ox hx'
          simp only
          constructor <;> intro <;> omega
        · exact hi.same x y ox oy hx' hy'

private theorem inv_step {h h' : Heap n} {D : ℕ → Prop} (hi : Inv h D) {op : Op n} (hok : OpOk h op)
    (hs : step h op = .ok h') : Inv h' (unsized D op) := by
  cases op with
  | constructDefault a =>
    exact inv_create hi a _ _ (fun x hx => by simp [unsized, hx]) (by simp [unsized]) hs
  | construct a r =>
    exact inv_create hi a _ _ (fun x hx => by simp [unsized, hx]) (by simp [unsized]) hs
  | copy a b =>
    cases ha : h.objs a with
    | some _ => simp [step, ha] at hs
    | none =>
      cases hb : h.objs b with
      | none => simp [step, ha, hb] at hs
      | some ob =>
        simp only [step, ha, hb] at hs
        cases hs
        have hobj : ∀ x ox, update h.objs a (some ob) x = some ox →
            (x = a ∧ ox = ob) ∨ (x ≠ a ∧ h.objs x = some ox) := by
          intro x ox hx
          by_cases hxa : x = a
          · subst hxa; simp at hx; exact Or.inl ⟨rfl, hx.symm⟩
          · rw [update_of_ne hxa] at hx; exact Or.inr ⟨hxa, hx⟩
        have hsrc : ∀ x ox, update h.objs a (some ob) x = some ox → ∃ y, h.objs y = some ox := by
          intro x ox hx
          rcases hobj x ox hx with ⟨rfl, rfl⟩ | ⟨_, h'⟩
          · exact ⟨b, hb⟩
          · exact ⟨x, h'⟩
        have mem : ∀ x l, x ∈ addKey l a ↔ x = a ∨ x ∈ l := by
          intro x l
          unfold addKey
          split_ifs with h
          · exact ⟨Or.inr, fun h' => h'.elim (fun e => e ▸ h) id⟩
          · simp
        constructor
        · intro x ox hx
          simp only
          rcases hobj x ox hx with ⟨rfl, rfl⟩ | ⟨hxa, hx'⟩
          · have := hi.key b ox hb
            refine ⟨?_, this.2⟩
            rw [update_self, mem]; exact Or.inl rfl
          · have := hi.key x ox hx'
            refine ⟨?_, this.2⟩
            by_cases hss : ox.share = ob.share
            · rw [hss, update_self, mem, ← hss]; exact Or.inr this.1
            · rw [update_of_ne hss]; exact this.1
        · intro s hs x hx
          simp only at hs hx ⊢
          have keep : ∀ z oz, h.objs z = some oz → update h.objs a (some ob) z = some oz := by
            intro z oz hz
            have : z ≠ a := by rintro rfl; rw [ha] at hz; cases hz
            rw [update_of_ne this, hz]
          by_cases hss : s = ob.share
          · subst hss
            rw [update_self, mem] at hx
            rcases hx with rfl | hx
            · exact ⟨ob, by simp, rfl⟩
            · obtain ⟨oz, e1, e2⟩ := hi.alive _ hs x hx
              exact ⟨oz, keep x oz e1, e2⟩
          · rw [update_of_ne hss] at hx
            obtain ⟨oz, e1, e2⟩ := hi.alive _ hs x hx
            exact ⟨oz, keep x oz e1, e2⟩
        · intro s
          simp only
          by_cases hss : s = ob.share
          · subst hss
            rw [update_self]
            unfold addKey
            split_ifs with h
            · exact hi.nodup _
            · exact List.nodup_cons.mpr ⟨h, hi.nodup _⟩
          · rw [update_of_ne hss]; exact hi.nodup s
        · intro x ox hx
          rcases hobj x ox hx with ⟨rfl, rfl⟩ | ⟨hxa, hx'⟩
          · simpa [unsized] using hi.ext b ox hb
          · simpa [unsized, hxa] using hi.ext x ox hx'
        · intro x y ox oy hx hy
          obtain ⟨x', hx'⟩ := hsrc x ox hx
          obtain ⟨y', hy'⟩ := hsrc y oy hy
          exact hi.same x' y' ox oy hx' hy'
  | assign a b => exact hok.elim
  | resize a r =>
    cases ha : h.objs a with
    | none => simp [step, ha] at hs
    | some oa =>
      obtain ⟨k1, k2, k3⟩ := hi.key a oa ha
      -- the map contains only `a`
      have hkeys : h.keys oa.share = [a] := by
        have hall : ∀ x ∈ h.keys oa.share, x = a := by
          intro x hx
          obtain ⟨ox, e1, e2⟩ := hi.alive _ k2 x hx
          exact hok oa ha x ox e1 ((hi.same x a ox oa e1 ha).mp e2)
        have hnd := hi.nodup oa.share
        match hh : h.keys oa.share, k1, hall, hnd with
        | [y], _, hall, _ => rw [hall y (by simp)]
        | y :: z :: l, _, hall, hnd =>
          exfalso
          have h1 := hall y (by simp)
          have h2 := hall z (by simp)
          simp [h1, h2] at hnd
      have hs' : h' = ⟨update h.objs a (some ⟨r, h.nextView, oa.share⟩), h.keys,
          update h.extents h.nextView (Storage.dims r), h.nextMap, h.nextView + 1⟩ := by
        simp only [step, ha, hkeys, List.foldlM_cons, callback, update_self, List.foldlM_nil, update_idem] at hs
        cases hs
        rfl
      subst hs'
      have hobj : ∀ x ox, update h.objs a (some (⟨r, h.nextView, oa.share⟩ : Obj n)) x = some ox →
          (x = a ∧ ox = ⟨r, h.nextView, oa.share⟩) ∨ (x ≠ a ∧ h.objs x = some ox) := by
        intro x ox hx
        by_cases hxa : x = a
        · subst hxa; simp at hx; exact Or.inl ⟨rfl, hx.symm⟩
        · rw [update_of_ne hxa] at hx; exact Or.inr ⟨hxa, hx⟩
      constructor
      · intro x ox hx
        rcases hobj x ox hx with ⟨rfl, rfl⟩ | ⟨hxa, hx'⟩
        · exact ⟨k1, k2, Nat.lt_succ_self _⟩
        · obtain ⟨j1, j2, j3⟩ := hi.key x ox hx'
          exact ⟨j1, j2, by show _ < h.nextView + 1; omega⟩
      · intro s hs x hx
        obtain ⟨oz, e1, e2⟩ := hi.alive s hs x hx
        by_cases hxa : x = a
        · subst hxa
          rw [ha] at e1; cases e1
          exact ⟨⟨r, h.nextView, oa.share⟩, by simp, e2⟩
        · exact ⟨oz, by simp only; rw [update_of_ne hxa, e1], e2⟩
      · exact hi.nodup
      · intro x ox hx
        simp only
        rcases hobj x ox hx with ⟨rfl, rfl⟩ | ⟨hxa, hx'⟩
        · simp [unsized]
        · rw [update_of_ne (by have := (hi.key x ox hx').2.2; omega)]
          simpa [unsized, hxa] using hi.ext x ox hx'
      · intro x y ox oy hx hy
        have other : ∀ z oz, z ≠ a → h.objs z = some oz → oz.share ≠ oa.share := by
          intro z oz hza hz hc
          exact hza (hok oa ha z oz hz ((hi.same z a oz oa hz ha).mp hc))
        rcases hobj x ox hx with ⟨rfl, rfl⟩ | ⟨hxa, hx'⟩
        · rcases hobj y oy hy with ⟨rfl, rfl⟩ | ⟨hya, hy'⟩
          · simp
          · have h1 := other y oy hya hy'
            have h2 := (hi.key y oy hy').2.2
            simp only
            exact ⟨fun hc => absurd hc.symm h1, fun hc => by omega⟩
        · rcases hobj y oy hy with ⟨rfl, rfl⟩ | ⟨hya, hy'⟩
          · have h1 := other x ox hxa hx'
            have h2 := (hi.key x ox hx').2.2
            simp only
            exact ⟨fun hc => absurd hc h1, fun hc => by omega⟩
          · exact hi.same x y ox oy hx' hy'
  | destroy a =>
    cases ha : h.objs a with
    | none => simp [step, ha] at hs
    | some oa =>
      simp only [step, ha] at hs
      cases hs
      have hobj : ∀ x ox, update h.objs a none x = some ox → x ≠ a ∧ h.objs x = some ox := by
        intro x ox hx
        by_cases hxa : x = a
        · subst hxa; simp at hx
        · rw [update_of_ne hxa] at hx; exact ⟨hxa, hx⟩
      constructor
      · intro x ox hx
        obtain ⟨hxa, hx'⟩ := hobj x ox hx
        obtain ⟨j1, j2, j3⟩ := hi.key x ox hx'
        refine ⟨?_, j2, j3⟩
        simp only
        by_cases hss : ox.share = oa.share
        · rw [hss, update_self, ← hss]; exact (List.mem_erase_of_ne hxa).mpr j1
        · rw [update_of_ne hss]; exact j1
      · intro s hs x hx
        simp only at hs hx ⊢
        by_cases hss : s = oa.share
        · subst hss
          rw [update_self] at hx
          have hx' := (List.Nodup.mem_erase_iff (hi.nodup _)).mp hx
          obtain ⟨oz, e1, e2⟩ := hi.alive _ hs x hx'.2
          exact ⟨oz, by rw [update_of_ne hx'.1, e1], e2⟩
        · rw [update_of_ne hss] at hx
          obtain ⟨oz, e1, e2⟩ := hi.alive _ hs x hx
          have : x ≠ a := by
            rintro rfl
            rw [ha] at e1; cases e1; exact hss e2.symm
          exact ⟨oz, by rw [update_of_ne this, e1], e2⟩
      · intro s
        simp only
        by_cases hss : s = oa.share
        · subst hss; rw [update_self]; exact (hi.nodup _).erase a
        · rw [update_of_ne hss]; exact hi.nodup s
      · intro x ox hx
        simpa [unsized, (hobj x ox hx).1] using hi.ext x ox (hobj x ox hx).2
      · intro x y ox oy hx hy
        exact hi.same x y ox oy (hobj x ox hx).2 (hobj y oy hy).2

private theorem inv_reach {h : Heap n} {D : ℕ → Prop} (hr : Reach h D) : Inv h D := by
  induction hr with
  | empty => constructor <;> simp [Heap.empty]
  | step _ hok hs ih => exact inv_step ih hok hs

/-- **C12** (partial: no assignments, and only unshared grids are resized). In every reachable state the range of every
grid that has been given a size matches the memory it addresses: accesses are defined exactly for the indices in the range.
The full statement fails, see below. -/
theorem C12_consistent_without_shared_resize_partial (h : Heap n) (D : ℕ → Prop) (hr : Reach h D) (x : ℕ) (hx : ¬ D x) :
    Consistent h x := by
  intro ob hob p
  have he := ((inv_reach hr).ext x ob hob).1 hx
  simp only [access, hob, he, Storage.dims]
  split_ifs with hc
  · simp only [Option.isSome_some, iff_true]
    intro i; have := hc i; omega
  · simp only [Option.isSome_none, Bool.false_eq_true, iff_false]
    intro hin
    exact hc (fun i => by have := hin i; omega)

/-- **C12** Without a size a grid has no memory at all. -/
theorem C12_unsized_no_access (h : Heap n) (D : ℕ → Prop) (hr : Reach h D) (x : ℕ) (hx : D x) (hn : 0 < n) (p : Idx n) :
    access h x p = none := by
  cases hob : h.objs x with
  | none => simp [access, hob]
  | some ob =>
    have he := ((inv_reach hr).ext x ob hob).2 hx
    simp only [access, hob, he]
    rw [if_neg]
    intro hc
    have := hc ⟨0, hn⟩
    omega

/-- **C12** FINDING: a grid constructed without arguments reports the range from 0 to 0 in every dimension, which has one cell, but
has no memory for it. -/
theorem C12_violated_default (hn : 0 < n) :
    ∃ h : Heap n, [Op.constructDefault 1].foldlM step Heap.empty = .ok h ∧
      ∃ ob, h.objs 1 = some ob ∧ InBox ob.range.lo ob.range.hi (fun _ => 0) ∧ access h 1 (fun _ => 0) = none := by
  refine ⟨_, rfl, ⟨⟨fun _ => 0, fun _ => 0⟩, 0, 0⟩, rfl, fun _ => ⟨le_rfl, le_rfl⟩, ?_⟩
  exact C12_unsized_no_access _ _ (.step (op := .constructDefault 1) .empty trivial rfl) 1 (Or.inr rfl) hn _

/-- non-vacuity: a reachable state with a copy, after a resize of an unshared grid that was constructed without a size -/
example : ∃ (h : Heap 1) (D : ℕ → Prop), Reach h D ∧ ¬ D 1 ∧ ¬ D 2 ∧ (h.objs 1).isSome ∧ (h.objs 2).isSome ∧ access h 2 ![7] = some (1, ![7]) := by
  refine ⟨_, _, .step (op := .copy 2 1) (.step (op := .resize 1 ⟨![0], ![9]⟩) (.step (op := .constructDefault 1)
    .empty ?_ rfl) ?_ rfl) ?_ rfl, by simp [unsized], by simp [unsized], ?_, ?_, ?_⟩
  · trivial
  · intro oa ha x ox hx _
    by_contra hc
    have : (none : Option (Obj 1)) = some ox := by rw [← hx]; simp only; rw [update_of_ne hc]; rfl
    cases this
  · trivial
  · rfl
  · rfl
  · simp [access, Storage.dims, Heap.empty]
    decide

/-- **C12** FINDING: for all ranges `r1` and `r2`, if one of two copies of a grid over `r1` is resized to `r2`, the
other copy reports range `r2` too but still addresses the array with the extents of `r1`: whenever `r2`
has an index that is out of reach of those extents, an in-range access is undefined. -/
theorem C12_violated_copy_keeps_old_view (r1 r2 : Range n) :
    ∃ h : Heap n, [Op.construct 1 r1, Op.copy 2 1, Op.resize 1 r2].foldlM step Heap.empty = .ok h ∧
      ∃ ob, h.objs 2 = some ob ∧ ob.range = r2 ∧ h.extents ob.view = Storage.dims r1 ∧
      (∀ p, InBox r2.lo r2.hi p → (∃ i, r1.hi i - r1.lo i < p i - r2.lo i) →
        access h 2 p = none ∧ (access h 1 p).isSome) := by
  have hrun : [Op.construct 1 r1, Op.copy 2 1, Op.resize 1 r2].foldlM step (Heap.empty : Heap n) =
      .ok ⟨update (update (update (update (update (fun _ => none) 1 (some ⟨r1, 0, 0⟩)) 2 (some ⟨r1, 0, 0⟩))
        1 (some ⟨r1, 1, 0⟩)) 2 (some ⟨r2, 0, 0⟩)) 1 (some ⟨r2, 1, 0⟩),
        update (update (fun _ => []) 0 [1]) 0 [2, 1], update (update (fun _ _ => 0) 0 (Storage.dims r1)) 1 (Storage.dims r2),
        1, 2⟩ := rfl
  refine ⟨_, hrun, ⟨r2, 0, 0⟩, rfl, rfl, rfl, ?_⟩
  rintro p hp ⟨i, hi⟩
  constructor
  · simp only [access]
    have h2 : update (update (update (update (update (fun _ => none) 1 (some (⟨r1, 0, 0⟩ : Obj n))) 2 (some ⟨r1, 0, 0⟩))
        1 (some ⟨r1, 1, 0⟩)) 2 (some ⟨r2, 0, 0⟩)) 1 (some ⟨r2, 1, 0⟩) 2 = some ⟨r2, 0, 0⟩ := rfl
    rw [h2]
    simp only
    rw [if_neg]
    intro hall
    have := (hall i).2
    have he : update (update (fun (_ : ℕ) (_ : Fin n) => (0 : ℤ)) 0 (Storage.dims r1)) 1 (Storage.dims r2) 0 i = Storage.dims r1 i := rfl
    rw [he] at this
    simp only [Storage.dims] at this
    omega
  · simp only [access]
    have h2 : update (update (update (update (update (fun _ => none) 1 (some (⟨r1, 0, 0⟩ : Obj n))) 2 (some ⟨r1, 0, 0⟩))
        1 (some ⟨r1, 1, 0⟩)) 2 (some ⟨r2, 0, 0⟩)) 1 (some ⟨r2, 1, 0⟩) 1 = some ⟨r2, 1, 0⟩ := rfl
    rw [h2]
    simp only
    rw [if_pos]
    · rfl
    · intro j
      have he : update (update (fun (_ : ℕ) (_ : Fin n) => (0 : ℤ)) 0 (Storage.dims r1)) 1 (Storage.dims r2) 1 j = Storage.dims r2 j := rfl
      rw [he]
      simp only [Storage.dims]
      have := hp j
      omega

/-- **C12** FINDING: assignment copies the pointer to the callback map without registering the assigned grid. After
`a = b` a resize of `a` replaces its memory but not its range (even when `b` is gone, as for a
temporary). -/
theorem C12_violated_assigned_grid_keeps_range (r0 r1 r2 : Range n) :
    ∃ h : Heap n, [Op.construct 1 r0, Op.construct 2 r1, Op.assign 1 2, Op.destroy 2, Op.resize 1 r2].foldlM step
        Heap.empty = .ok h ∧
      ∃ ob, h.objs 1 = some ob ∧ ob.range = r1 ∧ h.extents ob.view = Storage.dims r2 :=
  ⟨_, rfl, ⟨r1, 2, 1⟩, rfl, rfl, rfl⟩

/-- **C12** FINDING: a grid that was re-assigned stays registered in its old map; after its destruction a resize of the
grid it used to share with calls into the destroyed object. -/
theorem C12_violated_dead_callback (r0 r1 r2 : Range n) :
    [Op.construct 3 r0, Op.copy 1 3, Op.construct 2 r1, Op.assign 1 2, Op.destroy 1, Op.resize 3 r2].foldlM step
        Heap.empty = .error .deadCallback := rfl

end Schnek.Props.Kokkos
