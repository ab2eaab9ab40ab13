import Verif.Model.SubGridHistory
import Verif.Lemma.SubGrid
import Verif.Props.Allocation
import Verif.Props.Check
import Mathlib.Data.Fin.VecNotation
import Mathlib.Tactic.FinCases

/-!
# C152: sub-grids follow their base grid
-/

namespace Schnek.Props

open Schnek Schnek.Spec Schnek.Lemma Schnek.Alloc Schnek.Lemma.Alloc Schnek.Lemma.SubGrid Schnek.SubHist Function

variable {n : ℕ}

/-- A part of the run of a program: the operations `ops` lead from `w` to `w'`. Assignments of grids are restricted as in C09. -/
inductive SubSteps (o : Order) (lazy : Bool) (P : Policy) : World n → List (SubHist.Op n) → World n → Prop
  | nil (w : World n) : SubSteps o lazy P w [] w
  | cons {w w' w'' : World n} {op : SubHist.Op n} {ops : List (SubHist.Op n)} :
      (∀ gop, op = .grid gop → AssignOk lazy w.grids gop) → SubHist.step o lazy P w op = .ok w' →
      SubSteps o lazy P w' ops w'' → SubSteps o lazy P w (op :: ops) w''

/-- the operation changes what sub-grid `x` is -/
def redefines (x : ℕ) : SubHist.Op n → Prop
  | .assign y _ => y = x
  | .resize y _ _ => y = x
  | .destroy y => y = x
  | _ => False

private theorem grids_step {o : Order} {lazy : Bool} {P : Policy} {w w' : World n} {op : SubHist.Op n}
    (hok : ∀ gop, op = .grid gop → AssignOk lazy w.grids gop) (hs : SubHist.step o lazy P w op = .ok w') :
    w'.grids = w.grids ∨ ∃ gop, op = .grid gop ∧ AssignOk lazy w.grids gop ∧ Alloc.step o lazy w.grids gop = .ok w'.grids := by
  cases op with
  | grid gop =>
    right
    refine ⟨gop, rfl, hok _ rfl, ?_⟩
    simp only [SubHist.step] at hs
    cases h : Alloc.step o lazy w.grids gop with
    | error e => rw [h] at hs; cases hs
    | ok g => rw [h] at hs; cases hs; rfl
  | default x => left; simp only [SubHist.step] at hs; split at hs <;> cases hs; rfl
  | create x lo hi a =>
    left; simp only [SubHist.step] at hs
    split at hs
    · split at hs <;> cases hs; rfl
    · cases hs
  | copy x y => left; simp only [SubHist.step] at hs; split at hs <;> cases hs; rfl
  | assign x y => left; simp only [SubHist.step] at hs; split at hs <;> cases hs; rfl
  | resize x lo hi => left; simp only [SubHist.step] at hs; split at hs <;> cases hs; rfl
  | destroy x => left; simp only [SubHist.step] at hs; split at hs <;> cases hs; rfl

private theorem reach_steps {o : Order} {lazy : Bool} {P : Policy} {w w' : World n} {ops : List (SubHist.Op n)}
    (h : SubSteps o lazy P w ops w') : Reach o lazy w.grids → Reach o lazy w'.grids := by
  induction h with
  | nil => exact id
  | cons hok hs _ ih =>
    intro hr
    apply ih
    rcases grids_step hok hs with e | ⟨gop, _, e2, e3⟩
    · rw [e]; exact hr
    · exact .step hr e2 e3

private theorem subs_step {o : Order} {lazy : Bool} {P : Policy} {w w' : World n} {op : SubHist.Op n} {x : ℕ} {s : Sub n}
    (hx : w.subs x = some s) (hn : ¬ redefines x op) (hs : SubHist.step o lazy P w op = .ok w') : w'.subs x = some s := by
  have key : ∀ y v, y ≠ x → (w.setSub y v).subs x = some s := by
    intro y v hy
    simp only [World.setSub, update_of_ne (Ne.symm hy)]
    exact hx
  cases op with
  | grid gop =>
    simp only [SubHist.step] at hs
    split at hs <;> cases hs; exact hx
  | default y =>
    simp only [SubHist.step] at hs
    split at hs
    · cases hs
    · rename_i h; cases hs; refine key _ _ ?_; rintro rfl; rw [hx] at h; cases h
  | create y lo hi a =>
    simp only [SubHist.step] at hs
    split at hs
    · rename_i h _
      split at hs <;> cases hs
      refine key _ _ ?_; rintro rfl; rw [hx] at h; cases h
    · cases hs
  | copy y z =>
    simp only [SubHist.step] at hs
    split at hs
    · rename_i h _
      cases hs
      refine key _ _ ?_; rintro rfl; rw [hx] at h; cases h
    · cases hs
  | assign y z =>
    simp only [SubHist.step] at hs
    split at hs <;> cases hs
    exact key _ _ hn
  | resize y lo hi =>
    simp only [SubHist.step] at hs
    split at hs <;> cases hs
    exact key _ _ hn
  | destroy y =>
    simp only [SubHist.step] at hs
    split at hs <;> cases hs
    exact key _ _ hn

private theorem subs_steps {o : Order} {lazy : Bool} {P : Policy} {w w' : World n} {ops : List (SubHist.Op n)} {x : ℕ} {s : Sub n}
    (h : SubSteps o lazy P w ops w') : w.subs x = some s → (∀ op ∈ ops, ¬ redefines x op) → w'.subs x = some s := by
  induction h with
  | nil => exact fun h _ => h
  | cons hok hs _ ih =>
    intro hx hn
    exact ih (subs_step hx (hn _ (by simp)) hs) fun op hop => hn op (by simp [hop])

private theorem alive_step {o : Order} {lazy : Bool} {h h' : Heap n} {op : Alloc.Op n} (hr : Reach o lazy h)
    (hs : Alloc.step o lazy h op = .ok h') {a : ℕ} (ha : (h.objs a).isSome) (hd : op ≠ .destroy a) : (h'.objs a).isSome := by
  have hinv := reach_inv hr
  by_cases hre : rebinds op a
  · cases op with
    | construct b =>
      cases hre
      obtain ⟨oa, ha⟩ := Option.isSome_iff_exists.mp ha
      simp [Alloc.step, ha] at hs
    | copy b c =>
      cases hre
      obtain ⟨oa, ha⟩ := Option.isSome_iff_exists.mp ha
      simp [Alloc.step, ha] at hs
    | assign b c =>
      cases hre
      obtain ⟨oa, ha⟩ := Option.isSome_iff_exists.mp ha
      cases hc : h.objs c with
      | none => simp [Alloc.step, ha, hc] at hs
      | some oc =>
        obtain ⟨rec, hrec, _⟩ := hinv.obj_rec c oc hc
        simp only [Alloc.step, ha, hc, hrec] at hs
        by_cases hdd : oa.data = oc.data
        · rw [if_pos hdd] at hs; cases hs
          simp [Heap.setObj, Heap.setRec]
        · rw [if_neg hdd] at hs
          rw [release_objs hs]
          simp [Heap.setObj, Heap.setRec]
    | resize => exact hre.elim
    | destroy b => cases hre; exact absurd rfl hd
  · have := step_data hinv hs (z := a) (by
      cases op with
      | construct => exact hre
      | copy => exact hre
      | assign => exact hre
      | resize => trivial
      | destroy => exact hre)
    obtain ⟨oa, ha⟩ := Option.isSome_iff_exists.mp ha
    rw [ha] at this
    cases hh : h'.objs a with
    | none => rw [hh] at this; cases this
    | some _ => rfl

private theorem alive_steps {o : Order} {lazy : Bool} {P : Policy} {w w' : World n} {ops : List (SubHist.Op n)} {a : ℕ}
    (h : SubSteps o lazy P w ops w') : Reach o lazy w.grids → (w.grids.objs a).isSome →
    (∀ op ∈ ops, op ≠ .grid (.destroy a)) → (w'.grids.objs a).isSome := by
  induction h with
  | nil => exact fun _ h _ => h
  | @cons w w' w'' op ops hok hs _ ih =>
    intro hr ha hd
    have hd' := fun op' (hop : op' ∈ ops) => hd op' (by simp [hop])
    rcases grids_step hok hs with e | ⟨gop, e1, e2, e3⟩
    · exact ih (by rw [e]; exact hr) (by rw [e]; exact ha) hd'
    · refine ih (.step hr e2 e3) (alive_step hr e3 ha ?_) hd'
      rintro rfl
      exact hd op (by simp) e1

/-- **C152** Creating a sub-grid on a live grid whose range contains its corners succeeds for every checking policy; the new sub-grid
has the limits given and refers to that grid; all other objects stay as they are. -/
theorem C152_create (o : Order) (lazy : Bool) (P : Policy) (w : World n) (x a : ℕ) (lo hi : Idx (n + 1)) (oa : Obj n)
    (hx : w.subs x = none) (ha : w.grids.objs a = some oa) (h1 : InBox oa.range.lo oa.range.hi lo)
    (h2 : InBox oa.range.lo oa.range.hi hi) :
    ∃ w', SubHist.step o lazy P w (.create x lo hi a) = .ok w' ∧ w'.subs x = some ⟨some a, lo, hi⟩ ∧ w'.grids = w.grids ∧
      ∀ y, y ≠ x → w'.subs y = w.subs y := by
  refine ⟨w.setSub x (some ⟨some a, lo, hi⟩), ?_, ?_, rfl, ?_⟩
  · simp only [SubHist.step, hx, ha, check_inside P _ _ _ h1, check_inside P _ _ _ h2]
  · simp [World.setSub]
  · intro y hy; simp [World.setSub, update_of_ne hy]

/-- **C152** With `GridAssertCheck` a sub-grid cannot be created if one of its corners is outside of the range of the grid. The other
policies let it pass, and keep the limits given. -/
theorem C152_create_outside (o : Order) (lazy : Bool) (P : Policy) (w : World n) (x a : ℕ) (lo hi : Idx (n + 1)) (oa : Obj n)
    (hx : w.subs x = none) (ha : w.grids.objs a = some oa)
    (h : ¬ InBox oa.range.lo oa.range.hi lo ∨ ¬ InBox oa.range.lo oa.range.hi hi) :
    (P = .asserting → SubHist.step o lazy P w (.create x lo hi a) = .error .assertion) ∧
    (P ≠ .asserting → SubHist.step o lazy P w (.create x lo hi a) = .ok (w.setSub x (some ⟨some a, lo, hi⟩))) := by
  constructor
  · rintro rfl
    rcases h with h | h
    · simp only [SubHist.step, hx, ha, Policy.check, (C08_assert _ _ _).2 h]
    · simp only [SubHist.step, hx, ha, Policy.check, (C08_assert _ _ _).2 h]
      split
      · rename_i hh; cases hh
      · rfl
  · intro hP
    cases P with
    | asserting => exact absurd rfl hP
    | noArg => simp only [SubHist.step, hx, ha, Policy.check]
    | debug => simp only [SubHist.step, hx, ha, Policy.check]

/-- **C152** `resize` of a sub-grid gives it new limits; it stays on its grid, and nothing else changes. -/
theorem C152_resize (o : Order) (lazy : Bool) (P : Policy) (w : World n) (x : ℕ) (lo hi : Idx (n + 1)) (s : Sub n)
    (hx : w.subs x = some s) :
    ∃ w', SubHist.step o lazy P w (.resize x lo hi) = .ok w' ∧ w'.subs x = some ⟨s.base, lo, hi⟩ ∧ w'.grids = w.grids ∧
      ∀ y, y ≠ x → w'.subs y = w.subs y := by
  refine ⟨w.setSub x (some ⟨s.base, lo, hi⟩), ?_, ?_, rfl, ?_⟩
  · simp only [SubHist.step, hx]
  · simp [World.setSub]
  · intro y hy; simp [World.setSub, update_of_ne hy]

/-- **C152** Destroying a sub-grid leaves the grids and all other sub-grids as they are. -/
theorem C152_destroy (o : Order) (lazy : Bool) (P : Policy) (w : World n) (x : ℕ) (s : Sub n) (hx : w.subs x = some s) :
    ∃ w', SubHist.step o lazy P w (.destroy x) = .ok w' ∧ w'.subs x = none ∧ w'.grids = w.grids ∧
      ∀ y, y ≠ x → w'.subs y = w.subs y := by
  refine ⟨w.setSub x none, ?_, ?_, rfl, ?_⟩
  · simp only [SubHist.step, hx]
  · simp [World.setSub]
  · intro y hy; simp [World.setSub, update_of_ne hy]

/-- **C152** Positions outside of the limits of a sub-grid: if the sub-grid or its base grid is checked by `GridAssertCheck` and the other
does not change the position, nothing is accessed; `GridDebugCheck` of the sub-grid, or of the base grid if the sub-grid is not checked,
leads to the element at the position inside of the limits that is nearest in every direction. -/
theorem C152_outside (o : Order) (P Q : Policy) (w : World n) (x : ℕ) (s : Sub n) (hx : w.subs x = some s) (hne : ∀ i, s.lo i ≤ s.hi i)
    (p : Idx (n + 1)) (hp : ¬ InBox s.lo s.hi p) :
    (P = .asserting ∨ (P = .noArg ∧ Q = .asserting) → cell o P Q w x p = none) ∧
    (P = .debug ∨ (P = .noArg ∧ Q = .debug) → ∃ q, InBox s.lo s.hi q ∧ (∀ q', InBox s.lo s.hi q' → ∀ i, |p i - q i| ≤ |p i - q' i|) ∧
      cell o P Q w x p = cell o P Q w x q) := by
  constructor
  · rintro (rfl | ⟨rfl, rfl⟩)
    · simp only [cell, hx, Policy.check, (C08_assert _ _ _).2 hp, Option.bind_none]
    · simp only [cell, hx, Policy.check, Check.noArg, (C08_assert _ _ _).2 hp, Option.bind_none, Option.bind_some]
      cases s.base <;> rfl
  · obtain ⟨h1, h2, -⟩ := C08_debug_outside p s.lo s.hi ⟨false, 0, p⟩ hne hp
    rintro (rfl | ⟨rfl, rfl⟩)
    · refine ⟨_, h1, h2, ?_⟩
      simp only [cell, hx]
      rw [check_inside .debug _ _ _ h1]
      rfl
    · refine ⟨_, h1, h2, ?_⟩
      simp only [cell, hx, Policy.check, Check.noArg, Option.bind_some]
      rw [C08_debug_inside _ _ _ _ h1]

/-- **C152** Copies of a sub-grid, made by the constructor or by assignment, are the same window onto the same grid: they access the
same elements. -/
theorem C152_copy (o : Order) (lazy : Bool) (P Q : Policy) (w w' : World n) (x y : ℕ)
    (hs : SubHist.step o lazy P w (.copy x y) = .ok w' ∨ SubHist.step o lazy P w (.assign x y) = .ok w') (p : Idx (n + 1)) :
    w'.subs x = w.subs y ∧ w'.subs y = w.subs y ∧ cell o P Q w' x p = cell o P Q w y p ∧ cell o P Q w' y p = cell o P Q w y p := by
  have : ∃ s, w.subs y = some s ∧ w' = w.setSub x (some s) := by
    rcases hs with hs | hs <;> simp only [SubHist.step] at hs <;> split at hs <;> cases hs <;> exact ⟨_, by assumption, rfl⟩
  obtain ⟨s, hy, rfl⟩ := this
  have e1 : (w.setSub x (some s)).subs x = some s := by simp [World.setSub]
  have e2 : (w.setSub x (some s)).subs y = some s := by
    by_cases hxy : y = x
    · rw [hxy]; exact e1
    · simp [World.setSub, update_of_ne hxy, hy]
  refine ⟨by rw [e1, hy], by rw [e2, hy], ?_, ?_⟩
  · simp only [cell, e1, hy]; rfl
  · simp only [cell, e2, hy]; rfl

/-- **C152** (partial: the base grid is not destroyed, and the position is within the current range of the base grid.) Let a program
have sub-grid `x` with limits `lo`, `hi` on the live grid `a`, and go on with any operations on any grids and sub-grids, except
destroying `a` and assigning to, resizing or destroying `x`. Then the limits of `x` are what they were, and the element that `x` shows
at a position inside of its limits is the element at the same position of the grid `a` as it is now, and the one of every grid that
shares data with `a`. Different positions show different elements. -/
theorem C152_follows_partial (o : Order) (lazy : Bool) (P Q : Policy) (ops₁ ops₂ : List (SubHist.Op n)) (w₁ w₂ : World n)
    (h₁ : SubSteps o lazy P World.empty ops₁ w₁) (x a : ℕ) (lo hi : Idx (n + 1)) (hx : w₁.subs x = some ⟨some a, lo, hi⟩)
    (ha : (w₁.grids.objs a).isSome) (h₂ : SubSteps o lazy P w₁ ops₂ w₂) (hx₂ : ∀ op ∈ ops₂, ¬ redefines x op)
    (ha₂ : ∀ op ∈ ops₂, op ≠ .grid (.destroy a)) :
    w₂.subs x = some ⟨some a, lo, hi⟩ ∧
    ∃ oa, w₂.grids.objs a = some oa ∧
      (oa.size ≠ 0 → ∏ i, extent oa.range.lo oa.range.hi i < 2 ^ 64 →
        ∀ p, InBox lo hi p → InBox oa.range.lo oa.range.hi p →
          ∃ e, cell o P Q w₂ x p = some e ∧ (∀ y, Shares w₂.grids y a → access o w₂.grids y p = some e) ∧
            ∀ q, InBox lo hi q → InBox oa.range.lo oa.range.hi q → cell o P Q w₂ x q = some e → q = p) := by
  have hr₁ := reach_steps h₁ .empty
  have hr₂ := reach_steps h₂ hr₁
  have hs := subs_steps h₂ hx hx₂
  obtain ⟨oa, hoa⟩ := Option.isSome_iff_exists.mp (alive_steps h₂ hr₁ ha ha₂)
  refine ⟨hs, oa, hoa, fun hsz hfit p hp hpa => ?_⟩
  have hcell : ∀ q, InBox lo hi q → cell o P Q w₂ x q = access o w₂.grids a q := by
    intro q hq
    simp only [cell, hs, check_inside P _ _ _ hq, Option.bind_some, check_inside Q _ _ _ hq]
  obtain ⟨c1, _, _, c4⟩ := (C09_shape_matches_buffer_partial o lazy w₂.grids hr₂ hoa hoa).2 hsz hfit p hpa
  obtain ⟨e, he⟩ := Option.isSome_iff_exists.mp c1
  refine ⟨e, by rw [hcell p hp, he], ?_, ?_⟩
  · intro y hy
    obtain ⟨oy, oa', f1, f2, f3⟩ := hy
    rw [hoa] at f2; cases f2
    have := ((C09_shape_matches_buffer_partial o lazy w₂.grids hr₂ hoa f1).2 hsz hfit p hpa).2.1 ⟨oa, oy, hoa, f1, f3.symm⟩
    rw [this, he]
  · intro q hq hqa hce
    rw [hcell q hq] at hce
    exact c4 q hqa (by rw [hce, he])

/-- evaluate a history and test the final state -/
def subTest (o : Order) (lazy : Bool) (P : Policy) (w : World n) (ops : List (SubHist.Op n)) (t : World n → Bool) : Bool :=
  match ops.foldlM (SubHist.step o lazy P) w with
  | .ok w => t w
  | .error _ => false

private theorem subTest_steps {o : Order} {lazy : Bool} {P : Policy} (t : World n → Bool) : ∀ (ops : List (SubHist.Op n)) (w : World n),
    (∀ op ∈ ops, ∀ c d, op ≠ .grid (.assign c d)) → subTest o lazy P w ops t = true → ∃ w', SubSteps o lazy P w ops w' ∧ t w' = true
  | [], w, _, h => ⟨w, .nil w, h⟩
  | op :: ops, w, hn, h => by
    unfold subTest at h
    rw [List.foldlM_cons] at h
    cases hs : SubHist.step o lazy P w op with
    | error e => rw [hs] at h; cases h
    | ok w1 =>
      rw [hs] at h
      obtain ⟨w', h1, h2⟩ := subTest_steps t ops w1 (fun op' h' => hn op' (by simp [h'])) h
      refine ⟨w', .cons ?_ hs h1, h2⟩
      intro gop e
      cases gop with
      | assign c d => exact absurd e (hn op (by simp) c d)
      | construct => trivial
      | copy => trivial
      | resize => trivial
      | destroy => trivial

/-- grid 1 with the elements 0 to 9, its copy 2, and sub-grid 5, a window onto the elements 6 to 8 of grid 1 -/
def demoStart : List (SubHist.Op 0) :=
  [.grid (.construct 1), .grid (.resize 1 ⟨![0], ![9]⟩ false 0), .grid (.copy 2 1), .create 5 ![6] ![8] 1]

/-- sub-grid 5 is the window described -/
private def demoWindow (w : World 0) : Bool :=
  match w.subs 5 with
  | some s => s.base == some 1 && s.lo == ![6] && s.hi == ![8]
  | none => false

private theorem demoWindow_iff {w : World 0} (h : demoWindow w = true) : w.subs 5 = some ⟨some 1, ![6], ![8]⟩ := by
  unfold demoWindow at h
  split at h
  · rename_i s hs
    simp only [Bool.and_eq_true, beq_iff_eq] at h
    obtain ⟨⟨h1, h2⟩, h3⟩ := h
    rw [hs]
    cases s
    simp only at h1 h2 h3
    rw [h1, h2, h3]
  · cases h

private theorem demo {P : Policy} (ops : List (SubHist.Op 0)) (hn : ∀ op ∈ ops, ∀ c d, op ≠ .grid (.assign c d)) (t : World 0 → Bool)
    (h : subTest .c false P World.empty demoStart (fun w => demoWindow w && (w.grids.objs 1).isSome && subTest .c false P w ops t) = true) :
    ∃ w₁ w₂ : World 0, SubSteps .c false P World.empty demoStart w₁ ∧ w₁.subs 5 = some ⟨some 1, ![6], ![8]⟩ ∧
      (w₁.grids.objs 1).isSome ∧ SubSteps .c false P w₁ ops w₂ ∧ t w₂ = true := by
  obtain ⟨w₁, h1, h2⟩ := subTest_steps _ demoStart World.empty (by simp [demoStart]) h
  simp only [Bool.and_eq_true] at h2
  obtain ⟨⟨h3, h4⟩, h5⟩ := h2
  obtain ⟨w₂, h6, h7⟩ := subTest_steps _ ops w₁ hn h5
  exact ⟨w₁, w₂, h1, demoWindow_iff h3, h4, h6, h7⟩

/-- The hypotheses of `C152_follows_partial` are met: the base grid is made smaller and larger again through its copy, another
sub-grid comes and goes. The window shows the new element at position 7, and the copy shows it as well. -/
example (P Q : Policy) : ∃ w₁ w₂ : World 0, SubSteps .c false P World.empty demoStart w₁ ∧ w₁.subs 5 = some ⟨some 1, ![6], ![8]⟩ ∧
    (w₁.grids.objs 1).isSome ∧
    SubSteps .c false P w₁ [.grid (.resize 2 ⟨![0], ![3]⟩ false 0), .copy 6 5, .destroy 6,
      .grid (.resize 2 ⟨![-2], ![8]⟩ false 0)] w₂ ∧
    cell .c P Q w₂ 5 ![7] = some (2, 9) ∧ access .c w₂.grids 2 ![7] = some (2, 9) := by
  obtain ⟨w₁, w₂, h1, h2, h3, h4, h5⟩ := demo (P := P) [.grid (.resize 2 ⟨![0], ![3]⟩ false 0), .copy 6 5, .destroy 6,
      .grid (.resize 2 ⟨![-2], ![8]⟩ false 0)] (by simp)
    (fun w => cell .c P Q w 5 ![7] == some (2, 9) && access .c w.grids 2 ![7] == some (2, 9))
    (by cases P <;> cases Q <;> decide +kernel)
  simp only [Bool.and_eq_true, beq_iff_eq] at h5
  exact ⟨w₁, w₂, h1, h2, h3, h4, h5⟩

/-- the hypotheses of `C152_create` and `C152_copy` are met -/
example (P : Policy) : ∃ w₁ w₂ : World 0, SubSteps .c false P World.empty demoStart w₁ ∧ SubSteps .c false P w₁ [.copy 6 5] w₂ ∧
    w₂.subs 6 = some ⟨some 1, ![6], ![8]⟩ := by
  obtain ⟨w₁, w₂, h1, h2, _, h4, _⟩ := demo (P := P) [.copy 6 5] (by simp) (fun _ => true) (by cases P <;> decide +kernel)
  refine ⟨w₁, w₂, h1, h4, ?_⟩
  cases h4 with
  | cons _ hs ht =>
    cases ht
    rw [(C152_copy .c false P P w₁ _ 6 5 (.inl hs) ![7]).1, h2]

/-- the hypotheses of `C152_resize`, `C152_destroy` and `C152_outside` are met -/
example (P : Policy) : ∃ (w₁ : World 0) (s : Sub 0), SubSteps .c false P World.empty demoStart w₁ ∧ w₁.subs 5 = some s ∧
    (∀ i, s.lo i ≤ s.hi i) ∧ ¬ InBox s.lo s.hi ![9] := by
  obtain ⟨w₁, _, h1, h2, -⟩ := demo (P := P) [] (by simp) (fun _ => true) (by cases P <;> decide +kernel)
  refine ⟨w₁, _, h1, h2, fun i => by fin_cases i; decide, fun h => ?_⟩
  have := (h 0).2
  simp at this

/-- the hypotheses of `C152_create_outside` are met: 100 is not in the range of the grid 1 -/
example (P : Policy) : ∃ (w₁ : World 0) (oa : Obj 0), SubSteps .c false P World.empty demoStart w₁ ∧ w₁.subs 6 = none ∧
    w₁.grids.objs 1 = some oa ∧ ¬ InBox oa.range.lo oa.range.hi ![100] := by
  obtain ⟨w₁, w₂, h1, _, _, h4, h5⟩ := demo (P := P) [] (by simp)
    (fun w => (w.subs 6).isNone && (w.grids.objs 1).any fun oa : Obj 0 => decide (oa.range.hi 0 < (100 : ℤ))) (by cases P <;> decide +kernel)
  cases h4
  simp only [Bool.and_eq_true, Option.isNone_iff_eq_none] at h5
  obtain ⟨h6, h7⟩ := h5
  rcases ho : w₁.grids.objs 1 with _ | oa
  · rw [ho] at h7; cases h7
  · rw [ho] at h7
    refine ⟨w₁, oa, h1, h6, ho, fun h => ?_⟩
    have := (h 0).2
    simp only [Option.any_some, decide_eq_true_eq, Matrix.cons_val_zero] at h7 this
    omega

/-- **C152 is false when the base grid gets smaller**: the limits of the sub-grid stay, no checking policy of sub-grid or grid notices,
and positions inside of the limits are outside of the memory of the grid. -/
theorem C152_violated_shrunk (P Q : Policy) : ∃ w₁ w₂ : World 0, SubSteps .c false P World.empty demoStart w₁ ∧
    SubSteps .c false P w₁ [.grid (.resize 1 ⟨![0], ![3]⟩ false 0)] w₂ ∧ w₂.subs 5 = some ⟨some 1, ![6], ![8]⟩ ∧
    InBox ![6] ![8] ![7] ∧ cell .c P Q w₂ 5 ![7] = none := by
  obtain ⟨w₁, w₂, h1, h2, _, h4, h5⟩ := demo (P := P) [.grid (.resize 1 ⟨![0], ![3]⟩ false 0)] (by simp)
    (fun w => cell .c P Q w 5 ![7] == none) (by cases P <;> cases Q <;> decide +kernel)
  simp only [beq_iff_eq] at h5
  exact ⟨w₁, w₂, h1, h4, subs_steps h4 h2 (by simp [redefines]), fun i => by fin_cases i; decide, h5⟩

/-- **C152 is false when the base grid is destroyed**: its copy keeps the data alive and shows them, but the sub-grid holds the address
of the grid object that is gone. -/
theorem C152_violated_destroyed (P Q : Policy) : ∃ w₁ w₂ : World 0, SubSteps .c false P World.empty demoStart w₁ ∧
    SubSteps .c false P w₁ [.grid (.destroy 1)] w₂ ∧ w₂.subs 5 = some ⟨some 1, ![6], ![8]⟩ ∧
    Shares w₁.grids 1 2 ∧ access .c w₂.grids 2 ![7] = some (0, 7) ∧ cell .c P Q w₁ 5 ![7] = some (0, 7) ∧
    cell .c P Q w₂ 5 ![7] = none := by
  obtain ⟨w₁, h1, h2⟩ := subTest_steps (o := .c) (lazy := false) (P := P)
    (fun w => demoWindow w && (match w.grids.objs 1, w.grids.objs 2 with | some a, some b => a.data == b.data | _, _ => false) &&
      cell .c P Q w 5 ![7] == some (0, 7) && subTest .c false P w [.grid (.destroy 1)]
        fun w => cell .c P Q w 5 ![7] == none && access .c w.grids 2 ![7] == some (0, 7)) demoStart World.empty (by simp [demoStart])
    (by cases P <;> cases Q <;> decide +kernel)
  simp only [Bool.and_eq_true, beq_iff_eq] at h2
  obtain ⟨⟨⟨h3, h4⟩, h5⟩, h6⟩ := h2
  obtain ⟨w₂, h7, h8⟩ := subTest_steps _ _ w₁ (by simp) h6
  simp only [Bool.and_eq_true, beq_iff_eq] at h8
  refine ⟨w₁, w₂, h1, h7, subs_steps h7 (demoWindow_iff h3) (by simp [redefines]), ?_, h8.2, h5, h8.1⟩
  split at h4
  · rename_i a b ha hb
    exact ⟨a, b, ha, hb, by simpa using h4⟩
  · cases h4

end Schnek.Props
