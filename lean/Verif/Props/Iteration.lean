import Verif.Lemma.Iteration
import Verif.Props.Range

/-!
# C108, C109: function objects in `forEach`, parallel iteration
-/

namespace Schnek.Props

open Schnek Schnek.Spec Schnek.Lemma Schnek.Lemma.Iteration Function

variable {n : ℕ}

/-- the function does not change the position it gets, as if its parameter were a value or a `const` reference -/
def KeepsPosition {σ W : Type} (f : FunctionObject n σ W) : Prop := ∀ s p w, (f s p w).2.1 = p

/-- what a loop over the indices does that uses one and the same function object for all calls -/
def oneObject {σ W : Type} (f : FunctionObject n σ W) (func : σ) (w : W) (l : List (Idx n)) : σ × W :=
  l.foldl (fun s p => ((f s.1 p s.2).1, (f s.1 p s.2).2.2)) (func, w)

/-- **C108** What `forEach` does in general: it ends, it calls the function once for every index in the order of the policy, and each call works on a fresh
copy of the function object that was passed to `forEach`. -/
theorem C108_copies (r : Range n) :
    (∃ l, Enumerates LexLt (InBox r.lo r.hi) l ∧ ∀ (σ W : Type) (f : FunctionObject n σ W) (_ : KeepsPosition f) (func : σ) (w w' : W),
      r.ForEachC f func w w' ↔ w' = l.foldl (fun w p => (f func p w).2.2) w) ∧
    ∃ l, Enumerates ColexLt (InBox r.lo r.hi) l ∧ ∀ (σ W : Type) (f : FunctionObject n σ W) (_ : KeepsPosition f) (func : σ) (w w' : W),
      r.ForEachF f func w w' ↔ w' = l.foldl (fun w p => (f func p w).2.2) w := by
  constructor
  · obtain ⟨l, h1, h2⟩ := C02_forEachC r
    refine ⟨l, h1, fun σ W f hf func w w' => ?_⟩
    obtain ⟨p', h, -⟩ := runC_spec r f hf func n le_rfl r.lo w
    have e : l.foldl (fun w p => (f func p w).2.2) w = (enumC r n le_rfl r.lo).foldl (fun w p => (f func p w).2.2) w := by
      rw [← h2 W (fun p w => (f func p w).2.2) w]
      exact (forEachCImpl_spec r _ n le_rfl r.lo w).1
    rw [e]
    constructor
    · rintro ⟨q, hq⟩
      exact congrArg Prod.snd (runC_unique r f func _ _ _ _ _ hq h)
    · rintro rfl
      exact ⟨p', h⟩
  · obtain ⟨l, h1, h2⟩ := C02_forEachF r
    refine ⟨l, h1, fun σ W f hf func w w' => ?_⟩
    obtain ⟨p', h, -⟩ := runF_spec r f hf func n le_rfl r.lo w
    have e : l.foldl (fun w p => (f func p w).2.2) w = (enumF r n le_rfl r.lo).foldl (fun w p => (f func p w).2.2) w := by
      rw [← h2 W (fun p w => (f func p w).2.2) w]
      exact (forEachFImpl_spec r _ n le_rfl r.lo w).1
    rw [e]
    constructor
    · rintro ⟨q, hq⟩
      exact congrArg Prod.snd (runF_unique r f func _ _ _ _ _ hq h)
    · rintro rfl
      exact ⟨p', h⟩

theorem oneObject_of_constant {σ W : Type} {f : FunctionObject n σ W} (hs : ∀ s p w, (f s p w).1 = s) (func : σ) :
    ∀ (l : List (Idx n)) (w : W), oneObject f func w l = (func, l.foldl (fun w p => (f func p w).2.2) w)
  | [], w => rfl
  | p :: l, w => by
    have := oneObject_of_constant hs func l (f func p w).2.2
    unfold oneObject at this ⊢
    rw [List.foldl_cons, hs, this]
    rfl

/-- **C108 (partial)** With a function object that does not change its own state (a lambda that is not `mutable`, a function) `forEach` does what a
loop with this one object does. Missing: objects that change their state, for which that is false. -/
theorem C108_constant_object_partial (r : Range n) :
    (∃ l, Enumerates LexLt (InBox r.lo r.hi) l ∧ ∀ (σ W : Type) (f : FunctionObject n σ W) (_ : KeepsPosition f)
      (_ : ∀ s p w, (f s p w).1 = s) (func : σ) (w w' : W), r.ForEachC f func w w' ↔ w' = (oneObject f func w l).2) ∧
    ∃ l, Enumerates ColexLt (InBox r.lo r.hi) l ∧ ∀ (σ W : Type) (f : FunctionObject n σ W) (_ : KeepsPosition f)
      (_ : ∀ s p w, (f s p w).1 = s) (func : σ) (w w' : W), r.ForEachF f func w w' ↔ w' = (oneObject f func w l).2 := by
  obtain ⟨⟨l, h1, h2⟩, l', h1', h2'⟩ := C108_copies r
  refine ⟨⟨l, h1, fun σ W f hf hs func w w' => ?_⟩, l', h1', fun σ W f hf hs func w w' => ?_⟩
  · rw [h2 σ W f hf func w w', oneObject_of_constant hs]
  · rw [h2' σ W f hf func w w', oneObject_of_constant hs]

/-- an object that numbers its calls: it has a counter, and writes its value to a list -/
def counter : FunctionObject n ℕ (List ℕ) := fun s p w => (s + 1, p, w ++ [s])

theorem counter_fold (l : List (Idx n)) (w : List ℕ) :
    l.foldl (fun w p => (counter 0 p w).2.2) w = w ++ List.replicate l.length 0 := by
  induction l generalizing w with
  | nil => simp
  | cons p l ih =>
    rw [List.foldl_cons, ih]
    simp [counter, List.replicate_succ]

theorem oneObject_counter (l : List (Idx n)) (k : ℕ) (w : List ℕ) :
    (oneObject counter k w l).2 = w ++ (List.range l.length).map (k + ·) := by
  induction l generalizing k w with
  | nil => simp [oneObject]
  | cons p l ih =>
    have := ih (k + 1) (w ++ [k])
    unfold oneObject at this ⊢
    rw [List.foldl_cons]
    refine this.trans ?_
    rw [List.length_cons, List.range_succ_eq_map]
    simp only [List.map_cons, List.map_map, List.append_assoc, List.cons_append, List.nil_append, add_zero]
    congr 2
    apply List.map_congr_left
    intro a _
    simp only [comp_apply]
    omega

/-- **C108 (finding: violated)** An object that numbers its calls starts from zero each time, for every range with at least two
indices, in both orders: what `forEach` leaves is a list of zeros, while a loop with one object gives 0, 1, 2 … -/
theorem C108_violated_state (r : Range n) (hne : ∀ i, r.lo i ≤ r.hi i) (h2 : ∃ i, r.lo i < r.hi i) :
    ∃ l, 2 ≤ l.length ∧ Enumerates LexLt (InBox r.lo r.hi) l ∧ (oneObject counter 0 [] l).2 = List.range l.length ∧
      (∀ w', r.ForEachC counter 0 [] w' ↔ w' = List.replicate l.length 0) ∧
      (∀ w', r.ForEachF counter 0 [] w' ↔ w' = List.replicate l.length 0) ∧
      List.replicate l.length 0 ≠ List.range l.length := by
  obtain ⟨⟨l, h1, hl⟩, l', h1', hl'⟩ := C108_copies r
  have hlen : l'.length = l.length :=
    List.Perm.length_eq ((List.perm_ext_iff_of_nodup h1'.nodup h1.nodup).mpr fun p => (h1'.mem_iff p).trans (h1.mem_iff p).symm)
  have h2' : 2 ≤ l.length := by
    obtain ⟨i, hi⟩ := h2
    have m1 : r.lo ∈ l := (h1.mem_iff _).mpr fun j => ⟨le_rfl, hne j⟩
    have m2 : r.hi ∈ l := (h1.mem_iff _).mpr fun j => ⟨hne j, le_rfl⟩
    have hd : r.lo ≠ r.hi := fun e => by rw [e] at hi; exact lt_irrefl _ hi
    match l, m1, m2 with
    | [a], m1, m2 => exact absurd ((List.mem_singleton.mp m1).trans (List.mem_singleton.mp m2).symm) hd
    | _ :: _ :: _, _, _ => simp
  have hk : KeepsPosition (counter (n := n)) := fun _ _ _ => rfl
  refine ⟨l, h2', h1, ?_, fun w' => ?_, fun w' => ?_, fun he => ?_⟩
  · rw [oneObject_counter]
    simp
  · rw [hl ℕ _ counter hk 0 [] w', counter_fold, List.nil_append]
  · rw [hl' ℕ _ counter hk 0 [] w', counter_fold, List.nil_append, hlen]
  · have := congrArg (fun m => m[1]?) he
    simp only [List.getElem?_replicate, List.getElem?_range (show 1 < l.length by omega)] at this
    rw [if_pos (by omega)] at this
    exact absurd this (by decide)

/-- **C108 (finding: violated)** The position is passed as a reference that is not `const`. A function that changes it changes the loop:
here it is called once, although the range has `N + 1` indices. -/
theorem C108_violated_position (N : ℕ) (w' : List ℤ) :
    (⟨![0], ![N]⟩ : Range 1).ForEachC (fun (_ : Unit) p w => ((), ![(N : ℤ)], w ++ [p 0])) () [] w' ↔ w' = [0] := by
  have h0 : ∀ p : Idx 1, ∀ x : ℤ, update p 0 x = ![x] := fun p x => by
    funext i
    fin_cases i
    simp
  have hr : Range.RunC (⟨![0], ![N]⟩ : Range 1) (fun (_ : Unit) p (w : List ℤ) => ((), ![(N : ℤ)], w ++ [p 0])) 1 le_rfl () (![0], [])
      (![N + 1], [0]) := by
    show Range.Loop (0 : Fin 1) _ _ (update (![0] : Idx 1) 0 0, []) _
    refine .step (s' := (![(N : ℤ)], [0])) ?_ ?_ ?_
    · rw [h0]; simp
    · show _ = _
      rw [h0]
      rfl
    · have : (update (![(N : ℤ)] : Idx 1) 0 ((![(N : ℤ)] : Idx 1) 0 + 1)) = ![(N : ℤ) + 1] := h0 _ _
      simp only [this]
      exact .done (by simp)
  constructor
  · rintro ⟨p, hp⟩
    exact congrArg Prod.snd (runC_unique _ _ _ _ _ _ _ _ hp hr)
  · rintro rfl
    exact ⟨_, hr⟩

/-- non-vacuity: a function that adds the values at the indices to a variable captured by reference satisfies the hypotheses of the partial theorem -/
example : let f : FunctionObject 2 Unit ℤ := fun s p w => (s, p, w + p 0 * p 1)
    KeepsPosition f ∧ (∀ s p w, (f s p w).1 = s) ∧ (⟨![1, 1], ![2, 2]⟩ : Range 2).ForEachC f () 0 9 := by
  refine ⟨fun _ _ _ => rfl, fun _ _ _ => rfl, ?_⟩
  have := (runC_spec (⟨![1, 1], ![2, 2]⟩ : Range 2) (fun (s : Unit) p (w : ℤ) => (s, p, w + p 0 * p 1)) (fun _ _ _ => rfl) () 2 le_rfl
    ![1, 1] 0)
  obtain ⟨p, h, -⟩ := this
  exact ⟨p, h⟩

/-! ## parallel iteration -/

variable {L V : Type} [DecidableEq L]

omit [DecidableEq L] in
theorem begin_left (r : Range n) (func : Idx n → Thread L V) (m : L → V) (p : Idx n) :
    (InBox r.lo r.hi p → (ParallelState.begin r func m).left p = func p) ∧
    (¬ InBox r.lo r.hi p → (ParallelState.begin r func m).left p = .done) := by
  have : ((List.finRange n).all (fun i => decide (r.lo i ≤ p i) && decide (p i < r.hi i + 1)) = true) ↔ InBox r.lo r.hi p := by
    simp only [List.all_eq_true, List.mem_finRange, true_implies, Bool.and_eq_true, decide_eq_true_eq, InBox, Int.lt_add_one_iff]
  constructor
  · intro h
    show (if _ then _ else _) = _
    rw [if_pos (this.mpr h)]
  · intro h
    show (if _ then _ else _) = _
    rw [if_neg fun hc => h (this.mp hc)]

/-- **C109 (partial)** The calls made by Kokkos `forEach` end, whatever the order in which they go on and however they overlap, and if no
call writes to a location that another one uses, memory is then as after `forEach` in C order. Missing: functions with such conflicts, and
the state in which `forEach` returns, for which that is false. -/
theorem C109_parallel_partial (r : Range n) (func : Idx n → Thread L V) (hr : RaceFree r func) (m : L → V) :
    Acc (fun b a : ParallelState n L V => ParallelStep a b) (ParallelState.begin r func m) ∧
    ∀ s, Relation.ReflTransGen ParallelStep (ParallelState.begin r func m) s →
      (¬ s.Ended → ∃ s', ParallelStep s s') ∧
      (s.Ended → s.mem = r.forEachC (fun p m => (func p).run m) m) := by
  obtain ⟨lst, h1, h2⟩ := C02_forEachC r
  refine ⟨acc_step (acc_left lst _ fun p hp => (begin_left r func m p).2 fun hc => hp ((h1.mem_iff p).mpr hc)), fun s hs => ⟨?_, ?_⟩⟩
  · intro h
    unfold ParallelState.Ended at h
    push Not at h
    obtain ⟨p, hp⟩ := h
    cases ht : s.left p with
    | done => exact absurd ht hp
    | read l next => exact ⟨_, .read ht⟩
    | write l v next => exact ⟨_, .write ht⟩
  · intro he
    have hb : ∀ p l, Touches l ((ParallelState.begin r func m).left p) → InBox r.lo r.hi p ∧ Touches l (func p) := fun p l h => by
      by_cases hc : InBox r.lo r.hi p
      · rw [(begin_left r func m p).1 hc] at h
        exact ⟨hc, h⟩
      · rw [(begin_left r func m p).2 hc] at h
        cases h
    have hbw : ∀ p l, Writes l ((ParallelState.begin r func m).left p) → InBox r.lo r.hi p ∧ Writes l (func p) := fun p l h => by
      by_cases hc : InBox r.lo r.hi p
      · rw [(begin_left r func m p).1 hc] at h
        exact ⟨hc, h⟩
      · rw [(begin_left r func m p).2 hc] at h
        cases h
    have hr' : ∀ p q l, p ≠ q → Writes l ((ParallelState.begin r func m).left p) → ¬ Touches l ((ParallelState.begin r func m).left q) :=
      fun p q l hne hw hu => hr p q l (hbw p l hw).1 (hb q l hu).1 hne (hbw p l hw).2 (hb q l hu).2
    have inv := inv_steps (m₀ := m) hr' ⟨fun _ _ h => h, fun _ _ h => h, fun _ _ _ => rfl, fun _ _ => rfl⟩ hs
    have e : r.forEachC (fun p m => (func p).run m) m = lst.foldl (fun m p => ((ParallelState.begin r func m).left p).run m) m := by
      rw [h2]
      refine List.foldl_ext _ _ _ fun m' p hp => ?_
      rw [(begin_left r func m' p).1 ((h1.mem_iff p).mp hp)]
    have e' : r.forEachC (fun p m => (func p).run m) m = lst.foldl (fun m' p => ((ParallelState.begin r func m).left p).run m') m := e
    rw [e']
    obtain ⟨f1, f2⟩ := foldl_run (m₀ := m) hr' lst h1.nodup
    funext l
    by_cases hl : ∃ p, Writes l ((ParallelState.begin r func m).left p)
    · obtain ⟨p, hp⟩ := hl
      rw [f1 p ((h1.mem_iff p).mpr (hbw p l hp).1) l hp, ← inv.same p l (touches_of_writes hp), he p]
      rfl
    · push Not at hl
      rw [f2 l fun p _ => hl p]
      exact inv.rest l hl

/-- **C109 (finding: violated)** `forEach` itself does not wait for the calls: for every function that changes memory at all, the program may go
on with memory as it was before. -/
theorem C109_violated_no_fence (r : Range n) (func : Idx n → Thread L V) (m : L → V) (h : r.forEachC (fun p m => (func p).run m) m ≠ m) :
    ∃ s, ParallelState.MayReturn r func m s ∧ s.mem ≠ r.forEachC (fun p m => (func p).run m) m :=
  ⟨_, .refl, h.symm⟩

/-- The hypothesis of `C109_violated_no_fence` is met: a function without conflicts that writes 1 to each of three elements. -/
example : (⟨![0], ![2]⟩ : Range 1).forEachC (fun p m => (Thread.write (p 0) 1 .done : Thread ℤ ℕ).run m) (fun _ => 0) ≠ fun _ => 0 := by
  intro h
  have := congrFun h 1
  revert this
  decide

/-- **C109 (finding: violated)** A function that adds one to a variable, for the two indices of a range: after Kokkos `forEach` the variable may be 1
instead of 2. -/
theorem C109_violated_race : let r : Range 1 := ⟨![0], ![1]⟩
    let func : Idx 1 → Thread Unit ℕ := fun _ => .read () fun v => .write () (v + 1) .done
    r.forEachC (fun p m => (func p).run m) (fun _ => 0) () = 2 ∧
    ∃ s, Relation.ReflTransGen ParallelStep (ParallelState.begin r func fun _ => 0) s ∧ s.Ended ∧ s.mem () = 1 := by
  intro r func
  refine ⟨by decide, ?_⟩
  have hb := begin_left r func (fun _ => 0)
  have h0 : (ParallelState.begin r func fun _ => 0).left ![0] = func ![0] := (hb ![0]).1 fun i => by fin_cases i; decide
  have h1 : (ParallelState.begin r func fun _ => 0).left ![1] = func ![1] := (hb ![1]).1 fun i => by fin_cases i; decide
  have hne : (![1] : Idx 1) ≠ ![0] := by decide
  refine ⟨_, .tail (.tail (.tail (.tail .refl (.read (p := ![0]) (h0.trans rfl))) (.read (p := ![1]) (l := ()) (next := fun v => .write () (v + 1) .done) ?_))
    (.write (p := ![0]) (l := ()) (v := 1) (next := .done) ?_)) (.write (p := ![1]) (l := ()) (v := 1) (next := .done) ?_), fun p => ?_, ?_⟩
  · simp only [update_of_ne hne]
    exact h1
  · simp only [update_of_ne hne.symm, update_self]
    rfl
  · simp only [update_of_ne hne, update_self]
    rfl
  · by_cases hp1 : p = ![1]
    · rw [hp1]; simp only [update_self]
    · by_cases hp0 : p = ![0]
      · rw [hp0]; simp only [update_of_ne hne.symm, update_self]
      · simp only [update_of_ne hp1, update_of_ne hp0]
        refine (hb p).2 fun hc => ?_
        have := hc 0
        have e : p 0 = 0 ∨ p 0 = 1 := by
          have h1 : (0 : ℤ) ≤ p 0 ∧ p 0 ≤ 1 := this
          omega
        rcases e with e | e
        · exact hp0 (funext fun i => by fin_cases i; exact e)
        · exact hp1 (funext fun i => by fin_cases i; exact e)
  · simp

/-- what a stencil does at one index: read the values around it in one array, write to another one -/
def stencil (offsets : List (Idx n)) (F : Idx n → List V → V) (p : Idx n) : Thread (Bool × Idx n) V :=
  go offsets []
where
  /-- with these values already read -/
  go : List (Idx n) → List V → Thread (Bool × Idx n) V
    | [], vs => .write (true, p) (F p vs) .done
    | o :: os, vs => .read (false, fun i => p i + o i) fun v => go os (vs ++ [v])

/-- non-vacuity of C109: every stencil that reads from one array and writes to another one is free of races, on every range -/
theorem stencil_raceFree (r : Range n) (offsets : List (Idx n)) (F : Idx n → List V → V) : RaceFree r (stencil offsets F) := by
  have hw : ∀ (p : Idx n) (l : Bool × Idx n) (os : List (Idx n)) (vs : List V), Writes l (stencil.go F p os vs) → l = (true, p) := by
    intro p l os
    induction os with
    | nil =>
      intro vs h
      cases h with
      | here => rfl
      | write h => cases h
    | cons o os ih =>
      intro vs h
      cases h with
      | read v h => exact ih _ h
  have hu : ∀ (p : Idx n) (l : Bool × Idx n) (os : List (Idx n)) (vs : List V), Touches l (stencil.go F p os vs) → l.1 = true → l = (true, p) := by
    intro p l os
    induction os with
    | nil =>
      intro vs h
      cases h with
      | hereW => exact fun _ => rfl
      | write h => cases h
    | cons o os ih =>
      intro vs h
      cases h with
      | hereR => exact fun hc => absurd hc (by simp)
      | read v h => exact ih _ h
  intro p q l _ _ hne h1 h2
  have e := hw p l offsets [] h1
  have e' := hu q l offsets [] h2 (by rw [e])
  exact hne (congrArg Prod.snd (e.symm.trans e'))

/-- and it computes the stencil: the writes of C109 are not trivial -/
example : (stencil (n := 1) [![-1], ![1]] (fun _ vs => vs.sum) ![3]).run (fun l => if l.1 then 0 else (l.2 0).toNat) (true, ![3]) = 6 := by decide

end Schnek.Props
