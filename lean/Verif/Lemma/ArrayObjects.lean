import Verif.Spec.ArrayObjects

/-!
# Lemmas on array objects
-/

namespace Schnek.Lemma.ArrayObj

open Schnek.ArrayObj Schnek.Spec.ArrayObj

variable {T α β γ δ : Type}

/-- a result without checks -/
def sim (f : α → β) : Except Err α → Except Err β
  | .ok a => .ok (f a)
  | .error .stop => .error .outside
  | .error e => .error e

theorem sim_bind {f : α → β} {g : γ → δ} {k : α → Except Err γ} {k' : β → Except Err δ} (x : Except Err α)
    (h : ∀ a, sim g (k a) = k' (f a)) : sim g (x >>= k) = sim f x >>= k' := by
  cases x with
  | ok a => exact h a
  | error e => cases e <;> rfl

theorem sim_pure {f : α → β} (a : α) : sim f (pure a) = pure (f a) := rfl

theorem sim_foldlM {f : α → β} {s : α → ℕ → Except Err α} {s' : β → ℕ → Except Err β} (h : ∀ a i, sim f (s a i) = s' (f a) i) :
    ∀ (l : List ℕ) (a : α), sim f (l.foldlM s a) = l.foldlM s' (f a)
  | [], _ => rfl
  | i :: l, a => by
    rw [List.foldlM_cons, List.foldlM_cons, ← h a i]
    exact sim_bind _ fun a => sim_foldlM h l a

theorem sim_foldlM' {ι : Type} {f : α → β} {s : α → ι → Except Err α} {s' : β → ι → Except Err β} (h : ∀ a i, sim f (s a i) = s' (f a) i) :
    ∀ (l : List ι) (a : α), sim f (l.foldlM s a) = l.foldlM s' (f a)
  | [], _ => rfl
  | i :: l, a => by
    rw [List.foldlM_cons, List.foldlM_cons, ← h a i]
    exact sim_bind _ fun a => sim_foldlM' h l a

theorem sim_at (a : Arr T) (pos : Word) : sim id (a.at' pos) = (unchecked a).at' pos := by
  obtain ⟨c, d⟩ := a
  cases c <;> by_cases h : pos.val < d.length <;>
    simp [Arr.at', Arr.check, Arr.element, unchecked, sim, h, bind, Except.bind]

theorem sim_load (a : Arr T) (i : ℕ) : sim id (a.load i) = (unchecked a).load i := by
  simp only [Arr.load, unchecked]
  split <;> rfl

theorem sim_get (a : Arr T) (pos : Word) : sim id (a.get pos) = (unchecked a).get pos := by
  unfold Arr.get
  rw [← sim_at]
  exact sim_bind _ fun i => sim_load a i

theorem sim_set (a : Arr T) (pos : Word) (v : T) : sim unchecked (a.set pos v) = (unchecked a).set pos v := by
  unfold Arr.set
  rw [← sim_at]
  exact sim_bind _ fun i => rfl

theorem sim_put (a : Arr T) (i : ℕ) (v : T) : sim unchecked (a.put i v) = (unchecked a).put i v := by
  unfold Arr.put Arr.element
  by_cases h : i < a.data.length <;> simp [h, unchecked, sim, bind, Except.bind, pure, Except.pure]

theorem unchecked_new (c : Bool) (n : ℕ) : unchecked (Arr.new c n : Arr T) = Arr.new false n := rfl

theorem sim_ofValue (c : Bool) (n : ℕ) (v : T) : sim unchecked (Arr.ofValue c n v) = Arr.ofValue false n v :=
  sim_foldlM (fun a i => sim_put a i v) _ _

theorem sim_ofValues (c : Bool) (vs : List T) : sim unchecked (Arr.ofValues c vs) = Arr.ofValues false vs := by
  unfold Arr.ofValues
  by_cases h : 2 ≤ vs.length ∧ vs.length ≤ 10
  · rw [if_pos h, if_pos h]
    exact sim_foldlM' (fun a x => sim_put a x.2 x.1) _ _
  · rw [if_neg h, if_neg h]
    rfl

theorem sim_convert (b : Arr T) (c : Bool) : sim unchecked (b.convert c) = (unchecked b).convert false :=
  sim_foldlM (fun a i => by
    rw [← sim_get]
    exact sim_bind _ fun v => sim_put a i v) _ _

theorem sim_loadset (a r : Arr T) (i : ℕ) (pos : Word) :
    sim unchecked (do r.set pos (← a.load i)) = (do (unchecked r).set pos (← (unchecked a).load i)) := by
  rw [← sim_load]
  exact sim_bind _ fun v => sim_set r pos v

theorem sim_project (a : Arr T) (k : ℕ) : sim unchecked (a.project k) = (unchecked a).project k := by
  unfold Arr.project
  by_cases h : k ≤ a.data.length
  · rw [if_pos h, if_pos (by exact h)]
    exact sim_foldlM (fun r i => sim_loadset a r i _) _ _
  · rw [if_neg h, if_neg (by exact h)]
    rfl

theorem sim_projectDim (a : Arr T) (dim : Word) : sim unchecked (a.projectDim dim) = (unchecked a).projectDim dim := by
  unfold Arr.projectDim
  by_cases h : a.data.length = 0
  · rw [if_pos h, if_pos (by exact h)]
    rfl
  · rw [if_neg h, if_neg (by exact h)]
    rw [show (Arr.new (unchecked a).checked ((unchecked a).data.length - 1) : Arr T) =
      unchecked (Arr.new a.checked (a.data.length - 1)) from rfl]
    rw [← sim_foldlM (f := unchecked) (s := fun (r : Arr T) (i : ℕ) => do r.set (i : Word) (← a.load i))
      (fun r i => sim_loadset a r i _)]
    exact sim_bind _ fun r => sim_foldlM (fun r i => sim_loadset a r i _) _ _

theorem sim_fill (a : Arr T) (v : T) : sim unchecked (a.fill v) = (unchecked a).fill v :=
  sim_foldlM (fun a i => sim_put a i v) _ _

theorem sim_fold (a : Arr T) (f : T → T → T) (x : T) : sim id (a.fold f x) = (unchecked a).fold f x :=
  sim_foldlM (f := id) (fun s i => by
    rw [← sim_get]
    exact sim_bind _ fun v => rfl) _ _

theorem sim_arr (w : World T) (x : ℕ) : sim unchecked (w.arr x) = (uncheckedWorld w).arr x := by
  simp only [World.arr, uncheckedWorld, List.getElem?_map]
  cases w.arrays[x]? <;> rfl

theorem uncheckedWorld_update (w : World T) (x : ℕ) (a : Arr T) :
    uncheckedWorld (w.update x a) = (uncheckedWorld w).update x (unchecked a) := by
  simp [uncheckedWorld, World.update, List.map_set]

theorem uncheckedWorld_add (w : World T) (a : Arr T) : uncheckedWorld (w.add a) = (uncheckedWorld w).add (unchecked a) := by
  simp [uncheckedWorld, World.add]

theorem sim_add (w : World T) (x : Except Err (Arr T)) :
    sim uncheckedWorld (do return w.add (← x)) = (do return (uncheckedWorld w).add (← sim unchecked x)) :=
  sim_bind _ fun a => by rw [sim_pure, uncheckedWorld_add]

theorem sim_update (w : World T) (x : ℕ) (r : Except Err (Arr T)) :
    sim uncheckedWorld (do return w.update x (← r)) = (do return (uncheckedWorld w).update x (← sim unchecked r)) :=
  sim_bind _ fun a => by rw [sim_pure, uncheckedWorld_update]

theorem sim_fillWith (w : World T) (x y i : ℕ) : sim uncheckedWorld (w.fillWith x y i) = (uncheckedWorld w).fillWith x y i := by
  unfold World.fillWith
  rw [← sim_arr]
  refine sim_bind _ fun a => sim_foldlM (fun w j => ?_) _ _
  rw [← sim_arr]
  refine sim_bind _ fun b => ?_
  rw [← sim_load]
  refine sim_bind _ fun v => ?_
  rw [← sim_arr]
  refine sim_bind _ fun a => ?_
  rw [sim_update, sim_put]
  rfl

theorem sim_assign (w : World T) (x y : ℕ) : sim uncheckedWorld (w.assign x y) = (uncheckedWorld w).assign x y := by
  unfold World.assign
  rw [← sim_arr, ← sim_arr]
  refine sim_bind _ fun a => sim_bind _ fun b => ?_
  by_cases h : a.data.length ≠ b.data.length
  · rw [if_pos h, if_pos (by exact h)]
    rfl
  · rw [if_neg h, if_neg (by exact h)]
    refine sim_foldlM (fun w i => ?_) _ _
    rw [← sim_arr]
    refine sim_bind _ fun b => ?_
    rw [← sim_get]
    refine sim_bind _ fun v => ?_
    rw [← sim_arr]
    refine sim_bind _ fun a => ?_
    rw [sim_update, sim_put]
    rfl

theorem sim_step (w : World T) (op : Op T) : sim uncheckedWorld (step w op) = step (uncheckedWorld w) (uncheckedOp op) := by
  cases op with
  | new c n => exact congrArg Except.ok (uncheckedWorld_add _ _)
  | ofValue c n v => exact (sim_add _ _).trans (by rw [sim_ofValue]; rfl)
  | ofValues c vs => exact (sim_add _ _).trans (by rw [sim_ofValues]; rfl)
  | copy c x =>
    show sim uncheckedWorld (do return w.add (← (← w.arr x).convert c)) = _
    simp only [uncheckedOp, step]
    rw [← sim_arr]
    exact sim_bind _ fun a => (sim_add _ _).trans (by rw [sim_convert])
  | assign x y => exact sim_assign w x y
  | get x pos =>
    simp only [uncheckedOp, step]
    rw [← sim_arr]
    refine sim_bind _ fun a => ?_
    rw [← sim_get]
    exact sim_bind _ fun v => rfl
  | set x pos v =>
    simp only [uncheckedOp, step]
    rw [← sim_arr]
    exact sim_bind _ fun a => (sim_update _ _ _).trans (by rw [sim_set])
  | move x pos y pos' =>
    simp only [uncheckedOp, step]
    rw [← sim_arr, ← sim_arr]
    refine sim_bind _ fun b => ?_
    rw [← sim_get]
    refine sim_bind _ fun v => sim_bind _ fun a => ?_
    exact (sim_update _ _ _).trans (by rw [sim_set]; rfl)
  | fill x v =>
    simp only [uncheckedOp, step]
    rw [← sim_arr]
    exact sim_bind _ fun a => (sim_update _ _ _).trans (by rw [sim_fill])
  | fillWith x y pos =>
    simp only [uncheckedOp, step]
    rw [← sim_arr]
    refine sim_bind _ fun b => ?_
    rw [← sim_at]
    exact sim_bind _ fun i => sim_fillWith w x y i
  | project x k =>
    simp only [uncheckedOp, step]
    rw [← sim_arr]
    exact sim_bind _ fun a => (sim_add _ _).trans (by rw [sim_project])
  | projectDim x dim =>
    simp only [uncheckedOp, step]
    rw [← sim_arr]
    exact sim_bind _ fun a => (sim_add _ _).trans (by rw [sim_projectDim])
  | fold x f init =>
    simp only [uncheckedOp, step]
    rw [← sim_arr]
    refine sim_bind _ fun a => ?_
    rw [← sim_fold]
    exact sim_bind _ fun v => rfl

theorem sim_run : ∀ (p : List (Op T)) (w : World T), sim uncheckedWorld (run w p) = run (uncheckedWorld w) (p.map uncheckedOp)
  | [], _ => rfl
  | op :: p, w => by
    simp only [run, List.map_cons, List.foldlM_cons]
    rw [← sim_step]
    exact sim_bind _ fun w => sim_run p w

theorem sim_eq_withoutChecks (r : Except Err (World T)) : sim uncheckedWorld r = withoutChecks r := by
  rcases r with (_ | _ | _ | _) | _ <;> rfl

/-! ## no access outside -/

/-- the result satisfies `P`, or is no access outside of an array -/
def safe (P : α → Prop) : Except Err α → Prop
  | .ok a => P a
  | .error e => e ≠ .outside

theorem safe_bind {P : α → Prop} {Q : β → Prop} {k : α → Except Err β} {x : Except Err α} (hx : safe P x) (h : ∀ a, P a → safe Q (k a)) :
    safe Q (x >>= k) := by
  cases x with
  | ok a => exact h a hx
  | error e => exact hx

theorem safe_foldlM {ι : Type} {P : α → Prop} {s : α → ι → Except Err α} :
    ∀ (l : List ι) (a : α), (∀ i ∈ l, ∀ a, P a → safe P (s a i)) → P a → safe P (l.foldlM s a)
  | [], _, _, ha => ha
  | i :: l, a, h, ha => by
    rw [List.foldlM_cons]
    exact safe_bind (h i List.mem_cons_self a ha) fun a ha => safe_foldlM l a (fun j hj => h j (List.mem_cons_of_mem _ hj)) ha

/-- an array of this length, with this policy -/
def Is (c : Bool) (n : ℕ) (a : Arr T) : Prop := a.checked = c ∧ a.data.length = n

theorem safe_at {n : ℕ} {a : Arr T} (h : Is true n a) (pos : Word) : safe (· < n) (a.at' pos) := by
  obtain ⟨h1, rfl⟩ := h
  unfold Arr.at' Arr.check
  rw [h1]
  by_cases hp : pos.val < a.data.length
  · simp [hp, Arr.element, safe, bind, Except.bind]
  · simp [hp, safe, bind, Except.bind]

theorem safe_load {a : Arr T} {i : ℕ} (h : i < a.data.length) : safe (fun _ => True) (a.load i) := by
  unfold Arr.load
  rw [List.getElem?_eq_getElem h]
  cases a.data[i] <;> simp [safe]

theorem safe_get {n : ℕ} {a : Arr T} (h : Is true n a) (pos : Word) : safe (fun _ => True) (a.get pos) :=
  safe_bind (safe_at h pos) fun _ hi => safe_load (h.2 ▸ hi)

theorem safe_set {n : ℕ} {a : Arr T} (h : Is true n a) (pos : Word) (v : T) : safe (Is true n) (a.set pos v) :=
  safe_bind (safe_at h pos) fun _ _ => ⟨h.1, by simpa using h.2⟩

theorem safe_put {c : Bool} {n : ℕ} {a : Arr T} (h : Is c n a) {i : ℕ} (hi : i < n) (v : T) : safe (Is c n) (a.put i v) := by
  unfold Arr.put Arr.element
  rw [if_pos (by rw [h.2]; exact hi)]
  exact ⟨h.1, by simpa using h.2⟩

theorem is_new (c : Bool) (n : ℕ) : Is c n (Arr.new c n : Arr T) := ⟨rfl, by simp [Arr.new]⟩

theorem safe_ofValue (c : Bool) (n : ℕ) (v : T) : safe (Is c n) (Arr.ofValue c n v) :=
  safe_foldlM _ _ (fun _ hi _ ha => safe_put ha (List.mem_range.mp hi) v) (is_new c n)

theorem safe_ofValues (c : Bool) (vs : List T) : safe (fun a => a.checked = c ∧ a.data.length < 2 ^ 64) (Arr.ofValues c vs) := by
  unfold Arr.ofValues
  by_cases h : 2 ≤ vs.length ∧ vs.length ≤ 10
  · rw [if_pos h]
    have := safe_foldlM (P := Is c vs.length) vs.zipIdx (Arr.new c vs.length : Arr T) (s := fun a x => a.put x.2 x.1)
      (fun x hx a ha => safe_put ha (by simpa using List.snd_lt_of_mem_zipIdx hx) _) (is_new c _)
    cases hr : vs.zipIdx.foldlM (fun (a : Arr T) x => a.put x.2 x.1) (Arr.new c vs.length) with
    | ok a =>
      rw [hr] at this
      exact ⟨this.1, by rw [this.2]; omega⟩
    | error e =>
      rw [hr] at this
      exact this
  · rw [if_neg h]
    simp [safe]

theorem safe_convert {n : ℕ} {b : Arr T} (h : Is true n b) (c : Bool) : safe (Is c n) (b.convert c) := by
  unfold Arr.convert
  rw [h.2]
  exact safe_foldlM _ _ (fun _ hi _ ha => safe_bind (safe_get h _) fun v _ => safe_put ha (List.mem_range.mp hi) v) (is_new c n)

theorem safe_loadset {n : ℕ} {a r : Arr T} {i : ℕ} (hi : i < a.data.length) (h : Is true n r) (pos : Word) :
    safe (Is true n) (do r.set pos (← a.load i)) := safe_bind (safe_load hi) fun v _ => safe_set h pos v

theorem safe_project {n : ℕ} {a : Arr T} (h : Is true n a) (k : ℕ) :
    safe (fun r => r.checked = true ∧ r.data.length ≤ n) (a.project k) := by
  unfold Arr.project
  by_cases hk : k ≤ a.data.length
  · rw [if_pos hk, h.1]
    have := safe_foldlM (P := Is true k) (List.range k) (Arr.new true k : Arr T)
      (s := fun (r : Arr T) (i : ℕ) => do r.set (i : Word) (← a.load i))
      (fun i hi r hr => safe_loadset (lt_of_lt_of_le (List.mem_range.mp hi) hk) hr _) (is_new true k)
    revert this
    cases (List.range k).foldlM (fun (r : Arr T) (i : ℕ) => do r.set (i : Word) (← a.load i)) (Arr.new true k) with
    | ok r => exact fun this => ⟨this.1, by rw [this.2, ← h.2]; exact hk⟩
    | error e => exact id
  · rw [if_neg hk]
    simp [safe]

theorem val_cast {i : ℕ} (h : i < 2 ^ 64) : ((i : ℕ) : Word).val = i := ZMod.val_natCast_of_lt h

theorem set_stop {n : ℕ} {r : Arr T} (h : Is true n r) {pos : Word} (hp : ¬ pos.val < n) (v : T) : r.set pos v = .error .stop := by
  unfold Arr.set Arr.at' Arr.check
  rw [h.1, h.2]
  simp [hp, bind, Except.bind]

/-- the first loop of `projectDim` -/
theorem safe_firstLoop {n : ℕ} {a : Arr T} (ha : a.data.length = n + 1) (hn : n + 1 < 2 ^ 64) :
    ∀ (m s : ℕ) (r : Arr T), s ≤ n → Is true n r →
      safe (Is true n) ((List.range' s m).foldlM (fun (r : Arr T) (i : ℕ) => do r.set (i : Word) (← a.load i)) r)
  | 0, _, _, _, hr => hr
  | m + 1, s, r, hs, hr => by
    rw [List.range'_succ, List.foldlM_cons]
    rcases Nat.lt_or_ge s n with h | h
    · exact safe_bind (safe_loadset (by omega) hr _) fun r hr => safe_firstLoop ha hn m (s + 1) r (by omega) hr
    · refine safe_bind (P := fun _ => False) (safe_bind (safe_load (i := s) (by omega)) fun v _ => ?_) fun _ => False.elim
      rw [set_stop hr (by rw [val_cast (by omega)]; omega)]
      simp [safe]

theorem safe_projectDim {n : ℕ} {a : Arr T} (h : Is true n a) (hn : n < 2 ^ 64) (dim : Word) :
    safe (fun r => r.checked = true ∧ r.data.length ≤ n) (a.projectDim dim) := by
  unfold Arr.projectDim
  by_cases h0 : a.data.length = 0
  · rw [if_pos h0]
    simp [safe]
  · rw [if_neg h0]
    obtain ⟨m, hm⟩ : ∃ m, a.data.length = m + 1 := ⟨a.data.length - 1, by omega⟩
    have hnm : n = m + 1 := h.2 ▸ hm
    rw [h.1, hm, Nat.add_sub_cancel, List.range_eq_range']
    refine safe_bind (P := Is true m) (safe_firstLoop hm (by omega) _ 0 _ (Nat.zero_le _) (is_new true m)) fun r hr => ?_
    have := safe_foldlM (P := Is true m) (List.range' (dim + 1).val (m + 1 - (dim + 1).val)) r
      (s := fun (r : Arr T) (i : ℕ) => do r.set ((i - 1 : ℕ) : Word) (← a.load i))
      (fun i hi r hr => safe_loadset (by have := List.mem_range'_1.mp hi; omega) hr _) hr
    revert this
    cases (List.range' (dim + 1).val (m + 1 - (dim + 1).val)).foldlM
      (fun (r : Arr T) (i : ℕ) => do r.set ((i - 1 : ℕ) : Word) (← a.load i)) r with
    | ok r => exact fun this => ⟨this.1, by rw [this.2]; omega⟩
    | error e => exact id

theorem safe_fill {c : Bool} {n : ℕ} {a : Arr T} (h : Is c n a) (v : T) : safe (Is c n) (a.fill v) := by
  unfold Arr.fill
  rw [h.2]
  exact safe_foldlM _ _ (fun _ hi _ ha => safe_put ha (List.mem_range.mp hi) v) h

theorem safe_fold {n : ℕ} {a : Arr T} (h : Is true n a) (f : T → T → T) (x : T) : safe (fun _ => True) (a.fold f x) :=
  safe_foldlM _ _ (fun _ _ _ _ => safe_bind (safe_get h _) fun _ _ => trivial) trivial

/-- the lengths and policies of arrays -/
def Shape (L : List ℕ) (w : World T) : Prop := w.arrays.map (fun a => (a.checked, a.data.length)) = L.map (true, ·)

theorem Shape.arr {L : List ℕ} {w : World T} (h : Shape L w) (x : ℕ) :
    safe (fun a => ∃ n, L[x]? = some n ∧ Is true n a) (w.arr x) := by
  have := congrArg (·[x]?) h
  simp only [List.getElem?_map] at this
  unfold World.arr
  cases hx : w.arrays[x]? with
  | none => simp [safe]
  | some a =>
    cases hl : L[x]? with
    | none => simp [hx, hl] at this
    | some n =>
      simp only [hx, hl, Option.map_some, Option.some.injEq, Prod.mk.injEq] at this
      exact ⟨n, rfl, this⟩

theorem Shape.update {L : List ℕ} {w : World T} (h : Shape L w) {x n : ℕ} {a : Arr T} (hx : L[x]? = some n) (ha : Is true n a) :
    Shape L (w.update x a) := by
  unfold Shape at h ⊢
  simp only [World.update, List.map_set, h]
  rw [ha.1, ha.2]
  rw [List.getElem?_eq_some_iff] at hx
  obtain ⟨h1, h2⟩ := hx
  rw [← h2]
  apply List.ext_getElem (by simp)
  intro i h3 h4
  rw [List.getElem_set]
  split
  · next e => subst e; simp
  · rfl

/-- the invariant of programs whose arrays are all checked -/
def Good (w : World T) : Prop := ∃ L : List ℕ, (∀ n ∈ L, n < 2 ^ 64) ∧ Shape L w

theorem Good.add {w : World T} (h : Good w) {a : Arr T} (hc : a.checked = true) (hl : a.data.length < 2 ^ 64) : Good (w.add a) := by
  obtain ⟨L, h1, h2⟩ := h
  refine ⟨L ++ [a.data.length], fun n hn => ?_, ?_⟩
  · rcases List.mem_append.mp hn with hn | hn
    · exact h1 n hn
    · rw [List.mem_singleton.mp hn]
      exact hl
  · unfold Shape at h2 ⊢
    simp [World.add, h2, hc]

theorem Good.see {w : World T} (h : Good w) (v : T) : Good (w.see v) := h

theorem safe_fillWith {w : World T} (h : Good w) {x y i n : ℕ} (hi : i < n) (hy : ∀ L, Shape L w → L[y]? = some n) :
    safe Good (w.fillWith x y i) := by
  obtain ⟨L, h1, h2⟩ := h
  have hy := hy L h2
  refine safe_bind (h2.arr x) fun a ⟨m, hx, ha⟩ => ?_
  have : safe (Shape L) ((List.range a.data.length).foldlM (fun (w : World T) (j : ℕ) => do
    let b ← w.arr y
    let v ← b.load i
    let a ← w.arr x
    return w.update x (← a.put j v)) w) := by
    refine safe_foldlM _ _ (fun j hj w hw => ?_) h2
    refine safe_bind (hw.arr y) fun b ⟨k, hk, hb⟩ => ?_
    have hkn : k = n := by rw [hy] at hk; exact (Option.some.inj hk).symm
    refine safe_bind (safe_load (by rw [hb.2, hkn]; exact hi)) fun v _ => ?_
    refine safe_bind (hw.arr x) fun a' ⟨m', hm', ha'⟩ => ?_
    have hmm : m' = m := by rw [hx] at hm'; exact (Option.some.inj hm').symm
    refine safe_bind (safe_put ha' (by rw [hmm, ← ha.2]; exact List.mem_range.mp hj) v) fun a'' ha'' => ?_
    exact hw.update hm' ha''
  revert this
  cases (List.range a.data.length).foldlM (fun (w : World T) (j : ℕ) => do
    let b ← w.arr y
    let v ← b.load i
    let a ← w.arr x
    return w.update x (← a.put j v)) w with
  | ok w => exact fun hw => ⟨L, h1, hw⟩
  | error e => exact id

theorem safe_assign {w : World T} (h : Good w) (x y : ℕ) : safe Good (w.assign x y) := by
  obtain ⟨L, h1, h2⟩ := h
  refine safe_bind (h2.arr x) fun a ⟨m, hx, ha⟩ => safe_bind (h2.arr y) fun b ⟨k, hk, hb⟩ => ?_
  by_cases hne : a.data.length ≠ b.data.length
  · rw [if_pos hne]
    simp [safe]
  rw [if_neg hne]
  have : safe (Shape L) ((List.range a.data.length).foldlM (fun (w : World T) (i : ℕ) => do
    let b ← w.arr y
    let v ← b.get (i : Word)
    let a ← w.arr x
    return w.update x (← a.put i v)) w) := by
    refine safe_foldlM _ _ (fun j hj w hw => ?_) h2
    refine safe_bind (hw.arr y) fun b ⟨k, hk, hb⟩ => ?_
    refine safe_bind (safe_get hb _) fun v _ => ?_
    refine safe_bind (hw.arr x) fun a' ⟨m', hm', ha'⟩ => ?_
    have hmm : m' = m := by rw [hx] at hm'; exact (Option.some.inj hm').symm
    refine safe_bind (safe_put ha' (by rw [hmm, ← ha.2]; exact List.mem_range.mp hj) v) fun a'' ha'' => ?_
    exact hw.update hm' ha''
  revert this
  cases (List.range a.data.length).foldlM (fun (w : World T) (i : ℕ) => do
    let b ← w.arr y
    let v ← b.get (i : Word)
    let a ← w.arr x
    return w.update x (← a.put i v)) w with
  | ok w => exact fun hw => ⟨L, h1, hw⟩
  | error e => exact id

theorem safe_step {w : World T} (h : Good w) {op : Op T} (hop : allChecked op = true) : safe Good (step w op) := by
  have hword : ∀ n : Word, n.val < 2 ^ 64 := fun n => ZMod.val_lt n
  cases op with
  | new c n =>
    refine Good.add h (by simpa [allChecked, Arr.new] using hop) ?_
    simpa [Arr.new] using hword n
  | ofValue c n v =>
    have hc : c = true := by simpa [allChecked] using hop
    exact safe_bind (safe_ofValue c n.val v) fun a ha => Good.add h (ha.1.trans hc) (by rw [ha.2]; exact hword n)
  | ofValues c vs =>
    have hc : c = true := by simpa [allChecked] using hop
    exact safe_bind (safe_ofValues c vs) fun a ha => Good.add h (ha.1.trans hc) ha.2
  | copy c x =>
    have hc : c = true := by simpa [allChecked] using hop
    obtain ⟨L, h1, h2⟩ := h
    exact safe_bind (h2.arr x) fun a ⟨n, hn, ha⟩ => safe_bind (safe_convert ha c) fun b hb =>
      Good.add ⟨L, h1, h2⟩ (hb.1.trans hc) (by rw [hb.2]; exact h1 n (List.mem_of_getElem? hn))
  | assign x y => exact safe_assign h x y
  | get x pos =>
    obtain ⟨L, h1, h2⟩ := h
    exact safe_bind (h2.arr x) fun a ⟨n, hn, ha⟩ => safe_bind (safe_get ha pos) fun v _ => Good.see ⟨L, h1, h2⟩ v
  | set x pos v =>
    obtain ⟨L, h1, h2⟩ := h
    exact safe_bind (h2.arr x) fun a ⟨n, hn, ha⟩ => safe_bind (safe_set ha pos v) fun b hb => ⟨L, h1, h2.update hn hb⟩
  | move x pos y pos' =>
    obtain ⟨L, h1, h2⟩ := h
    exact safe_bind (h2.arr y) fun b ⟨k, hk, hb⟩ => safe_bind (safe_get hb pos') fun v _ =>
      safe_bind (h2.arr x) fun a ⟨n, hn, ha⟩ => safe_bind (safe_set ha pos v) fun b hb => ⟨L, h1, h2.update hn hb⟩
  | fill x v =>
    obtain ⟨L, h1, h2⟩ := h
    exact safe_bind (h2.arr x) fun a ⟨n, hn, ha⟩ => safe_bind (safe_fill ha v) fun b hb => ⟨L, h1, h2.update hn hb⟩
  | fillWith x y pos =>
    obtain ⟨L, h1, h2⟩ := h
    refine safe_bind (h2.arr y) fun b ⟨k, hk, hb⟩ => safe_bind (safe_at hb pos) fun i hi =>
      safe_fillWith ⟨L, h1, h2⟩ hi fun L' h' => ?_
    have : L' = L := List.map_injective_iff.mpr (fun a b e => (Prod.mk.inj e).2) (h'.symm.trans h2)
    rw [this]
    exact hk
  | project x k =>
    obtain ⟨L, h1, h2⟩ := h
    exact safe_bind (h2.arr x) fun a ⟨n, hn, ha⟩ => safe_bind (safe_project ha k) fun b hb =>
      Good.add ⟨L, h1, h2⟩ hb.1 (lt_of_le_of_lt hb.2 (h1 n (List.mem_of_getElem? hn)))
  | projectDim x dim =>
    obtain ⟨L, h1, h2⟩ := h
    exact safe_bind (h2.arr x) fun a ⟨n, hn, ha⟩ => safe_bind (safe_projectDim ha (h1 n (List.mem_of_getElem? hn)) dim) fun b hb =>
      Good.add ⟨L, h1, h2⟩ hb.1 (lt_of_le_of_lt hb.2 (h1 n (List.mem_of_getElem? hn)))
  | fold x f init =>
    obtain ⟨L, h1, h2⟩ := h
    exact safe_bind (h2.arr x) fun a ⟨n, hn, ha⟩ => safe_bind (safe_fold ha f init) fun v _ => Good.see ⟨L, h1, h2⟩ v

theorem safe_run (p : List (Op T)) (w : World T) (h : Good w) (hp : ∀ op ∈ p, allChecked op = true) : safe Good (run w p) :=
  safe_foldlM _ _ (fun op hop _ hw => safe_step hw (hp op hop)) h

/-! ## values -/

/-- a loop that sets the elements `o`, `o+1`, … -/
theorem setLoop {c : Bool} {n : ℕ} (s : Arr T → ℕ → Except Err (Arr T)) (o : ℕ) (f : ℕ → T) :
    ∀ (k : ℕ) (a : Arr T), Is c n a → o + k ≤ n →
      (∀ i < k, ∀ b : Arr T, Is c n b → s b i = .ok ⟨c, b.data.set (o + i) (some (f i))⟩) →
      (List.range k).foldlM s a = .ok ⟨c, a.data.take o ++ (List.range k).map (fun i => some (f i)) ++ a.data.drop (o + k)⟩
  | 0, a, ha, hk, _ => by
    obtain ⟨c', d⟩ := a
    obtain rfl : c' = c := ha.1
    simp [pure, Except.pure]
  | k + 1, a, ha, hk, h => by
    have hn := ha.2
    rw [List.range_succ, List.foldlM_append, setLoop s o f k a ha (by omega) fun i hi => h i (by omega)]
    have hs := h k (by omega) ⟨c, a.data.take o ++ (List.range k).map (fun i => some (f i)) ++ a.data.drop (o + k)⟩
      ⟨rfl, by simp; omega⟩
    simp only [List.foldlM_cons, List.foldlM_nil, bind, Except.bind, hs, pure, Except.pure]
    refine congrArg (fun d => Except.ok (⟨c, d⟩ : Arr T)) ?_
    have hl : (a.data.take o ++ (List.range k).map (fun i => some (f i))).length = o + k := by simp; omega
    rw [List.set_append_right _ _ (by omega), hl, Nat.sub_self, List.drop_eq_getElem_cons (by omega : o + k < a.data.length)]
    simp [Nat.add_assoc]

theorem put_eq {c : Bool} {n : ℕ} {b : Arr T} (hb : Is c n b) {i : ℕ} (hi : i < n) (v : T) :
    b.put i v = .ok ⟨c, b.data.set i (some v)⟩ := by
  unfold Arr.put Arr.element
  rw [if_pos (by rw [hb.2]; exact hi), ← hb.1]
  rfl

theorem set_eq {c : Bool} {n : ℕ} {b : Arr T} (hb : Is c n b) {pos : Word} (hi : pos.val < n) (v : T) :
    b.set pos v = .ok ⟨c, b.data.set pos.val (some v)⟩ := by
  unfold Arr.set Arr.at' Arr.check Arr.element
  rw [hb.1, hb.2]
  cases c <;> simp [hi, bind, Except.bind, pure, Except.pure]

theorem get_eq {c : Bool} {n : ℕ} {b : Arr T} (hb : Is c n b) {pos : Word} (hi : pos.val < n) : b.get pos = b.load pos.val := by
  unfold Arr.get Arr.at' Arr.check Arr.element
  rw [hb.1, hb.2]
  cases c <;> simp [hi, bind, Except.bind]

theorem load_eq (c : Bool) (vs : List T) {i : ℕ} (hi : i < vs.length) : Arr.load ⟨c, vs.map some⟩ i = .ok vs[i] := by
  simp [Arr.load, hi]

theorem getD_of_lt (vs : List T) (v0 : T) {i : ℕ} (hi : i < vs.length) : vs.getD i v0 = vs[i] := by simp [hi]

theorem map_range_getD (vs : List T) (v0 : T) {k : ℕ} (hk : k ≤ vs.length) :
    (List.range k).map (fun i => some (vs.getD i v0)) = (vs.take k).map some := by
  refine List.ext_getElem (by simp [hk]) fun i h1 h2 => ?_
  simp only [List.length_map, List.length_range] at h1
  rw [List.getElem_map, List.getElem_map, List.getElem_range, getD_of_lt vs v0 (by omega), List.getElem_take]

end Schnek.Lemma.ArrayObj
