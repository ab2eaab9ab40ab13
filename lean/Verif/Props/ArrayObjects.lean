import Verif.Lemma.ArrayObjects

/-!
# C137: The checking policy of arrays

`Spec/ArrayObjects.lean` says what the same program is without checks. Results are `ok`, `stop` (a failed assertion), `outside` (undefined,
access outside of an array), `noValue` (undefined, use of an element without a value) and `invalid` (does not compile).
-/

namespace Schnek.Props.ArrayObj

open Schnek.ArrayObj Schnek.Spec.ArrayObj Schnek.Lemma.ArrayObj

variable {T : Type}

private theorem ok_bind {α β : Type} (a : α) (k : α → Except Err β) : (Except.ok a >>= k) = k a := rfl

/-- no arrays yet -/
abbrev empty : World T := ⟨[], []⟩

/-- Any program, with any mixture of policies: without the checks it sees the same values and ends with the same arrays, unless an assertion
fails; then it accesses an element outside of an array. -/
theorem C137_without_checks (p : List (Op T)) : run empty (p.map uncheckedOp) = withoutChecks (run empty p) := by
  rw [← sim_eq_withoutChecks]
  exact (sim_run p empty).symm

/-- A program whose arrays are all checked never accesses an element outside of an array, whatever the indices. -/
theorem C137_checked_never_outside (p : List (Op T)) (h : ∀ op ∈ p, allChecked op = true) : run empty p ≠ .error .outside := by
  intro e
  have := safe_run p empty ⟨[], by simp, rfl⟩ h
  rw [e] at this
  exact this rfl

/-- A program whose arrays are all checked is stopped if and only if without the checks it would access an element outside of an array. -/
theorem C137_stopped_iff (p : List (Op T)) (h : ∀ op ∈ p, allChecked op = true) :
    run empty p = .error .stop ↔ run empty (p.map uncheckedOp) = .error .outside := by
  rw [C137_without_checks]
  constructor
  · intro e
    rw [e]
    rfl
  · intro e
    have := C137_checked_never_outside p h
    rcases hr : run (empty : World T) p with (_ | _ | _ | _) | w <;> simp_all [withoutChecks]

/-- a program that looks for the fourth of three elements -/
def fourth (checked : Bool) : List (Op ℤ) := [.ofValues checked [4, 5, 6], .set 0 1 7, .get 0 1, .get 0 2, .get 0 3]

example : (∀ op ∈ fourth true, allChecked op = true) ∧ (fourth true).map uncheckedOp = fourth false ∧
    run empty (fourth true) = .error .stop ∧ run empty (fourth false) = .error .outside ∧
    (run empty ((fourth true).take 4)).toOption.map World.out = some [7, 6] ∧
    (run empty ((fourth false).take 4)).toOption.map World.out = some [7, 6] := by
  refine ⟨by decide, rfl, rfl, rfl, rfl, rfl⟩

/-- Reading an element: with a checked array the result is `stop` if and only if the index is outside, with an unchecked array it is undefined
then. Otherwise it is the element, if it has been given a value. -/
theorem C137_get (a : Arr T) (pos : Word) :
    a.get pos = if h : pos.val < a.data.length then
        match a.data[pos.val] with
        | some v => .ok v
        | none => .error .noValue
      else if a.checked then .error .stop else .error .outside := by
  by_cases h : pos.val < a.data.length
  · rw [dif_pos h, get_eq ⟨rfl, rfl⟩ h, Arr.load, List.getElem?_eq_getElem h]
    cases a.data[pos.val] <;> rfl
  · rw [dif_neg h]
    unfold Arr.get Arr.at' Arr.check Arr.element
    cases a.checked <;> simp [h, bind, Except.bind]

/-- Setting an element changes this element only; outside of the array a checked array stops the program. -/
theorem C137_set (a : Arr T) (pos : Word) (v : T) :
    a.set pos v = if pos.val < a.data.length then .ok ⟨a.checked, a.data.set pos.val (some v)⟩
      else if a.checked then .error .stop else .error .outside := by
  by_cases h : pos.val < a.data.length
  · rw [if_pos h, set_eq ⟨rfl, rfl⟩ h]
  · rw [if_neg h]
    unfold Arr.set Arr.at' Arr.check Arr.element
    cases a.checked <;> simp [h, bind, Except.bind]

/-- An `int` below 0 as index of a checked array of at most 2^63 elements always stops the program. -/
theorem C137_negative (a : Arr T) (hc : a.checked = true) (hl : a.data.length ≤ 2 ^ 63) (i : ℤ) (hi : -2 ^ 31 ≤ i) (hn : i < 0) :
    a.get (i : Word) = .error .stop := by
  have hv : ((i : Word).val : ℤ) = i + 2 ^ 64 := by
    rw [ZMod.val_intCast, show ((2 ^ 64 : ℕ) : ℤ) = 18446744073709551616 from rfl]
    omega
  rw [C137_get, dif_neg (by omega), if_pos hc]

example : (⟨true, [some 1, some 2]⟩ : Arr ℤ).get ((-1 : ℤ) : Word) = .error .stop := rfl

/-- The constructor with one value gives it to all elements. -/
theorem C137_one_value (checked : Bool) (n : ℕ) (v : T) : Arr.ofValue checked n v = .ok ⟨checked, List.replicate n (some v)⟩ := by
  unfold Arr.ofValue
  rw [setLoop (c := checked) (n := n) _ 0 (fun _ => v) n _ (is_new checked n) (by omega)
    fun i hi b hb => by rw [Nat.zero_add]; exact put_eq hb (by omega) v]
  simp [Arr.new]

/-- The constructors with two to ten values give them to the elements, in this order. -/
theorem C137_values (checked : Bool) (vs : List T) (h2 : 2 ≤ vs.length) (h10 : vs.length ≤ 10) :
    Arr.ofValues checked vs = .ok ⟨checked, vs.map some⟩ := by
  unfold Arr.ofValues
  rw [if_pos ⟨h2, h10⟩]
  have hz : vs.zipIdx = (List.range vs.length).map fun i => (vs.getD i vs[0], i) := by
    refine List.ext_getElem (by simp) fun i h1 h2 => ?_
    simp only [List.length_zipIdx] at h1
    simp [h1]
  rw [hz, List.foldlM_map]
  rw [setLoop (c := checked) (n := vs.length) _ 0 (fun i => vs.getD i vs[0]) vs.length _ (is_new checked _) (by omega)
    fun i hi b hb => by rw [Nat.zero_add]; exact put_eq hb hi _]
  rw [map_range_getD _ _ le_rfl]
  simp [Arr.new]

/-- A copy, with any policy, has the same elements. -/
theorem C137_copy (checked c : Bool) (vs : List T) (hl : vs.length < 2 ^ 64) :
    (⟨c, vs.map some⟩ : Arr T).convert checked = .ok ⟨checked, vs.map some⟩ := by
  unfold Arr.convert
  simp only [List.length_map]
  rcases vs with _ | ⟨v0, l⟩
  · rfl
  rw [setLoop (c := checked) (n := (v0 :: l).length) _ 0 (fun i => (v0 :: l).getD i v0) (v0 :: l).length _ (is_new checked _) (by omega)
    fun i hi b hb => by
      rw [get_eq ⟨rfl, rfl⟩ (by rw [val_cast (by omega)]; simpa using hi), val_cast (by omega), load_eq c _ hi]
      show b.put i _ = _
      rw [put_eq hb hi, Nat.zero_add, getD_of_lt _ _ hi]]
  rw [map_range_getD _ _ le_rfl, List.take_length]
  simp [Arr.new]

/-- `fill` gives the value to all elements, whether they had values or not. -/
theorem C137_fill (a : Arr T) (v : T) : a.fill v = .ok ⟨a.checked, List.replicate a.data.length (some v)⟩ := by
  unfold Arr.fill
  rw [setLoop (c := a.checked) (n := a.data.length) _ 0 (fun _ => v) a.data.length a ⟨rfl, rfl⟩ (by omega)
    fun i hi b hb => by rw [Nat.zero_add]; exact put_eq hb hi v]
  simp

/-- `fill` with an element of some array, which may be the array itself: all elements get the value the element had before. -/
theorem C137_fill_with_element (w : World T) (x y i : ℕ) (a b : Arr T) (v : T) (hx : w.arrays[x]? = some a) (hy : w.arrays[y]? = some b)
    (hv : b.data[i]? = some (some v)) :
    w.fillWith x y i = .ok (w.update x ⟨a.checked, List.replicate a.data.length (some v)⟩) := by
  have key : ∀ k ≤ a.data.length, (List.range k).foldlM (fun (w : World T) (j : ℕ) => do
      let b ← w.arr y
      let v ← b.load i
      let a ← w.arr x
      return w.update x (← a.put j v)) w =
      .ok (w.update x ⟨a.checked, List.replicate k (some v) ++ a.data.drop k⟩) := by
    intro k
    induction k with
    | zero =>
      intro _
      have : w.arrays.set x a = w.arrays := by
        rw [List.getElem?_eq_some_iff] at hx
        obtain ⟨h1, h2⟩ := hx
        rw [← h2, List.set_getElem_self]
      simp [World.update, this, pure, Except.pure]
    | succ k ih =>
      intro hk
      rw [List.range_succ, List.foldlM_append, ih (by omega)]
      have hxl : x < w.arrays.length := (List.getElem?_eq_some_iff.mp hx).1
      have hax : (w.update x ⟨a.checked, List.replicate k (some v) ++ a.data.drop k⟩).arr x =
          .ok ⟨a.checked, List.replicate k (some v) ++ a.data.drop k⟩ := by
        simp [World.arr, World.update, hxl]
      have hby : ∃ b', (w.update x ⟨a.checked, List.replicate k (some v) ++ a.data.drop k⟩).arr y = .ok b' ∧ b'.load i = .ok v := by
        by_cases e : y = x
        · subst e
          refine ⟨_, hax, ?_⟩
          have hab : a = b := by rw [hx] at hy; exact Option.some.inj hy
          subst hab
          have hil : i < a.data.length := (List.getElem?_eq_some_iff.mp hv).1
          unfold Arr.load
          by_cases hik : i < k
          · rw [List.getElem?_append_left (by simpa using hik), List.getElem?_replicate, if_pos hik]
          · rw [List.getElem?_append_right (by simpa using hik), List.length_replicate, List.getElem?_drop, Nat.add_sub_cancel' (by omega), hv]
        · refine ⟨b, ?_, ?_⟩
          · simp only [World.arr, World.update]
            rw [List.getElem?_set_ne (Ne.symm e), hy]
          · simp [Arr.load, hv]
      obtain ⟨b', h1, h2⟩ := hby
      have h3 := put_eq (c := a.checked) (n := a.data.length) (b := ⟨a.checked, List.replicate k (some v) ++ a.data.drop k⟩)
        ⟨rfl, by simp; omega⟩ (i := k) (by omega) v
      simp only [List.foldlM_cons, List.foldlM_nil, h1, h2, hax, h3, bind, Except.bind, pure, Except.pure]
      simp only [World.update, List.set_set]
      refine congrArg (fun d => Except.ok (⟨w.arrays.set x (⟨a.checked, d⟩ : Arr T), w.out⟩ : World T)) ?_
      rw [List.set_append_right _ _ (by simp), List.length_replicate, Nat.sub_self, List.drop_eq_getElem_cons (by omega),
        List.set_cons_zero, List.replicate_succ', List.append_assoc]
      rfl
  have hxa : w.arr x = .ok a := by simp [World.arr, hx]
  unfold World.fillWith
  rw [hxa]
  show (List.range a.data.length).foldlM _ w = _
  rw [key _ le_rfl, List.drop_length, List.append_nil]

example : (run empty [.ofValues true [(4 : ℤ), 5, 6], .fillWith 0 0 1]).toOption.map World.arrays =
    some [⟨true, [some 5, some 5, some 5]⟩] := rfl

/-- `project<k>()` gives the first `k` elements. -/
theorem C137_project (c : Bool) (vs : List T) (k : ℕ) (hk : k ≤ vs.length) (hl : vs.length < 2 ^ 64) :
    (⟨c, vs.map some⟩ : Arr T).project k = .ok ⟨c, (vs.take k).map some⟩ := by
  unfold Arr.project
  rw [if_pos (by simpa using hk)]
  rcases vs with _ | ⟨v0, l⟩
  · obtain rfl : k = 0 := by simpa using hk
    rfl
  show (List.range k).foldlM _ (Arr.new c k) = _
  rw [setLoop (c := c) (n := k) _ 0 (fun i => (v0 :: l).getD i v0) k _ (is_new c _) (by omega)
    fun i hi b hb => by
      rw [load_eq c _ (show i < (v0 :: l).length by omega)]
      show b.set _ _ = _
      rw [set_eq hb (by rw [val_cast (by omega)]; exact hi), val_cast (by omega), Nat.zero_add,
        getD_of_lt _ _ (show i < (v0 :: l).length by omega)]]
  rw [map_range_getD _ _ hk]
  simp [Arr.new]

/-- `projectDim(dim)` leaves out the element `dim`; if there is no such element a checked array stops the program, and an unchecked array
writes outside of the result. -/
theorem C137_projectDim (c : Bool) (vs : List T) (dim : Word) (h0 : vs ≠ []) (hl : vs.length < 2 ^ 64) :
    (⟨c, vs.map some⟩ : Arr T).projectDim dim = if dim.val < vs.length then .ok ⟨c, (vs.eraseIdx dim.val).map some⟩
      else if c then .error .stop else .error .outside := by
  obtain ⟨v0, l, rfl⟩ := List.exists_cons_of_ne_nil h0
  set vs := v0 :: l with hvs
  have hlen : vs.length = l.length + 1 := by simp [hvs]
  have load : ∀ i < vs.length, Arr.load ⟨c, vs.map some⟩ i = .ok (vs.getD i v0) := fun i hi => by
    rw [load_eq c _ hi, getD_of_lt _ _ hi]
  have first : ∀ k ≤ l.length, (List.range k).foldlM (fun (r : Arr T) (i : ℕ) => do r.set (i : Word) (← Arr.load ⟨c, vs.map some⟩ i))
      (Arr.new c l.length) = .ok ⟨c, (List.range k).map (fun i => some (vs.getD i v0)) ++ (List.replicate l.length none).drop k⟩ := by
    intro k hk
    rw [setLoop (c := c) (n := l.length) _ 0 (fun i => vs.getD i v0) k _ (is_new c _) (by omega) fun i hi b hb => by
      rw [load i (by omega)]
      show b.set _ _ = _
      rw [set_eq hb (by rw [val_cast (by omega)]; omega), val_cast (by omega), Nat.zero_add]]
    simp [Arr.new]
  unfold Arr.projectDim
  rw [if_neg (by simp [hvs])]
  show ((List.range dim.val).foldlM _ (Arr.new c ((vs.map some).length - 1)) >>= _) = _
  rw [List.length_map, hlen, Nat.add_sub_cancel]
  by_cases hd : dim.val < l.length + 1
  · have hd1 : (dim + 1).val = dim.val + 1 := by
      have : (1 : Word).val = 1 := rfl
      rw [ZMod.val_add_of_lt (by rw [this]; omega), this]
    rw [if_pos hd, first _ (by omega)]
    rw [ok_bind, hd1, Nat.add_sub_add_right, List.range'_eq_map_range, List.foldlM_map]
    rw [setLoop (c := c) (n := l.length) _ dim.val (fun i => vs.getD (dim.val + 1 + i) v0) (l.length - dim.val) _
      ⟨rfl, by simp; omega⟩ (by omega) fun i hi b hb => by
        rw [load _ (by omega)]
        show b.set _ _ = _
        have e : dim.val + 1 + i - 1 = dim.val + i := by omega
        rw [e, set_eq hb (by rw [val_cast (by omega)]; omega), val_cast (by omega)]]
    refine congrArg (fun d => Except.ok (⟨c, d⟩ : Arr T)) ?_
    have e1 : dim.val + (l.length - dim.val) = l.length := by omega
    rw [e1, List.take_left' (by simp)]
    rw [List.drop_eq_nil_of_le (by simp; omega), List.append_nil]
    refine List.ext_getElem (by simp [hlen, List.length_eraseIdx, hd]; omega) fun i h1 h2 => ?_
    have hi : i < l.length := by simp [hlen, List.length_eraseIdx, hd] at h2; omega
    rw [List.getElem_map, List.getElem_eraseIdx]
    by_cases hid : i < dim.val
    · rw [List.getElem_append_left (by simpa using hid), dif_pos hid]
      simp [List.getElem?_eq_getElem (show i < vs.length by omega)]
    · rw [List.getElem_append_right (by simpa using hid), dif_neg hid]
      have e : dim.val + 1 + (i - dim.val) = i + 1 := by omega
      simp [e, List.getElem?_eq_getElem (show i + 1 < vs.length by omega)]
  · rw [if_neg hd]
    obtain ⟨m, hm⟩ : ∃ m, dim.val = l.length + (m + 1) := ⟨dim.val - l.length - 1, by omega⟩
    have e : List.range dim.val = List.range l.length ++ (l.length :: List.range' (l.length + 1) m) := by
      rw [hm, List.range_eq_range', List.range_eq_range', ← List.range'_succ]
      simpa using (List.range'_append (s := 0) (m := l.length) (n := m + 1) (step := 1)).symm
    rw [e, List.foldlM_append, first _ le_rfl, ok_bind, List.foldlM_cons, load _ (by omega), ok_bind, C137_set, if_neg (by rw [val_cast (by omega)]; simp)]
    cases c <;> rfl

example : (⟨true, [some 4, some 5, some 6]⟩ : Arr ℤ).projectDim 1 = .ok ⟨true, [some 4, some 6]⟩ ∧
    (⟨true, [some 4, some 5, some 6]⟩ : Arr ℤ).projectDim 3 = .error .stop ∧
    (⟨false, [some 4, some 5, some 6]⟩ : Arr ℤ).projectDim 3 = .error .outside := ⟨rfl, rfl, rfl⟩

/-- `sum`, `product` and `sqr` go through all elements. -/
theorem C137_fold (c : Bool) (vs : List T) (hl : vs.length < 2 ^ 64) (f : T → T → T) (x : T) :
    (⟨c, vs.map some⟩ : Arr T).fold f x = .ok (vs.foldl f x) := by
  have key : ∀ k ≤ vs.length, (List.range k).foldlM
      (fun (s : T) (i : ℕ) => do return f s (← (⟨c, vs.map some⟩ : Arr T).get (i : Word))) x = .ok ((vs.take k).foldl f x) := by
    intro k
    induction k with
    | zero => intro _; rfl
    | succ k ih =>
      intro hk
      rw [List.range_succ, List.foldlM_append, ih (by omega), List.take_succ_eq_append_getElem (by omega), List.foldl_append]
      show (do return f _ (← (⟨c, vs.map some⟩ : Arr T).get (k : Word))) >>= _ = _
      rw [get_eq ⟨rfl, rfl⟩ (by rw [val_cast (by omega)]; simpa using hk), val_cast (by omega), load_eq c _ (by omega)]
      rfl
  unfold Arr.fold
  rw [List.length_map, key _ le_rfl, List.take_length]

/-- Assignment: the array gets the elements of the other one (which may be the array itself), nothing else changes. -/
theorem C137_assign (w : World T) (x y : ℕ) (a : Arr T) (c : Bool) (vs : List T) (hx : w.arrays[x]? = some a)
    (hy : w.arrays[y]? = some ⟨c, vs.map some⟩) (he : a.data.length = vs.length) (hl : vs.length < 2 ^ 64) :
    w.assign x y = .ok (w.update x ⟨a.checked, vs.map some⟩) := by
  have hxl : x < w.arrays.length := (List.getElem?_eq_some_iff.mp hx).1
  have key : ∀ k ≤ vs.length, (List.range k).foldlM (fun (w : World T) (i : ℕ) => do
      let b ← w.arr y
      let v ← b.get (i : Word)
      let a ← w.arr x
      return w.update x (← a.put i v)) w =
      .ok (w.update x ⟨a.checked, (vs.take k).map some ++ a.data.drop k⟩) := by
    intro k
    induction k with
    | zero =>
      intro _
      have : w.arrays.set x a = w.arrays := by
        rw [List.getElem?_eq_some_iff] at hx
        obtain ⟨h1, h2⟩ := hx
        rw [← h2, List.set_getElem_self]
      simp [World.update, this, pure, Except.pure]
    | succ k ih =>
      intro hk
      rw [List.range_succ, List.foldlM_append, ih (by omega)]
      have hax : (w.update x ⟨a.checked, (vs.take k).map some ++ a.data.drop k⟩).arr x =
          .ok ⟨a.checked, (vs.take k).map some ++ a.data.drop k⟩ := by
        simp [World.arr, World.update, hxl]
      have hby : ∃ b', (w.update x ⟨a.checked, (vs.take k).map some ++ a.data.drop k⟩).arr y = .ok b' ∧
          b'.get (k : Word) = .ok vs[k] := by
        by_cases e : y = x
        · subst e
          refine ⟨_, hax, ?_⟩
          have hab : a = ⟨c, vs.map some⟩ := by rw [hx] at hy; exact Option.some.inj hy
          subst hab
          rw [← List.map_drop, ← List.map_append, List.take_append_drop]
          rw [get_eq ⟨rfl, rfl⟩ (by rw [val_cast (by omega)]; simpa using hk), val_cast (by omega), load_eq c _ hk]
        · refine ⟨⟨c, vs.map some⟩, ?_, ?_⟩
          · simp only [World.arr, World.update]
            rw [List.getElem?_set_ne (Ne.symm e), hy]
          · rw [get_eq ⟨rfl, rfl⟩ (by rw [val_cast (by omega)]; simpa using hk), val_cast (by omega), load_eq c _ hk]
      obtain ⟨b', h1, h2⟩ := hby
      have h3 := put_eq (c := a.checked) (n := a.data.length) (b := ⟨a.checked, (vs.take k).map some ++ a.data.drop k⟩)
        ⟨rfl, by simp; omega⟩ (i := k) (by omega) vs[k]
      simp only [List.foldlM_cons, List.foldlM_nil, h1, h2, hax, h3, bind, Except.bind, pure, Except.pure]
      simp only [World.update, List.set_set]
      refine congrArg (fun d => Except.ok (⟨w.arrays.set x (⟨a.checked, d⟩ : Arr T), w.out⟩ : World T)) ?_
      have hkl : ((vs.take k).map some).length = k := by simp; omega
      rw [List.set_append_right _ _ (by omega), hkl, Nat.sub_self, List.drop_eq_getElem_cons (by omega), List.set_cons_zero,
        List.take_succ_eq_append_getElem (by omega), List.map_append, List.append_assoc]
      rfl
  have hxa : w.arr x = .ok a := by simp [World.arr, hx]
  have hya : w.arr y = .ok ⟨c, vs.map some⟩ := by simp [World.arr, hy]
  unfold World.assign
  rw [hxa, hya]
  show (if a.data.length ≠ (vs.map some).length then _ else _) = _
  rw [if_neg (by simp [he])]
  rw [he, key _ le_rfl, List.take_length, ← he, List.drop_length, List.append_nil]

/-- What the policy does not check: an array made without values has none, using an element is undefined even if it is checked. -/
theorem C137_no_values (checked : Bool) (n : ℕ) (pos : Word) (h : pos.val < n) :
    (Arr.new checked n : Arr T).get pos = .error .noValue := by
  rw [C137_get, dif_pos (by simpa [Arr.new] using h)]
  simp [Arr.new]

example : run empty [(.new true 3 : Op ℤ), .set 0 0 1, .get 0 0, .get 0 1] = .error .noValue := rfl

end Schnek.Props.ArrayObj
