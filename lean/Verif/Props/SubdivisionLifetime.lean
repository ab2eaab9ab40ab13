import Verif.Model.SubdivisionLifetime
import Mathlib.Data.List.Nodup
import Mathlib.Data.List.FinRange
import Mathlib.Tactic.Push

/-!
# The life of subdivision objects

C134
-/

namespace Schnek.Props.Lifetime

open Schnek.Lifetime Function

variable {n : ℕ}

/-- Histories for which the property holds: objects are not copied and not assigned, and `init` is called at most once for each. -/
def OpOk (h : Heap n) : Op n → Prop
  | .copy _ _ => False
  | .assign _ _ => False
  | .init a => ∀ ob, h.objs a = some ob → ∀ s, ob.ptr s = none
  | _ => True

/-- reachable states -/
inductive Reach : Heap n → Prop
  | empty : Reach Heap.empty
  | step {h h' : Heap n} {op : Op n} : Reach h → OpOk h op → Lifetime.step h op = .ok h' → Reach h'

/-- The object refers to this buffer or communicator. -/
def Owns (ob : Obj n) (k : Resource n) : Prop := ∃ s, ob.ptr s = some k

private theorem mem_slots (s : Slot n) : s ∈ slots n := by
  cases s <;> simp [slots]

private theorem nodup_slots : (slots n).Nodup := by
  rw [slots, List.nodup_append]
  refine ⟨?_, by simp, ?_⟩
  swap
  · intro a ha b hb
    simp only [List.mem_flatMap, List.mem_cons, List.not_mem_nil, or_false] at ha hb
    obtain ⟨i, -, rfl | rfl⟩ := ha <;> rw [hb] <;> simp
  rw [List.nodup_flatMap]
  refine ⟨by simp, ?_⟩
  refine (List.nodup_finRange n).imp ?_
  intro i j hij
  simp [Function.onFun, hij.symm]

private theorem free_all (ob : Obj n) (hinj : ∀ s t k, ob.ptr s = some k → ob.ptr t = some k → s = t) :
    ∀ (l : List (Slot n)) (live : Resource n → Bool), l.Nodup → (∀ s ∈ l, ∀ k, ob.ptr s = some k → live k = true) →
      ∃ live', l.foldlM (fun l s => free l (ob.ptr s)) live = .ok live' ∧
        ∀ k, live' k = true ↔ live k = true ∧ ¬ ∃ s ∈ l, ob.ptr s = some k := by
  intro l
  induction l with
  | nil => intro live _ _; exact ⟨live, rfl, by simp⟩
  | cons a l ih =>
    intro live hnd hl
    rw [List.nodup_cons] at hnd
    cases ha : ob.ptr a with
    | none =>
      obtain ⟨live', h1, h2⟩ := ih live hnd.2 fun s hs => hl s (by simp [hs])
      refine ⟨live', ?_, fun k => ?_⟩
      · rw [List.foldlM_cons]; simp only [free, ha]; exact h1
      · rw [h2]; simp [ha]
    | some r =>
      obtain ⟨live', h1, h2⟩ := ih (update live r false) hnd.2 (by
        intro s hs k hk
        have : k ≠ r := by
          rintro rfl
          exact hnd.1 (hinj s a k hk ha ▸ hs)
        rw [update_of_ne this]
        exact hl s (by simp [hs]) k hk)
      refine ⟨live', ?_, fun k => ?_⟩
      · rw [List.foldlM_cons]
        simp only [free, ha, hl a (by simp) r ha, if_true]
        exact h1
      · rw [h2]
        by_cases hk : k = r
        · subst hk; simp [ha]
        · rw [update_of_ne hk]
          simp [ha, Ne.symm hk]

private structure Inv (h : Heap n) : Prop where
  own : ∀ x ob s k, h.objs x = some ob → ob.ptr s = some k → h.live k = true ∧ k.call < h.calls ∧ k.slot = s
  all : ∀ x ob, h.objs x = some ob → ∀ s t k, ob.ptr s = some k → ∃ k', ob.ptr t = some k' ∧ k'.call = k.call
  disj : ∀ x y ox oy s t k k', h.objs x = some ox → h.objs y = some oy → ox.ptr s = some k → oy.ptr t = some k' →
    k.call = k'.call → x = y
  noleak : ∀ k, h.live k = true → ∃ x ob, h.objs x = some ob ∧ ob.ptr k.slot = some k

private theorem inv_destroy {h : Heap n} (hi : Inv h) (a : ℕ) (ob : Obj n) (ha : h.objs a = some ob) :
    ∃ h', step h (.destroy a) = .ok h' ∧ Inv h' := by
  have hinj : ∀ s t k, ob.ptr s = some k → ob.ptr t = some k → s = t := fun s t k h1 h2 =>
    (hi.own a ob s k ha h1).2.2.symm.trans (hi.own a ob t k ha h2).2.2
  obtain ⟨live', h1, h2⟩ := free_all ob hinj (slots n) h.live nodup_slots fun s _ k hk => (hi.own a ob s k ha hk).1
  refine ⟨{ h with objs := update h.objs a none, live := live' }, by simp only [step, ha, h1]; rfl, ?_⟩
  have hobj : ∀ x ox, update h.objs a none x = some ox → x ≠ a ∧ h.objs x = some ox := by
    intro x ox hx
    by_cases hxa : x = a
    · subst hxa; simp at hx
    · rw [update_of_ne hxa] at hx; exact ⟨hxa, hx⟩
  constructor
  · intro x ox s k hx hk
    obtain ⟨hxa, hx⟩ := hobj x ox hx
    obtain ⟨j1, j2, j3⟩ := hi.own x ox s k hx hk
    refine ⟨(h2 k).mpr ⟨j1, ?_⟩, j2, j3⟩
    rintro ⟨t, -, ht⟩
    exact hxa (hi.disj x a ox ob s t k k hx ha hk ht rfl)
  · intro x ox hx
    exact hi.all x ox (hobj x ox hx).2
  · intro x y ox oy s t k k' hx hy
    exact hi.disj x y ox oy s t k k' (hobj x ox hx).2 (hobj y oy hy).2
  · intro k hk
    obtain ⟨hk1, hk2⟩ := (h2 k).mp hk
    obtain ⟨x, ox, hx, hp⟩ := hi.noleak k hk1
    refine ⟨x, ox, ?_, hp⟩
    have : x ≠ a := by
      rintro rfl
      rw [ha] at hx; cases hx
      exact hk2 ⟨_, mem_slots _, hp⟩
    simp only
    rw [update_of_ne this, hx]

private theorem inv_step {h h' : Heap n} (hi : Inv h) {op : Op n} (hok : OpOk h op) (hs : step h op = .ok h') : Inv h' := by
  cases op with
  | copy a b => exact hok.elim
  | assign a b => exact hok.elim
  | construct a =>
    cases ha : h.objs a with
    | some _ => simp [step, ha] at hs
    | none =>
      simp only [step, ha] at hs
      cases hs
      have hobj : ∀ x ox, update h.objs a (some (⟨fun _ => none⟩ : Obj n)) x = some ox →
          (ox = ⟨fun _ => none⟩) ∨ h.objs x = some ox := by
        intro x ox hx
        by_cases hxa : x = a
        · subst hxa; simp at hx; exact .inl hx.symm
        · rw [update_of_ne hxa] at hx; exact .inr hx
      constructor
      · intro x ox s k hx hk
        rcases hobj x ox hx with rfl | hx
        · simp at hk
        · exact hi.own x ox s k hx hk
      · intro x ox hx s t k hk
        rcases hobj x ox hx with rfl | hx
        · simp at hk
        · exact hi.all x ox hx s t k hk
      · intro x y ox oy s t k k' hx hy hk hk'
        rcases hobj x ox hx with rfl | hx
        · simp at hk
        rcases hobj y oy hy with rfl | hy
        · simp at hk'
        exact hi.disj x y ox oy s t k k' hx hy hk hk'
      · intro k hk
        obtain ⟨x, ox, hx, hp⟩ := hi.noleak k hk
        refine ⟨x, ox, ?_, hp⟩
        have : x ≠ a := by rintro rfl; rw [ha] at hx; cases hx
        simp only
        rw [update_of_ne this, hx]
  | init a =>
    cases ha : h.objs a with
    | none => simp [step, ha] at hs
    | some oa =>
      simp only [step, ha] at hs
      cases hs
      have hoa := hok oa ha
      have hobj : ∀ x ox, update h.objs a (some (⟨fun s => some ⟨h.calls, s⟩⟩ : Obj n)) x = some ox →
          (x = a ∧ ox = ⟨fun s => some ⟨h.calls, s⟩⟩) ∨ (x ≠ a ∧ h.objs x = some ox) := by
        intro x ox hx
        by_cases hxa : x = a
        · subst hxa; simp at hx; exact .inl ⟨rfl, hx.symm⟩
        · rw [update_of_ne hxa] at hx; exact .inr ⟨hxa, hx⟩
      constructor
      · intro x ox s k hx hk
        rcases hobj x ox hx with ⟨rfl, rfl⟩ | ⟨_, hx⟩
        · simp at hk; subst hk; simp
        · obtain ⟨j1, j2, j3⟩ := hi.own x ox s k hx hk
          exact ⟨by simp [j1], by simp only; omega, j3⟩
      · intro x ox hx s t k hk
        rcases hobj x ox hx with ⟨rfl, rfl⟩ | ⟨_, hx⟩
        · simp at hk; subst hk; exact ⟨_, rfl, rfl⟩
        · exact hi.all x ox hx s t k hk
      · intro x y ox oy s t k k' hx hy hk hk' he
        rcases hobj x ox hx with ⟨rfl, rfl⟩ | ⟨_, hx'⟩ <;> rcases hobj y oy hy with ⟨rfl, rfl⟩ | ⟨_, hy'⟩
        · rfl
        · simp at hk; subst hk
          have := (hi.own y oy t k' hy' hk').2.1
          simp only at he; omega
        · simp at hk'; subst hk'
          have := (hi.own x ox s k hx' hk).2.1
          simp only at he; omega
        · exact hi.disj x y ox oy s t k k' hx' hy' hk hk' he
      · intro k hk
        by_cases hc : k.call = h.calls
        · refine ⟨a, _, update_self _ _ _, ?_⟩
          rw [← hc]
        · simp only [hc, if_false] at hk
          obtain ⟨x, ox, hx, hp⟩ := hi.noleak k hk
          have : x ≠ a := by
            rintro rfl
            rw [ha] at hx; cases hx
            rw [hoa] at hp; cases hp
          exact ⟨x, ox, by simp only; rw [update_of_ne this, hx], hp⟩
  | exchange a dim =>
    have : h' = h := by
      simp only [step] at hs
      split at hs
      · cases hs
      · split at hs
        · split at hs
          · cases hs; rfl
          · cases hs
        · cases hs
    subst this; exact hi
  | destroy a =>
    cases ha : h.objs a with
    | none => simp [step, ha] at hs
    | some ob =>
      obtain ⟨h'', h1, h2⟩ := inv_destroy hi a ob ha
      rw [h1] at hs; cases hs
      exact h2

private theorem inv_reach {h : Heap n} (hr : Reach h) : Inv h := by
  induction hr with
  | empty => constructor <;> simp [Heap.empty]
  | step _ hok hs ih => exact inv_step ih hok hs

/-- **C134** (for programs that do not copy or assign subdivision objects and initialise each at most once) Nothing is freed twice and
nothing is used after it has been freed: the only operations that fail are those on objects that do not exist or have not been
initialised. Missing: copies and repeated initialisation (below). -/
theorem C134_no_double_free_partial (h : Heap n) (hr : Reach h) (op : Op n) (hok : OpOk h op) (e : Err) (he : step h op = .error e) :
    e = .invalid := by
  have hi := inv_reach hr
  cases op with
  | copy a b => exact hok.elim
  | assign a b => exact hok.elim
  | construct a => cases ha : h.objs a <;> simp [step, ha] at he; exact he.symm
  | init a => cases ha : h.objs a <;> simp [step, ha] at he; exact he.symm
  | exchange a dim =>
    simp only [step] at he
    split at he
    · cases he; rfl
    · rename_i ob ha
      split at he
      · rename_i s r c h1 h2 h3
        simp [(hi.own a ob _ _ ha h1).1, (hi.own a ob _ _ ha h2).1, (hi.own a ob _ _ ha h3).1] at he
      · cases he; rfl
  | destroy a =>
    cases ha : h.objs a with
    | none => simp [step, ha] at he; exact he.symm
    | some ob =>
      obtain ⟨h', h1, -⟩ := inv_destroy hi a ob ha
      rw [h1] at he; cases he

/-- **C134** (for the same programs) Whatever has not been freed belongs to exactly one object, and an object has not lost what it needs. -/
theorem C134_owner_partial (h : Heap n) (hr : Reach h) :
    (∀ k, h.live k = true → ∃! x, ∃ ob, h.objs x = some ob ∧ Owns ob k) ∧
    ∀ x ob k, h.objs x = some ob → Owns ob k → h.live k = true := by
  have hi := inv_reach hr
  refine ⟨fun k hk => ?_, fun x ob k hx ⟨s, hs⟩ => (hi.own x ob s k hx hs).1⟩
  obtain ⟨x, ob, hx, hp⟩ := hi.noleak k hk
  refine ⟨x, ⟨ob, hx, _, hp⟩, ?_⟩
  rintro y ⟨oy, hy, t, ht⟩
  exact hi.disj y x oy ob t _ k k hy hx ht hp rfl

/-- **C134** (for the same programs) When all objects have been destroyed nothing is left. -/
theorem C134_no_leak_partial (h : Heap n) (hr : Reach h) (hd : ∀ x, h.objs x = none) (k : Resource n) : h.live k = false := by
  by_contra hk
  obtain ⟨x, ob, hx, -⟩ := (inv_reach hr).noleak k (by simpa using hk)
  rw [hd x] at hx; cases hx

/-- **C134** (for the same programs) An object that has been initialised can be used in every dimension until it is destroyed. -/
theorem C134_usable_partial (h : Heap n) (hr : Reach h) (a : ℕ) (dim : Fin n) (ob : Obj n) (ha : h.objs a = some ob)
    (hinit : ∃ k, Owns ob k) : step h (.exchange a dim) = .ok h := by
  have hi := inv_reach hr
  obtain ⟨k, s, hs⟩ := hinit
  obtain ⟨k1, h1, -⟩ := hi.all a ob ha s (.send dim) k hs
  obtain ⟨k2, h2, -⟩ := hi.all a ob ha s (.recv dim) k hs
  obtain ⟨k3, h3, -⟩ := hi.all a ob ha s .comm k hs
  simp [step, ha, h1, h2, h3, (hi.own a ob _ _ ha h1).1, (hi.own a ob _ _ ha h2).1, (hi.own a ob _ _ ha h3).1]

/-- **C134 is false for copies**: if an initialised object is copied and both are destroyed, the buffers are freed twice; if the original
is destroyed, the copy uses freed buffers. -/
theorem C134_violated_copy :
    ([Op.construct 1, .init 1, .copy 2 1, .destroy 1, .destroy 2].foldlM step (Heap.empty : Heap (n + 1)) = .error .doubleFree) ∧
    [Op.construct 1, .init 1, .copy 2 1, .destroy 1, .exchange 2 0].foldlM step (Heap.empty : Heap (n + 1)) = .error .dangling := by
  obtain ⟨live', h1, h2⟩ := free_all (⟨fun s => some ⟨0, s⟩⟩ : Obj (n + 1)) (fun s t k a b => by simp at a b; rw [← a] at b; simpa using b.symm)
    (slots (n + 1)) (fun k => if k.call = 0 then true else false) nodup_slots (fun s _ k hk => by simp at hk; simp [← hk])
  have hdead : ∀ s, live' ⟨0, s⟩ = false := by
    intro s
    by_contra hc
    exact ((h2 ⟨0, s⟩).mp (by simpa using hc)).2 ⟨s, mem_slots s, rfl⟩
  have hmid : [Op.construct 1, .init 1, .copy 2 1, .destroy 1].foldlM step (Heap.empty : Heap (n + 1)) =
      .ok ⟨update (update (update (update (fun _ => none) 1 (some ⟨fun _ => none⟩)) 1 (some ⟨fun s => some ⟨0, s⟩⟩)) 2
        (some ⟨fun s => some ⟨0, s⟩⟩)) 1 none, live', 1⟩ := by
    have : ∀ (h : Heap (n + 1)) (o : Obj (n + 1)), h.objs 1 = some o →
      step h (.destroy 1) = ((slots (n + 1)).foldlM (fun l s => free l (o.ptr s)) h.live).map fun l =>
        { h with objs := update h.objs 1 none, live := l } := by
      intro h o ho; simp only [step, ho]
    show step (⟨_, _, _⟩ : Heap (n + 1)) (.destroy 1) >>= (fun s => [].foldlM step s) = _
    rw [this _ ⟨fun s => some ⟨0, s⟩⟩ rfl]
    erw [h1]
    rfl
  constructor
  · show ([Op.construct 1, .init 1, .copy 2 1, .destroy 1] ++ [Op.destroy 2]).foldlM step _ = _
    rw [List.foldlM_append, hmid]
    show step _ (.destroy 2) >>= _ = _
    simp only [step, update, slots, List.finRange_succ, List.flatMap_cons, List.cons_append, List.foldlM_cons, free]
    simp [hdead]
    rfl
  · show ([Op.construct 1, .init 1, .copy 2 1, .destroy 1] ++ [Op.exchange 2 0]).foldlM step _ = _
    rw [List.foldlM_append, hmid]
    show step _ (.exchange 2 0) >>= _ = _
    simp [step, hdead]

/-- **C134 is false if an object is initialised again**: the communicator and the buffers of the first call are never freed. -/
theorem C134_violated_init_twice (s : Slot n) :
    ∃ h : Heap n, [Op.construct 1, .init 1, .init 1, .destroy 1].foldlM step Heap.empty = .ok h ∧ (∀ x, h.objs x = none) ∧
      h.live ⟨0, s⟩ = true := by
  obtain ⟨live', h1, h2⟩ := free_all (⟨fun s => some ⟨1, s⟩⟩ : Obj n) (fun s t k a b => by simp at a b; rw [← a] at b; simpa using b.symm)
    (slots n) (fun k => if k.call = 1 then true else if k.call = 0 then true else false) nodup_slots
    (fun s _ k hk => by simp at hk; simp [← hk])
  refine ⟨⟨update (update (update (update (fun _ => none) 1 (some ⟨fun _ => none⟩)) 1 (some ⟨fun s => some ⟨0, s⟩⟩)) 1
        (some ⟨fun s => some ⟨1, s⟩⟩)) 1 none, live', 2⟩, ?_, ?_, ?_⟩
  · have : ∀ (h : Heap n) (o : Obj n), h.objs 1 = some o →
      step h (.destroy 1) = ((slots n).foldlM (fun l s => free l (o.ptr s)) h.live).map fun l =>
        { h with objs := update h.objs 1 none, live := l } := by
      intro h o ho; simp only [step, ho]
    show step (⟨_, _, _⟩ : Heap n) (.destroy 1) >>= (fun s => [].foldlM step s) = _
    rw [this _ ⟨fun s => some ⟨1, s⟩⟩ rfl]
    erw [h1]
    rfl
  · intro x
    by_cases hx : x = 1
    · subst hx; simp
    · simp [update_of_ne hx]
  · rw [h2]
    exact ⟨by simp, by simp⟩

/-- two objects, the first of which has been initialised and used and destroyed -/
example : ∃ h : Heap 2, Reach h ∧ (h.objs 1).isNone ∧ (h.objs 2).isSome ∧ ∃ ob, h.objs 2 = some ob ∧ ∃ k, Owns ob k := by
  have i : ∀ (h : Heap 2), h.objs 1 = some ⟨fun _ => none⟩ → OpOk h (.init 1) := by
    intro h hh ob hob s; rw [hh] at hob; cases hob; rfl
  have j : ∀ (h : Heap 2), h.objs 2 = some ⟨fun _ => none⟩ → OpOk h (.init 2) := by
    intro h hh ob hob s; rw [hh] at hob; cases hob; rfl
  exact ⟨_, .step (op := .destroy 1) (.step (op := .exchange 1 1) (.step (op := .init 2) (.step (op := .init 1)
    (.step (op := .construct 2) (.step (op := .construct 1) .empty trivial rfl) trivial rfl) (i _ rfl) rfl) (j _ rfl) rfl)
    trivial rfl) trivial rfl, rfl, rfl, _, rfl, _, .comm, rfl⟩

end Schnek.Props.Lifetime
