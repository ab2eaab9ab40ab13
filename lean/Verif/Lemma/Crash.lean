import Verif.Model.Crash
import Verif.Spec.Crash
import Verif.Lemma.ParallelProgram

/-!
# Lemmas about processes that stop
-/

namespace Schnek.Lemma.Crash

open Schnek Schnek.Mpi Schnek.Spec Schnek.Lemma.MpiSchedule Schnek.Lemma.ParallelProgram Function

variable {P G T : Type} [DecidableEq P]

/-- `C` is `D`, except that messages of the processes in `dead` are missing. -/
structure Shadow (dead : Set P) (C D : Config P G T) : Prop where
  proc : C.proc = D.proc
  coll : C.coll = D.coll
  chan : ∀ a b, a ∉ dead → C.chan a b = D.chan a b
  lost : ∀ a b, C.chan a b <+: D.chan a b

theorem setChan_at (C : Config P G T) (p q a b : P) (l : List (List T)) :
    (C.setChan p q l).chan a b = if a = p ∧ b = q then l else C.chan a b := by
  simp only [Config.setChan]
  by_cases ha : a = p
  · subst ha
    by_cases hb : b = q
    · subst hb; simp
    · simp [hb]
  · simp [ha]

private theorem alive {dead : Set P} {C C' : Config P G T} {p : P} {q : Proc G T} (hd : ∀ x ∈ dead, C'.proc x = C.proc x)
    (h' : C'.proc = update C.proc p q) (hne : q ≠ C.proc p) : p ∉ dead := by
  intro hp
  have := hd p hp
  rw [h', update_self] at this
  exact hne this

/-- Nothing happens with processes that stop that could not happen without. -/
theorem crash_shadow {code : P → List (Instr P G T)} {buffered : P → ℕ → Bool} {begin : Config P G T} {dead : Set P} {C : Config P G T}
    {first : Set P} (h : CrashRun code buffered first begin dead C) : ∃ k D, Steps code buffered k begin D ∧ Shadow dead C D := by
  induction h with
  | start => exact ⟨0, _, .zero _, rfl, rfl, fun _ _ _ => rfl, fun _ _ => List.prefix_rfl⟩
  | crash p _ ih =>
    obtain ⟨k, D, h1, h2⟩ := ih
    exact ⟨k, D, h1, h2.proc, h2.coll, fun a b ha => h2.chan a b fun hm => ha (Set.mem_insert_of_mem _ hm), h2.lost⟩
  | @lose dead C p b l l' _ hp hl ih =>
    obtain ⟨k, D, h1, h2⟩ := ih
    refine ⟨k, D, h1, h2.proc, h2.coll, fun a c ha => ?_, fun a c => ?_⟩
    · rw [setChan_at, if_neg (by rintro ⟨rfl, -⟩; exact ha hp), h2.chan a c ha]
    · rw [setChan_at]
      split_ifs with hc
      · obtain ⟨rfl, rfl⟩ := hc
        exact (List.prefix_append l l').trans (hl ▸ h2.lost a c)
      · exact h2.lost a c
  | @step dead C C' _ hs hd ih =>
    obtain ⟨k, D, h1, h2⟩ := ih
    have hp := h2.proc
    cases hs with
    | @compute p f m hi hf =>
      rw [hp] at hi hf
      refine ⟨k + 1, _, .succ h1 (.compute hi hf), ?_, h2.coll, h2.chan, h2.lost⟩
      simp [Config.set, hp]
    | @post p dest source sc rc hi hpost hc =>
      have hnd : p ∉ dead := alive (C := C) (p := p) hd (q := { C.proc p with posted := true }) rfl (by
        intro he
        have := congrArg Proc.posted he
        simp only at this
        rw [hpost] at this
        cases this)
      rw [hp] at hi hpost hc
      refine ⟨k + 1, _, .succ h1 (.post hi hpost hc), by simp [Config.set, Config.setChan, hp], h2.coll, fun a b ha => ?_, fun a b => ?_⟩
      · rw [setChan_at, setChan_at]
        show (if _ then _ else C.chan a b) = if _ then _ else D.chan a b
        rw [h2.chan p dest hnd, h2.chan a b ha, hp]
      · rw [setChan_at, setChan_at]
        show (if _ then _ else C.chan a b) <+: if _ then _ else D.chan a b
        rw [h2.chan p dest hnd, hp]
        split_ifs
        · exact List.prefix_rfl
        · exact h2.lost a b
    | @receive p dest source sc rc m ms hi hr hm hc =>
      obtain ⟨t, ht⟩ := h2.lost source p
      rw [hm] at ht
      have hm' : D.chan source p = m :: (ms ++ t) := ht.symm
      rw [hp] at hi hr hc
      refine ⟨k + 1, _, .succ h1 (.receive hi hr hm' hc), by simp [Config.set, Config.setChan, hp], h2.coll, fun a b ha => ?_, fun a b => ?_⟩
      · rw [setChan_at, setChan_at]
        show (if _ then _ else C.chan a b) = if _ then _ else D.chan a b
        rw [h2.chan a b ha]
        split_ifs with hab
        · obtain ⟨rfl, rfl⟩ := hab
          have := h2.chan a b ha
          rw [hm, hm'] at this
          exact (List.cons.inj this).2
        · rfl
      · rw [setChan_at, setChan_at]
        show (if _ then _ else C.chan a b) <+: if _ then _ else D.chan a b
        split_ifs
        · exact List.prefix_append ms t
        · exact h2.lost a b
    | @complete p dest source sc rc hi hpost hr hb =>
      have hnd : p ∉ dead := alive (C := C) (p := p) hd (q := ⟨(C.proc p).mem, (C.proc p).pc + 1, false, false, (C.proc p).calls⟩) rfl (by
        intro he
        have := congrArg Proc.pc he
        simp at this)
      rw [h2.chan p dest hnd] at hb
      rw [hp] at hi hpost hr hb
      exact ⟨k + 1, _, .succ h1 (.complete hi hpost hr hb), by simp [Config.set, hp], h2.coll, h2.chan, h2.lost⟩
    | @enter p op hi hpost hc =>
      rw [hp] at hi hpost hc
      exact ⟨k + 1, _, .succ h1 (.enter hi hpost hc), by simp [Config.set, Config.setColl, hp],
        by simp [Config.set, Config.setColl, hp, h2.coll], h2.chan, h2.lost⟩
    | @leave p op x m hi hpost hx ho =>
      rw [hp] at hi hpost hx
      rw [h2.coll] at hx
      exact ⟨k + 1, _, .succ h1 (.leave hi hpost hx ho), by simp [Config.set, hp], h2.coll, h2.chan, h2.lost⟩

theorem crash_trans {code : P → List (Instr P G T)} {buffered : P → ℕ → Bool} {B C C' : Config P G T} {d₀ d d' : Set P}
    (h : CrashRun code buffered d₀ B d C) (h' : CrashRun code buffered d C d' C') : CrashRun code buffered d₀ B d' C' := by
  induction h' with
  | start => exact h
  | step _ hs hd ih => exact .step ih hs hd
  | crash p _ ih => exact .crash p ih
  | lose b _ hp hl ih => exact .lose b ih hp hl

/-- a process that has stopped stays where it is -/
theorem crash_stays {code : P → List (Instr P G T)} {buffered : P → ℕ → Bool} {C C' : Config P G T} {d d' : Set P}
    (h : CrashRun code buffered d C d' C') : d ⊆ d' ∧ ∀ q ∈ d, C'.proc q = C.proc q := by
  induction h with
  | start => exact ⟨subset_rfl, fun _ _ => rfl⟩
  | step _ hs hd ih => exact ⟨ih.1, fun q hq => (hd q (ih.1 hq)).trans (ih.2 q hq)⟩
  | crash p _ ih => exact ⟨ih.1.trans (Set.subset_insert ..), ih.2⟩
  | lose b _ hp hl ih => exact ⟨ih.1, ih.2⟩

theorem shadow_faulty {code : P → List (Instr P G T)} {dead : Set P} {C D : Config P G T} (h : Shadow dead C D) (hf : C.Faulty code) :
    D.Faulty code := by
  obtain ⟨p, hp⟩ := hf
  refine ⟨p, ?_⟩
  rw [h.proc, h.coll] at hp
  split at hp
  · assumption
  · rename_i source _ _ _
    rcases hp with hp | ⟨h1, m, ms, h2, h3⟩
    · exact Or.inl hp
    · obtain ⟨t, ht⟩ := h.lost source p
      rw [h2] at ht
      exact Or.inr ⟨h1, m, ms ++ t, ht.symm, h3⟩
  · assumption
  · exact hp

variable {is : List (P → Instr P G T)} {V : ℕ → P → Memory G T} {buffered : P → ℕ → Bool}

omit [DecidableEq P] in
theorem round_unique {i : P → Instr P G T} {W W₁ W₂ : P → Memory G T} (h : Round i W W₁) (h' : Round i W W₂) : W₁ = W₂ := by
  funext p
  cases h with
  | compute f hi h =>
    subst hi
    cases h' with
    | compute f' hi' h' =>
      have e := congrFun hi' p
      injection e with e
      have := (h p _).mpr rfl
      rw [e] at this
      exact (h' p _).mp this
    | sendrecv _ _ _ _ hi' => cases congrFun hi' p
    | allreduce _ _ hi' => cases congrFun hi' p
  | sendrecv d s sc rc hi hd hs hl hc hW =>
    subst hi hW
    cases h' with
    | compute f' hi' h' => cases congrFun hi' p
    | sendrecv d' s' sc' rc' hi' _ _ _ _ hW' =>
      subst hW'
      have e := congrFun hi' p
      injection e with e1 e2
      simp only [e2]
    | allreduce _ _ hi' => cases congrFun hi' p
  | allreduce op res hi hl h hW =>
    subst hi hW
    cases h' with
    | compute f' hi' h' => cases congrFun hi' p
    | sendrecv _ _ _ _ hi' => cases congrFun hi' p
    | allreduce op' res' hi' hl' h' hW' =>
      subst hW'
      have e := congrFun hi' p
      injection e with e
      have h1 := (h p _).mpr rfl
      rw [e] at h1
      have := (h' p _).mp h1
      simp only [this]

omit [DecidableEq P] in
/-- the history of a part of the instructions is part of the history -/
theorem rounds_unique {js : List (P → Instr P G T)} {V V' : ℕ → P → Memory G T} (h0 : V 0 = V' 0)
    (hV : ∀ k (hk : k < (is ++ js).length), Round (is ++ js)[k] (V k) (V (k + 1)))
    (hV' : ∀ k (hk : k < is.length), Round is[k] (V' k) (V' (k + 1))) : ∀ k ≤ is.length, V k = V' k
  | 0, _ => h0
  | k + 1, hk => by
    have ih := rounds_unique h0 hV hV' k (by omega)
    have h1 := hV k (by rw [List.length_append]; omega)
    have h2 := hV' k (by omega)
    rw [List.getElem_append_left (by omega), ih] at h1
    exact round_unique h1 h2

/-- the data of a process are those of the common history at its position, also during a call of MPI -/
theorem grid_at (hV : ∀ k (hk : k < is.length), Round is[k] (V k) (V (k + 1))) {C : Config P G T} (hC : Inv is V C) (p : P) :
    (C.proc p).mem.grid = (V (C.proc p).pc p).grid := by
  rw [hC.mem p, recvd]
  cases hr : (C.proc p).received with
  | false => rfl
  | true =>
    rcases hC.busy p (Or.inr hr) with ⟨d, hd⟩ | ⟨-, hf⟩
    · rcases Nat.lt_or_ge (C.proc p).pc is.length with hk | hk
      · rw [dst_of (List.getElem?_eq_getElem hk)] at hd
        have := hV _ hk
        show (V ((C.proc p).pc + 1) p).grid = _
        revert hd
        cases this with
        | compute f hi => rw [hi]; intro hd; cases hd
        | sendrecv _ _ _ _ _ _ _ _ _ hW => intro _; rw [hW]
        | allreduce _ _ hi => rw [hi]; intro hd; cases hd
      · rw [dst, List.getElem?_eq_none hk] at hd
        cases hd
    · rw [hr] at hf; cases hf

/-- nobody has left a collective operation that somebody has not entered -/
theorem coll_step {code : P → List (Instr P G T)} {C C' : Config P G T} (h : ∀ a q, (C.proc a).calls ≤ (C.coll q).length)
    (hs : Step code buffered C C') : ∀ a q, (C'.proc a).calls ≤ (C'.coll q).length := by
  have keep : ∀ (C' : Config P G T) (p : P) (r : Proc G T), C'.proc = update C.proc p r → r.calls = (C.proc p).calls → C'.coll = C.coll →
      ∀ a q, (C'.proc a).calls ≤ (C'.coll q).length := by
    intro C' p r h1 h2 h3 a q
    rw [h1, h3]
    by_cases ha : a = p
    · subst ha; rw [update_self, h2]; exact h a q
    · rw [update_of_ne ha]; exact h a q
  cases hs with
  | compute => exact keep _ _ _ rfl rfl rfl
  | post => exact keep _ _ _ rfl rfl rfl
  | receive => exact keep _ _ _ rfl rfl rfl
  | complete => exact keep _ _ _ rfl rfl rfl
  | @enter p op hi hpost hc =>
    intro a q
    have h1 : (((C.set p { C.proc p with posted := true }).setColl p (C.coll p ++ [(C.proc p).mem.send])).proc a).calls =
        (C.proc a).calls := by
      simp only [Config.set, Config.setColl]
      by_cases ha : a = p
      · subst ha; rw [update_self]
      · rw [update_of_ne ha]
    rw [h1]
    refine (h a q).trans ?_
    simp only [Config.set, Config.setColl]
    by_cases hq : q = p
    · subst hq; rw [update_self, List.length_append]; omega
    · rw [update_of_ne hq]
  | @leave p op x m hi hpost hx ho =>
    intro a q
    show (update C.proc p _ a).calls ≤ (C.coll q).length
    by_cases ha : a = p
    · subst ha
      rw [update_self]
      exact (List.getElem?_eq_some_iff.mp (hx q)).1
    · rw [update_of_ne ha]; exact h a q

theorem coll_steps {code : P → List (Instr P G T)} {k : ℕ} {W : P → Memory G T} {C : Config P G T}
    (hs : Steps code buffered k (Config.start W) C) : ∀ a q, (C.proc a).calls ≤ (C.coll q).length := by
  generalize hb : Config.start W = B at hs
  induction hs with
  | zero => subst hb; intro a q; exact Nat.zero_le _
  | succ _ h ih => exact coll_step (ih hb) h

/-- the positions of a process that has left a collective operation and of one that has not entered it do not occur together -/
theorem coll_first (hV : ∀ k (hk : k < is.length), Round is[k] (V k) (V (k + 1))) {C : Config P G T} (hC : Inv is V C)
    (hcoll : ∀ a q, (C.proc a).calls ≤ (C.coll q).length) {a q : P} {j : ℕ} (hj : j < (C.proc a).pc) (hcol : col is j a = true) :
    j < sent (C.proc q) := by
  by_contra hlt
  have hlt : sent (C.proc q) ≤ j := Nat.le_of_not_lt hlt
  have h1 := hcoll a q
  rw [hC.calls, hC.coll, List.length_map, ← colls_congr (a := a) (b := q) fun k _ => col_congr hV k a q] at h1
  have h2 : (colls (col is) a (sent (C.proc q))).length ≤ (colls (col is) a j).length := by
    have := colls_mono (col is) a hlt
    exact this
  have h3 := (List.getElem?_eq_some_iff.mp (colls_get hcol hj)).1
  omega
where
  colls_mono (D : ℕ → P → Bool) (a : P) {x y : ℕ} (h : x ≤ y) : (colls D a x).length ≤ (colls D a y).length := by
    obtain ⟨k, rfl⟩ := Nat.exists_eq_add_of_le h
    induction k with
    | zero => exact le_rfl
    | succ k ih =>
      rw [← Nat.add_assoc, colls_succ, List.length_append]
      exact (ih (Nat.le_add_right ..)).trans (Nat.le_add_right ..)

variable {n : ℕ} {S : Setup n} {X U F : Type}

omit [DecidableEq P] in
theorem target_on {X D : Type} (part : Part X G) (enc : T → D) (i : Instr P G T) : target (i.on part enc) = target i := by cases i <;> rfl

/-- Where a process needs something of another one there is a message or a collective operation; it is not the first instruction of the call. -/
theorem awaits_round [Add U] [LinearOrder F] (fresh : ℕ → List Buffer.Byte) (rnd : ℚ → ℚ) (call : Call S X U F) {c a : Coord S}
    (h : Awaits call c a) : ∃ k i, (roundsOf S fresh rnd call)[k + 1]? = some i ∧ (target (i a) = some c ∨ isColl (i c) = true) := by
  have lift : ∀ (grid : Part X (GridMap n U)) (l : List (Coord S → Instr (Coord S) (GridMap n U) U)) (first : Coord S → Instr (Coord S) X (Datum U F)) i,
      i ∈ l → target (i a) = some c →
      ∃ k j, (first :: l.map fun i p => (i p).on grid (Datum.value : U → Datum U F))[k + 1]? = some j ∧
        (target (j a) = some c ∨ isColl (j c) = true) := by
    intro grid l first i hi ht
    obtain ⟨k, hk, hik⟩ := List.mem_iff_getElem.mp hi
    refine ⟨k, fun p => (i p).on grid (Datum.value : U → Datum U F), ?_, Or.inl ?_⟩
    · rw [List.getElem?_cons_succ, List.getElem?_map, List.getElem?_eq_getElem hk, hik]
      rfl
    · show target ((i a).on grid (Datum.value : U → Datum U F)) = _
      rw [target_on]
      exact ht
  cases call with
  | compute => exact h.elim
  | exchange grid =>
    obtain ⟨d, rfl | rfl⟩ := h
    · exact lift grid _ _ (fun c => sendrecvInstr S d c (next S c d) (prev S c d))
        (List.mem_flatMap.mpr ⟨d, List.mem_finRange d, by simp [exchangeDimRounds]⟩) rfl
    · exact lift grid _ _ (fun c => sendrecvInstr S d c (prev S c d) (next S c d))
        (List.mem_flatMap.mpr ⟨d, List.mem_finRange d, by simp [exchangeDimRounds]⟩) rfl
  | accumulate grid =>
    obtain ⟨d, rfl | rfl⟩ := h
    · exact lift grid _ _ (fun c => sendrecvInstr S d c (next S c d) (prev S c d))
        (List.mem_flatMap.mpr ⟨d, List.mem_finRange d, by simp [accumulateDimRounds]⟩) rfl
    · exact lift grid _ _ (fun c => sendrecvInstr S d c (prev S c d) (next S c d))
        (List.mem_flatMap.mpr ⟨d, List.mem_finRange d, by simp [accumulateDimRounds]⟩) rfl
  | exchangeData dim o input output =>
    refine ⟨0, _, rfl, Or.inl ?_⟩
    have h : c = neighbour S dim o a := h
    rw [h]
    rfl
  | reduceInt => exact ⟨0, _, rfl, Or.inr rfl⟩
  | reduceDouble => exact ⟨0, _, rfl, Or.inr rfl⟩

theorem code_length [Add U] [LinearOrder F] (fresh : ℕ → List Buffer.Byte) (rnd : ℚ → ℚ) (program : List (Call S X U F)) (c : Coord S) :
    (programCode S fresh rnd program c).length = (program.flatMap (roundsOf S fresh rnd)).length := by
  rw [← codeOf_program, codeOf, List.length_map]

theorem safe_take [AddCommMonoid U] [LinearOrder F] : ∀ (program : List (Call S X U F)) (x : Coord S → X) (j : ℕ), Safe program x →
    Safe (program.take j) x
  | [], x, j, h => by rw [List.take_nil]; exact h
  | call :: rest, x, 0, h => trivial
  | call :: rest, x, j + 1, h => ⟨h.1, fun x' hx' => safe_take rest x' j (h.2 x' hx')⟩

end Schnek.Lemma.Crash
