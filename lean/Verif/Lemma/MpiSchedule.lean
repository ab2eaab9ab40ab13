import Verif.Model.MpiSchedule
import Mathlib.Data.Fintype.Basic
import Mathlib.Algebra.BigOperators.Group.Finset.Basic
import Mathlib.Algebra.Order.BigOperators.Group.Finset
import Mathlib.Data.Fintype.Lattice
import Mathlib.Data.Finset.Max

/-!
# Lemmas about processes at their own pace
-/

namespace Schnek.Lemma.MpiSchedule

open Schnek Schnek.Mpi Function

variable {P G T : Type}

/-- All processes execute these instructions together, one after the other, and nothing else can happen. -/
inductive Together : List (P → Instr P G T) → (P → Memory G T) → (P → Memory G T) → Prop
  | nil (W) : Together [] W W
  | compute {f : P → Memory G T → Memory G T → Prop} {is W W₁ W'} (h : ∀ p m, f p (W p) m ↔ m = W₁ p) (hr : Together is W₁ W') :
      Together ((fun p => .compute (f p)) :: is) W W'
  | sendrecv {dest source : P → P} {sc rc : P → G → ℤ} {is W W'}
      (hd : ∀ p, dest (source p) = p) (hs : ∀ p, source (dest p) = p) (hl : ∀ p, ((W p).send.length : ℤ) = sc p (W p).grid)
      (hc : ∀ p, ((W (source p)).send.length : ℤ) ≤ rc p (W p).grid)
      (hr : Together is (fun p => { W p with recv := (W (source p)).send }) W') :
      Together ((fun p => .sendrecv (dest p) (source p) (sc p) (rc p)) :: is) W W'
  | allreduce {op : P → (P → List T) → List T → Prop} {res : P → List T} {is W W'} (hl : ∀ p, (W p).send.length = 1)
      (h : ∀ p m, op p (fun q => (W q).send) m ↔ m = res p) (hr : Together is (fun p => { W p with recv := res p }) W') :
      Together ((fun p => .allreduce (op p)) :: is) W W'

theorem Together.append {is js : List (P → Instr P G T)} {W W₁ W' : P → Memory G T} (h : Together is W W₁) (h' : Together js W₁ W') :
    Together (is ++ js) W W' := by
  induction h with
  | nil => exact h'
  | compute h _ ih => exact .compute h (ih h')
  | sendrecv hd hs hl hc _ ih => exact .sendrecv hd hs hl hc (ih h')
  | allreduce hl h _ ih => exact .allreduce hl h (ih h')

/-- what happens in step `k` if all processes go together -/
inductive Round (i : P → Instr P G T) (W W' : P → Memory G T) : Prop
  | compute (f : P → Memory G T → Memory G T → Prop) (hi : i = fun p => .compute (f p)) (h : ∀ p m, f p (W p) m ↔ m = W' p)
  | sendrecv (dest source : P → P) (sc rc : P → G → ℤ) (hi : i = fun p => .sendrecv (dest p) (source p) (sc p) (rc p))
      (hd : ∀ p, dest (source p) = p) (hs : ∀ p, source (dest p) = p) (hl : ∀ p, ((W p).send.length : ℤ) = sc p (W p).grid)
      (hc : ∀ p, ((W (source p)).send.length : ℤ) ≤ rc p (W p).grid)
      (hW : W' = fun p => { W p with recv := (W (source p)).send })
  | allreduce (op : P → (P → List T) → List T → Prop) (res : P → List T) (hi : i = fun p => .allreduce (op p))
      (hl : ∀ p, (W p).send.length = 1) (h : ∀ p m, op p (fun q => (W q).send) m ↔ m = res p)
      (hW : W' = fun p => { W p with recv := res p })

theorem Together.rounds {is : List (P → Instr P G T)} {W W' : P → Memory G T} (h : Together is W W') :
    ∃ V : ℕ → P → Memory G T, V 0 = W ∧ V is.length = W' ∧ ∀ k (hk : k < is.length), Round is[k] (V k) (V (k + 1)) := by
  induction h with
  | nil W => exact ⟨fun _ => W, rfl, rfl, fun k hk => absurd hk (Nat.not_lt_zero _)⟩
  | @compute f is W W₁ W' h _ ih =>
    obtain ⟨V, h0, h1, h2⟩ := ih
    refine ⟨fun k => match k with | 0 => W | k + 1 => V k, rfl, h1, ?_⟩
    rintro (_ | k) hk
    · exact .compute f rfl (fun p m => by show _ ↔ m = V 0 p; rw [h0]; exact h p m)
    · exact h2 k (by simpa using hk)
  | @sendrecv dest source sc rc is W W' hd hs hl hc _ ih =>
    obtain ⟨V, h0, h1, h2⟩ := ih
    refine ⟨fun k => match k with | 0 => W | k + 1 => V k, rfl, h1, ?_⟩
    rintro (_ | k) hk
    · exact .sendrecv dest source sc rc rfl hd hs hl hc h0
    · exact h2 k (by simpa using hk)
  | @allreduce op res is W W' hl h _ ih =>
    obtain ⟨V, h0, h1, h2⟩ := ih
    refine ⟨fun k => match k with | 0 => W | k + 1 => V k, rfl, h1, ?_⟩
    rintro (_ | k) hk
    · exact .allreduce op res rfl hl h h0
    · exact h2 k (by simpa using hk)

/-- the receiver of the message of an instruction -/
def target : Instr P G T → Option P
  | .compute _ => none
  | .sendrecv d _ _ _ => some d
  | .allreduce _ => none

/-- the instruction is `MPI_Allreduce` -/
def isColl : Instr P G T → Bool
  | .allreduce _ => true
  | _ => false

/-- the instruction number `j` of `a` is `MPI_Allreduce` -/
def col (is : List (P → Instr P G T)) (j : ℕ) (a : P) : Bool := is[j]?.any fun i => isColl (i a)

/-- the numbers below `hi` of the collective operations of `a` -/
def colls (D : ℕ → P → Bool) (a : P) (hi : ℕ) : List ℕ := (List.range hi).filter fun j => D j a

theorem colls_succ (D : ℕ → P → Bool) (a : P) (hi : ℕ) : colls D a (hi + 1) = colls D a hi ++ if D hi a then [hi] else [] := by
  unfold colls
  rw [List.range_succ, List.filter_append]
  congr 1
  by_cases h : D hi a <;> simp [h]

theorem colls_skip {D : ℕ → P → Bool} {a : P} {hi : ℕ} (h : D hi a = false) : colls D a (hi + 1) = colls D a hi := by
  rw [colls_succ, h]
  simp

theorem colls_congr {D : ℕ → P → Bool} {a b : P} {hi : ℕ} (h : ∀ j < hi, D j a = D j b) : colls D a hi = colls D b hi :=
  List.filter_congr fun j hj => h j (List.mem_range.mp hj)

/-- the next operation after those below `lo` is `lo` itself -/
theorem colls_get {D : ℕ → P → Bool} {a : P} {lo : ℕ} (h : D lo a = true) :
    ∀ {hi : ℕ}, lo < hi → (colls D a hi)[(colls D a lo).length]? = some lo
  | 0, h0 => absurd h0 (Nat.not_lt_zero _)
  | hi + 1, h0 => by
    rw [colls_succ]
    rcases Nat.lt_or_ge lo hi with h1 | h1
    · have := colls_get h h1
      rw [List.getElem?_append_left (List.getElem?_eq_some_iff.mp this).1, this]
    · obtain rfl : lo = hi := by omega
      rw [if_pos h, List.getElem?_append_right le_rfl]
      simp

theorem colls_get_none {D : ℕ → P → Bool} {a : P} {lo : ℕ} : ∀ {hi : ℕ}, hi ≤ lo → (colls D a hi)[(colls D a lo).length]? = none := by
  intro hi h
  rw [List.getElem?_eq_none_iff]
  obtain ⟨k, rfl⟩ := Nat.exists_eq_add_of_le h
  induction k with
  | zero => exact le_rfl
  | succ k ih =>
    rw [← Nat.add_assoc, colls_succ, List.length_append]
    exact (ih (Nat.le_add_right ..)).trans (Nat.le_add_right ..)

/-- the receiver of the message that `a` sends in its instruction number `j` -/
def dst (is : List (P → Instr P G T)) (j : ℕ) (a : P) : Option P := is[j]?.bind fun i => target (i a)

variable [DecidableEq P]

/-- the numbers of the messages from `a` to `b` from `lo` on, below `hi` -/
def pending (D : ℕ → P → Option P) (a b : P) (lo hi : ℕ) : List ℕ := (List.range hi).filter fun j => decide (lo ≤ j ∧ D j a = some b)

variable {D : ℕ → P → Option P} {a b : P} {lo hi : ℕ}

theorem pending_succ : pending D a b lo (hi + 1) = pending D a b lo hi ++ if lo ≤ hi ∧ D hi a = some b then [hi] else [] := by
  unfold pending
  rw [List.range_succ, List.filter_append]
  congr 1
  by_cases h : lo ≤ hi ∧ D hi a = some b <;> simp [h]

theorem pending_nil (h : hi ≤ lo) : pending D a b lo hi = [] := by
  unfold pending
  rw [List.filter_eq_nil_iff]
  intro j hj
  rw [List.mem_range] at hj
  simp
  omega

theorem pending_skip (h : D lo a ≠ some b) : pending D a b lo hi = pending D a b (lo + 1) hi := by
  unfold pending
  refine List.filter_congr fun j _ => ?_
  rw [decide_eq_decide]
  constructor
  · rintro ⟨h1, h2⟩
    refine ⟨?_, h2⟩
    rcases Nat.lt_or_ge lo j with h3 | h3
    · exact h3
    · obtain rfl : j = lo := by omega
      exact (h h2).elim
  · rintro ⟨h1, h2⟩
    exact ⟨by omega, h2⟩

theorem pending_cons (h : D lo a = some b) : ∀ {hi}, lo < hi → pending D a b lo hi = lo :: pending D a b (lo + 1) hi
  | 0, h0 => absurd h0 (Nat.not_lt_zero _)
  | hi + 1, h0 => by
    rw [pending_succ, pending_succ]
    rcases Nat.lt_or_ge lo hi with h1 | h1
    · rw [pending_cons h h1, List.cons_append]
      congr 2
      by_cases h2 : D hi a = some b
      · rw [if_pos ⟨by omega, h2⟩, if_pos ⟨by omega, h2⟩]
      · rw [if_neg (by tauto), if_neg (by tauto)]
    · obtain rfl : lo = hi := by omega
      rw [pending_nil le_rfl, pending_nil (by omega), if_pos ⟨le_rfl, h⟩, if_neg (by omega)]
      rfl

theorem pending_all_nil (h : pending D a b lo hi = []) {j : ℕ} (h1 : lo ≤ j) (h2 : j < hi) : D j a ≠ some b := by
  intro hD
  have : j ∈ pending D a b lo hi := by
    unfold pending
    rw [List.mem_filter, List.mem_range]
    exact ⟨h2, by simpa using ⟨h1, hD⟩⟩
  rw [h] at this
  cases this

/-- the number of messages (and computations) a process has behind it as a sender -/
def sent (q : Proc G T) : ℕ := q.pc + q.posted.toNat

/-- the number of messages (and computations) a process has behind it as a receiver -/
def recvd (q : Proc G T) : ℕ := q.pc + q.received.toNat

/-- Each process is somewhere in the common history `V`, and the messages under way are those which have been sent but not
received in this history. -/
structure Inv (is : List (P → Instr P G T)) (V : ℕ → P → Memory G T) (C : Config P G T) : Prop where
  le : ∀ p, (C.proc p).pc ≤ is.length
  busy : ∀ p, (C.proc p).posted = true ∨ (C.proc p).received = true →
    (∃ d, dst is (C.proc p).pc p = some d) ∨ col is (C.proc p).pc p = true ∧ (C.proc p).received = false
  mem : ∀ p, (C.proc p).mem = V (recvd (C.proc p)) p
  first : ∀ a b j, j < recvd (C.proc b) → dst is j a = some b → j < sent (C.proc a)
  chan : ∀ a b, C.chan a b = (pending (dst is) a b (recvd (C.proc b)) (sent (C.proc a))).map
    fun j => (V j a).send
  coll : ∀ a, C.coll a = (colls (col is) a (sent (C.proc a))).map fun j => (V j a).send
  calls : ∀ a, (C.proc a).calls = (colls (col is) a (C.proc a).pc).length

variable {is : List (P → Instr P G T)} {V : ℕ → P → Memory G T} {buffered : P → ℕ → Bool}

theorem inv_start : Inv is V (Config.start (V 0)) where
  le _ := Nat.zero_le _
  busy _ h := by simp [Config.start] at h
  mem _ := rfl
  first _ _ _ h := by simp [Config.start, recvd] at h
  chan _ _ := rfl
  coll _ := rfl
  calls _ := rfl

/-- the instructions of a process -/
def codeOf (is : List (P → Instr P G T)) (p : P) : List (Instr P G T) := is.map fun i => i p

theorem codeOf_get (p : P) (k : ℕ) : (codeOf is p)[k]? = is[k]?.map fun i => i p := by
  simp [codeOf]

/-- the instruction a process executes is part of a round -/
theorem round_of (hV : ∀ k (hk : k < is.length), Round is[k] (V k) (V (k + 1))) {p : P} {k : ℕ} {i : Instr P G T}
    (h : (codeOf is p)[k]? = some i) : ∃ j, is[k]? = some j ∧ j p = i ∧ Round j (V k) (V (k + 1)) := by
  rw [codeOf_get, Option.map_eq_some_iff] at h
  obtain ⟨j, h1, h2⟩ := h
  obtain ⟨hk, h3⟩ := List.getElem?_eq_some_iff.mp h1
  exact ⟨j, h1, h2, h3 ▸ hV k hk⟩

theorem Round.send {i : P → Instr P G T} {W W' : P → Memory G T} (h : Round i W W') {p d : P} (hd : target (i p) = some d) :
    (W' p).send = (W p).send := by
  cases h with
  | compute f hi _ => subst hi; cases hd
  | sendrecv dest source sc rc hi _ _ _ _ hW => subst hW; rfl
  | allreduce op res hi => subst hi; cases hd

theorem dst_of {j : ℕ} {i : P → Instr P G T} (h : is[j]? = some i) (a : P) : dst is j a = target (i a) := by
  simp [dst, h]

theorem col_of {j : ℕ} {i : P → Instr P G T} (h : is[j]? = some i) (a : P) : col is j a = isColl (i a) := by
  simp [col, h]

/-- all processes are in `MPI_Allreduce` or none -/
theorem Round.isColl {i : P → Instr P G T} {W W' : P → Memory G T} (h : Round i W W') (a b : P) : isColl (i a) = isColl (i b) := by
  cases h with
  | compute f hi _ => subst hi; rfl
  | sendrecv dest source sc rc hi _ _ _ _ hW => subst hi; rfl
  | allreduce op res hi => subst hi; rfl

theorem col_congr (hV : ∀ k (hk : k < is.length), Round is[k] (V k) (V (k + 1))) (j : ℕ) (a b : P) : col is j a = col is j b := by
  rcases Nat.lt_or_ge j is.length with h | h
  · have hg : is[j]? = some is[j] := List.getElem?_eq_getElem h
    rw [col_of hg, col_of hg]
    exact (hV j h).isColl a b
  · simp [col, List.getElem?_eq_none h]

theorem Round.compute_of {i : P → Instr P G T} {W W' : P → Memory G T} (h : Round i W W') {p : P} {f} (hp : i p = .compute f) :
    (∀ m, f (W p) m ↔ m = W' p) ∧ ∀ a, target (i a) = none := by
  cases h with
  | compute f' hi h => subst hi; cases hp; exact ⟨h p, fun a => rfl⟩
  | sendrecv dest source sc rc hi => subst hi; cases hp
  | allreduce op res hi => subst hi; cases hp

theorem Round.sendrecv_of {i : P → Instr P G T} {W W' : P → Memory G T} (h : Round i W W') {p d s : P} {sc rc : G → ℤ}
    (hp : i p = .sendrecv d s sc rc) : target (i p) = some d ∧ target (i s) = some p ∧ (∀ a, target (i a) = some p → a = s) ∧
      (∃ d' sc' rc', i d = .sendrecv d' p sc' rc') ∧
      W' p = { W p with recv := (W s).send } ∧ ((W p).send.length : ℤ) = sc (W p).grid ∧ ((W s).send.length : ℤ) ≤ rc (W p).grid := by
  cases h with
  | compute f' hi h => subst hi; cases hp
  | sendrecv dest source sc rc hi hd hs hl hc hW =>
    subst hi hW
    cases hp
    refine ⟨rfl, by simp [target, hd], fun a ha => ?_, ⟨dest (dest p), sc (dest p), rc (dest p), by simp [hs]⟩, rfl, hl p, hc p⟩
    simp only [target, Option.some.injEq] at ha
    rw [← ha, hs]
  | allreduce op res hi => subst hi; cases hp

theorem Round.allreduce_of {i : P → Instr P G T} {W W' : P → Memory G T} (h : Round i W W') {p : P} {op}
    (hp : i p = .allreduce op) : (∀ a, target (i a) = none) ∧ (∀ a, Schnek.Lemma.MpiSchedule.isColl (i a) = true) ∧
      (∀ a, (W a).send.length = 1) ∧ (∀ a, (W' a).send = (W a).send) ∧
      ∃ r, (∀ m, op (fun q => (W q).send) m ↔ m = r) ∧ W' p = { W p with recv := r } := by
  cases h with
  | compute f' hi h => subst hi; cases hp
  | sendrecv dest source sc rc hi => subst hi; cases hp
  | allreduce op res hi hl h hW =>
    subst hi hW
    cases hp
    exact ⟨fun a => rfl, fun a => rfl, hl, fun a => rfl, res p, h p, rfl⟩

theorem set_self (C : Config P G T) (p : P) (q : Proc G T) : (C.set p q).proc p = q := update_self ..

theorem set_ne (C : Config P G T) {p a : P} (q : Proc G T) (h : a ≠ p) : (C.set p q).proc a = C.proc a := update_of_ne h ..

theorem coll_keep {C C' : Config P G T} (hC : Inv is V C) {p : P} {q : Proc G T} (h1 : C'.proc = update C.proc p q)
    (h2 : C'.coll = C.coll) (h3 : colls (col is) p (sent q) = colls (col is) p (sent (C.proc p))) (a : P) :
    C'.coll a = (colls (col is) a (sent (C'.proc a))).map fun j => (V j a).send := by
  rw [h1, h2, hC.coll]
  by_cases ha : a = p
  · subst ha; rw [update_self, h3]
  · rw [update_of_ne ha]

theorem calls_keep {C C' : Config P G T} (hC : Inv is V C) {p : P} {q : Proc G T} (h1 : C'.proc = update C.proc p q)
    (h3 : q.calls = (colls (col is) p q.pc).length) (a : P) :
    (C'.proc a).calls = (colls (col is) a (C'.proc a).pc).length := by
  rw [h1]
  by_cases ha : a = p
  · subst ha; rw [update_self, h3]
  · rw [update_of_ne ha]; exact hC.calls a

/-- what has been handed over to the collective operation `p` is in, if all have handed over something -/
theorem contributions (hV : ∀ k (hk : k < is.length), Round is[k] (V k) (V (k + 1))) {C : Config P G T} (hC : Inv is V C) {p : P}
    (hcol : col is (C.proc p).pc p = true) {x : P → List T} (hx : ∀ q, (C.coll q)[(C.proc p).calls]? = some (x q)) :
    x = fun q => (V (C.proc p).pc q).send := by
  funext q
  have h := hx q
  have hlen : (C.proc p).calls = (colls (col is) q (C.proc p).pc).length := by
    rw [hC.calls p, colls_congr fun j _ => col_congr hV j p q]
  rw [hC.coll, List.getElem?_map, hlen] at h
  rcases Nat.lt_or_ge (C.proc p).pc (sent (C.proc q)) with h' | h'
  · rw [colls_get (by rw [col_congr hV _ q p]; exact hcol) h'] at h
    exact (Option.some.inj h).symm
  · rw [colls_get_none h'] at h
    cases h

theorem inv_step (hV : ∀ k (hk : k < is.length), Round is[k] (V k) (V (k + 1))) {C C' : Config P G T} (hC : Inv is V C)
    (h : Step (codeOf is) buffered C C') : Inv is V C' := by
  cases h with
  | @compute p f m hi hf =>
    obtain ⟨i, h1, h2, h3⟩ := round_of hV hi
    obtain ⟨h4, h5⟩ := h3.compute_of h2
    have hlt := (List.getElem?_eq_some_iff.mp h1).1
    have hidle : (C.proc p).posted = false ∧ (C.proc p).received = false := by
      by_contra hh
      rcases hC.busy p (by cases h : (C.proc p).posted <;> cases h' : (C.proc p).received <;> simp_all) with ⟨d, hd⟩ | ⟨hd, -⟩
      · rw [dst_of h1, h5] at hd
        cases hd
      · rw [col_of h1, h2] at hd
        cases hd
    have hcol : col is (C.proc p).pc p = false := by rw [col_of h1, h2]; rfl
    have hs : sent (C.proc p) = (C.proc p).pc := by simp [sent, hidle]
    have hr : recvd (C.proc p) = (C.proc p).pc := by simp [recvd, hidle]
    have hm : m = V ((C.proc p).pc + 1) p := (h4 m).mp (by have := hC.mem p; rw [hr] at this; rwa [this] at hf)
    have hD : ∀ a, dst is (C.proc p).pc a = none := fun a => by rw [dst_of h1, h5]
    set q : Proc G T := ⟨m, (C.proc p).pc + 1, false, false, (C.proc p).calls⟩ with hq
    have hs' : sent q = sent (C.proc p) + 1 := by rw [hs]; rfl
    have hr' : recvd q = recvd (C.proc p) + 1 := by rw [hr]; rfl
    have hpend : ∀ a b, pending (dst is) a b (recvd ((C.set p q).proc b)) (sent ((C.set p q).proc a)) =
        pending (dst is) a b (recvd (C.proc b)) (sent (C.proc a)) := by
      intro a b
      have e1 : ∀ l, pending (dst is) a b l (sent ((C.set p q).proc a)) = pending (dst is) a b l (sent (C.proc a)) := by
        intro l
        by_cases ha : a = p
        · subst ha
          rw [set_self, hs', pending_succ, if_neg, List.append_nil]
          rw [hs, hD]
          simp
        · rw [set_ne _ _ ha]
      rw [e1]
      by_cases hb : b = p
      · subst hb
        rw [set_self, hr', ← pending_skip]
        rw [hr, hD]
        simp
      · rw [set_ne _ _ hb]
    refine ⟨fun a => ?_, fun a ha => ?_, fun a => ?_, fun a b j hj hd => ?_, fun a b => ?_,
      coll_keep hC rfl rfl (by rw [hs', hs, colls_skip hcol]), calls_keep hC rfl (by show _ = (colls _ _ ((C.proc p).pc + 1)).length; rw [colls_skip hcol]; exact hC.calls p)⟩
    · by_cases ha : a = p
      · subst ha; rw [set_self]; exact hlt
      · rw [set_ne _ _ ha]; exact hC.le a
    · by_cases hap : a = p
      · subst hap; rw [set_self] at ha; simp [hq] at ha
      · rw [set_ne _ _ hap] at ha ⊢; exact hC.busy a ha
    · by_cases hap : a = p
      · subst hap; rw [set_self, hr', hr]; exact hm
      · rw [set_ne _ _ hap]; exact hC.mem a
    · have hj' : j < recvd (C.proc b) := by
        by_cases hb : b = p
        · subst hb
          rw [set_self, hr'] at hj
          rcases Nat.lt_or_ge j (recvd (C.proc b)) with h | h
          · exact h
          · obtain rfl : j = (C.proc b).pc := by omega
            rw [hD] at hd
            cases hd
        · rwa [set_ne _ _ hb] at hj
      have := hC.first a b j hj' hd
      by_cases ha : a = p
      · subst ha; rw [set_self, hs']; omega
      · rw [set_ne _ _ ha]; exact this
    · rw [hpend]; exact hC.chan a b
  | @post p dest source sc rc hi hp hc =>
    obtain ⟨i, h1, h2, h3⟩ := round_of hV hi
    obtain ⟨h4, h5, h6, ⟨d', sc', rc', h7⟩, h8, h9, h10⟩ := h3.sendrecv_of h2
    have hlt := (List.getElem?_eq_some_iff.mp h1).1
    have hcol : col is (C.proc p).pc p = false := by rw [col_of h1, h2]; rfl
    have hD : dst is (C.proc p).pc p = some dest := by rw [dst_of h1, h4]
    have hs : sent (C.proc p) = (C.proc p).pc := by simp [sent, hp]
    set q : Proc G T := { C.proc p with posted := true } with hq
    have hs' : sent q = sent (C.proc p) + 1 := by rw [hs]; rfl
    have hr' : recvd q = recvd (C.proc p) := rfl
    have hset : ∀ a, recvd ((C.set p q).proc a) = recvd (C.proc a) := fun a => by
      by_cases ha : a = p
      · subst ha; rw [set_self, hr']
      · rw [set_ne _ _ ha]
    have hnot : recvd (C.proc dest) ≤ (C.proc p).pc := by
      by_contra hh
      have := hC.first p dest (C.proc p).pc (by omega) hD
      omega
    have hsend : (C.proc p).mem.send = (V (C.proc p).pc p).send := by
      rw [hC.mem p]
      unfold recvd
      cases (C.proc p).received
      · rfl
      · exact h3.send h4
    refine ⟨fun a => ?_, fun a ha => ?_, fun a => ?_, fun a b j hj hd => ?_, fun a b => ?_,
      coll_keep hC rfl rfl (by rw [hs', hs, colls_skip hcol]), calls_keep hC rfl (hC.calls p)⟩
    · show ((C.set p q).proc a).pc ≤ _
      by_cases ha : a = p
      · subst ha; rw [set_self]; exact hlt.le
      · rw [set_ne _ _ ha]; exact hC.le a
    · show (∃ d, dst is ((C.set p q).proc a).pc a = some d) ∨ col is ((C.set p q).proc a).pc a = true ∧ ((C.set p q).proc a).received = false
      by_cases hap : a = p
      · subst hap; rw [set_self]; exact Or.inl ⟨dest, hD⟩
      · have ha' : ((C.set p q).proc a).posted = true ∨ ((C.set p q).proc a).received = true := ha
        rw [set_ne _ _ hap] at ha' ⊢; exact hC.busy a ha'
    · show ((C.set p q).proc a).mem = V (recvd ((C.set p q).proc a)) a
      rw [hset]
      by_cases hap : a = p
      · subst hap; rw [set_self]; exact hC.mem a
      · rw [set_ne _ _ hap]; exact hC.mem a
    · have hj : j < recvd ((C.set p q).proc b) := hj
      show j < sent ((C.set p q).proc a)
      rw [hset] at hj
      have := hC.first a b j hj hd
      by_cases ha : a = p
      · subst ha; rw [set_self, hs']; omega
      · rw [set_ne _ _ ha]; exact this
    · show update C.chan p (update (C.chan p) dest (C.chan p dest ++ [(C.proc p).mem.send])) a b =
        (pending (dst is) a b (recvd ((C.set p q).proc b)) (sent ((C.set p q).proc a))).map fun j => (V j a).send
      rw [hset]
      by_cases ha : a = p
      · subst ha
        rw [update_self, set_self, hs', pending_succ, hs]
        by_cases hb : b = dest
        · subst hb
          rw [update_self, if_pos ⟨hnot, hD⟩, List.map_append, hC.chan, hs, hsend]
          rfl
        · rw [update_of_ne hb, if_neg, List.append_nil, hC.chan, hs]
          rw [hD]
          rintro ⟨-, h⟩
          exact hb (Option.some.inj h).symm
      · rw [update_of_ne ha, set_ne _ _ ha, hC.chan]
  | @receive p dest source sc rc m ms hi hr hm hc =>
    obtain ⟨i, h1, h2, h3⟩ := round_of hV hi
    obtain ⟨h4, h5, h6, ⟨d', sc', rc', h7⟩, h8, h9, h10⟩ := h3.sendrecv_of h2
    have hlt := (List.getElem?_eq_some_iff.mp h1).1
    have hcol : col is (C.proc p).pc p = false := by rw [col_of h1, h2]; rfl
    have hD : dst is (C.proc p).pc p = some dest := by rw [dst_of h1, h4]
    have hDs : dst is (C.proc p).pc source = some p := by rw [dst_of h1, h5]
    have hDo : ∀ a, dst is (C.proc p).pc a = some p → a = source := fun a ha => h6 a (by rwa [dst_of h1] at ha)
    have hr0 : recvd (C.proc p) = (C.proc p).pc := by simp [recvd, hr]
    have hsrc : (C.proc p).pc < sent (C.proc source) := by
      by_contra hh
      have := hC.chan source p
      rw [hr0, pending_nil (by omega), hm] at this
      cases this
    have hmsg : m = (V (C.proc p).pc source).send ∧
        ms = (pending (dst is) source p ((C.proc p).pc + 1) (sent (C.proc source))).map fun j => (V j source).send := by
      have := hC.chan source p
      rw [hr0, pending_cons hDs hsrc, hm, List.map_cons] at this
      exact List.cons.inj this
    set q : Proc G T := { C.proc p with mem := { (C.proc p).mem with recv := m }, received := true } with hq
    have hs' : sent q = sent (C.proc p) := rfl
    have hr' : recvd q = recvd (C.proc p) + 1 := by rw [hr0]; rfl
    have hset : ∀ a, sent ((C.set p q).proc a) = sent (C.proc a) := fun a => by
      by_cases ha : a = p
      · subst ha; rw [set_self, hs']
      · rw [set_ne _ _ ha]
    refine ⟨fun a => ?_, fun a ha => ?_, fun a => ?_, fun a b j hj hd => ?_, fun a b => ?_,
      coll_keep hC rfl rfl rfl, calls_keep hC rfl (hC.calls p)⟩
    · show ((C.set p q).proc a).pc ≤ _
      by_cases ha : a = p
      · subst ha; rw [set_self]; exact hlt.le
      · rw [set_ne _ _ ha]; exact hC.le a
    · show (∃ d, dst is ((C.set p q).proc a).pc a = some d) ∨ col is ((C.set p q).proc a).pc a = true ∧ ((C.set p q).proc a).received = false
      by_cases hap : a = p
      · subst hap; rw [set_self]; exact Or.inl ⟨dest, hD⟩
      · have ha' : ((C.set p q).proc a).posted = true ∨ ((C.set p q).proc a).received = true := ha
        rw [set_ne _ _ hap] at ha' ⊢; exact hC.busy a ha'
    · show ((C.set p q).proc a).mem = V (recvd ((C.set p q).proc a)) a
      by_cases hap : a = p
      · subst hap
        rw [set_self, hr', hr0, h8, hq]
        have := hC.mem a
        rw [hr0] at this
        simp only [this, hmsg.1]
      · rw [set_ne _ _ hap]; exact hC.mem a
    · have hj : j < recvd ((C.set p q).proc b) := hj
      show j < sent ((C.set p q).proc a)
      rw [hset]
      by_cases hb : b = p
      · subst hb
        rw [set_self, hr'] at hj
        rcases Nat.lt_or_ge j (recvd (C.proc b)) with h | h
        · exact hC.first a b j h hd
        · obtain rfl : j = (C.proc b).pc := by omega
          rw [hDo a hd]
          exact hsrc
      · rw [set_ne _ _ hb] at hj
        exact hC.first a b j hj hd
    · show update C.chan source (update (C.chan source) p ms) a b =
        (pending (dst is) a b (recvd ((C.set p q).proc b)) (sent ((C.set p q).proc a))).map fun j => (V j a).send
      rw [hset]
      by_cases hb : b = p
      · subst hb
        rw [set_self, hr', hr0]
        by_cases ha : a = source
        · subst ha
          rw [update_self, update_self, hmsg.2]
        · rw [update_of_ne ha, hC.chan, hr0, pending_skip]
          exact fun h => ha (hDo a h)
      · rw [set_ne _ _ hb]
        by_cases ha : a = source
        · subst ha
          rw [update_self, update_of_ne hb, hC.chan]
        · rw [update_of_ne ha, hC.chan]
  | @complete p dest source sc rc hi hp hr hb =>
    obtain ⟨i, h1, h2, -⟩ := round_of hV hi
    have hlt := (List.getElem?_eq_some_iff.mp h1).1
    have hcol : col is (C.proc p).pc p = false := by rw [col_of h1, h2]; rfl
    set q : Proc G T := ⟨(C.proc p).mem, (C.proc p).pc + 1, false, false, (C.proc p).calls⟩ with hq
    have hs : ∀ a, sent ((C.set p q).proc a) = sent (C.proc a) := fun a => by
      by_cases ha : a = p
      · subst ha; rw [set_self]; simp [sent, hp, hq]
      · rw [set_ne _ _ ha]
    have hr : ∀ a, recvd ((C.set p q).proc a) = recvd (C.proc a) := fun a => by
      by_cases ha : a = p
      · subst ha; rw [set_self]; simp [recvd, hr, hq]
      · rw [set_ne _ _ ha]
    refine ⟨fun a => ?_, fun a ha => ?_, fun a => ?_, fun a b j hj hd => ?_, fun a b => ?_,
      coll_keep hC rfl rfl (by rw [show sent q = sent (C.proc p) by simp [sent, hp, hq]]), calls_keep hC rfl (by show _ = (colls _ _ ((C.proc p).pc + 1)).length; rw [colls_skip hcol]; exact hC.calls p)⟩
    · by_cases ha : a = p
      · subst ha; rw [set_self]; exact hlt
      · rw [set_ne _ _ ha]; exact hC.le a
    · by_cases hap : a = p
      · subst hap; rw [set_self] at ha; simp [hq] at ha
      · rw [set_ne _ _ hap] at ha ⊢; exact hC.busy a ha
    · rw [hr]
      by_cases hap : a = p
      · subst hap; rw [set_self]; exact hC.mem a
      · rw [set_ne _ _ hap]; exact hC.mem a
    · rw [hs]
      rw [hr] at hj
      exact hC.first a b j hj hd
    · rw [hs, hr]
      exact hC.chan a b
  | @enter p op hi hp hc =>
    obtain ⟨i, h1, h2, h3⟩ := round_of hV hi
    obtain ⟨h4, h5, h6, h7, r, h8, h9⟩ := h3.allreduce_of h2
    have hlt := (List.getElem?_eq_some_iff.mp h1).1
    have hcol : col is (C.proc p).pc p = true := by rw [col_of h1, h5]
    have hD : ∀ a, dst is (C.proc p).pc a = none := fun a => by rw [dst_of h1, h4]
    have hs : sent (C.proc p) = (C.proc p).pc := by simp [sent, hp]
    have hrf : (C.proc p).received = false := by
      by_contra hh
      rcases hC.busy p (Or.inr (by simpa using hh)) with ⟨d, hd⟩ | ⟨-, hd⟩
      · rw [hD] at hd; cases hd
      · exact hh hd
    have hmem : (C.proc p).mem = V (C.proc p).pc p := by have := hC.mem p; rwa [recvd, hrf] at this
    set q : Proc G T := { C.proc p with posted := true } with hq
    have hs' : sent q = sent (C.proc p) + 1 := by rw [hs]; rfl
    have hset : ∀ a, recvd ((C.set p q).proc a) = recvd (C.proc a) := fun a => by
      by_cases ha : a = p
      · subst ha; rw [set_self]; rfl
      · rw [set_ne _ _ ha]
    refine ⟨fun a => ?_, fun a ha => ?_, fun a => ?_, fun a b j hj hd => ?_, fun a b => ?_, fun a => ?_, calls_keep hC rfl (hC.calls p)⟩
    · show ((C.set p q).proc a).pc ≤ _
      by_cases ha : a = p
      · subst ha; rw [set_self]; exact hlt.le
      · rw [set_ne _ _ ha]; exact hC.le a
    · show (∃ d, dst is ((C.set p q).proc a).pc a = some d) ∨ col is ((C.set p q).proc a).pc a = true ∧ ((C.set p q).proc a).received = false
      by_cases hap : a = p
      · subst hap; rw [set_self]; exact Or.inr ⟨hcol, hrf⟩
      · have ha' : ((C.set p q).proc a).posted = true ∨ ((C.set p q).proc a).received = true := ha
        rw [set_ne _ _ hap] at ha' ⊢; exact hC.busy a ha'
    · show ((C.set p q).proc a).mem = V (recvd ((C.set p q).proc a)) a
      rw [hset]
      by_cases hap : a = p
      · subst hap; rw [set_self]; exact hC.mem a
      · rw [set_ne _ _ hap]; exact hC.mem a
    · have hj : j < recvd ((C.set p q).proc b) := hj
      show j < sent ((C.set p q).proc a)
      rw [hset] at hj
      have := hC.first a b j hj hd
      by_cases ha : a = p
      · subst ha; rw [set_self, hs']; omega
      · rw [set_ne _ _ ha]; exact this
    · show C.chan a b = (pending (dst is) a b (recvd ((C.set p q).proc b)) (sent ((C.set p q).proc a))).map fun j => (V j a).send
      rw [hset]
      by_cases ha : a = p
      · subst ha
        rw [set_self, hs', pending_succ, if_neg, List.append_nil]
        · exact hC.chan a b
        · rw [hs, hD]; simp
      · rw [set_ne _ _ ha, hC.chan]
    · show update C.coll p (C.coll p ++ [(C.proc p).mem.send]) a = (colls (col is) a (sent ((C.set p q).proc a))).map fun j => (V j a).send
      by_cases ha : a = p
      · subst ha
        rw [update_self, set_self, hs', hs, colls_succ, hcol, hC.coll, hs, hmem]
        simp
      · rw [update_of_ne ha, set_ne _ _ ha]; exact hC.coll a
  | @leave p op x m hi hp hx ho =>
    obtain ⟨i, h1, h2, h3⟩ := round_of hV hi
    obtain ⟨h4, h5, h6, h7, r, h8, h9⟩ := h3.allreduce_of h2
    have hlt := (List.getElem?_eq_some_iff.mp h1).1
    have hcol : ∀ a, col is (C.proc p).pc a = true := fun a => by rw [col_of h1, h5]
    have hD : ∀ a, dst is (C.proc p).pc a = none := fun a => by rw [dst_of h1, h4]
    have hrf : (C.proc p).received = false := by
      by_contra hh
      rcases hC.busy p (Or.inr (by simpa using hh)) with ⟨d, hd⟩ | ⟨-, hd⟩
      · rw [hD] at hd; cases hd
      · exact hh hd
    have hr : recvd (C.proc p) = (C.proc p).pc := by simp [recvd, hrf]
    have hmem : (C.proc p).mem = V (C.proc p).pc p := by have := hC.mem p; rwa [hr] at this
    have hxe := contributions hV hC (hcol p) hx
    rw [hxe, h8] at ho
    set q : Proc G T := ⟨{ (C.proc p).mem with recv := m }, (C.proc p).pc + 1, false, false, (C.proc p).calls + 1⟩ with hq
    have hsq : sent q = sent (C.proc p) := by simp [sent, hp, hq]
    have hs : ∀ a, sent ((C.set p q).proc a) = sent (C.proc a) := fun a => by
      by_cases ha : a = p
      · subst ha; rw [set_self, hsq]
      · rw [set_ne _ _ ha]
    have hr' : recvd q = recvd (C.proc p) + 1 := by rw [hr]; rfl
    refine ⟨fun a => ?_, fun a ha => ?_, fun a => ?_, fun a b j hj hd => ?_, fun a b => ?_,
      coll_keep hC rfl rfl (by rw [hsq]), calls_keep hC rfl ?_⟩
    · by_cases ha : a = p
      · subst ha; rw [set_self]; exact hlt
      · rw [set_ne _ _ ha]; exact hC.le a
    · by_cases hap : a = p
      · subst hap; rw [set_self] at ha; simp [hq] at ha
      · rw [set_ne _ _ hap] at ha ⊢; exact hC.busy a ha
    · by_cases hap : a = p
      · subst hap; rw [set_self, hr', hr, h9, hq, ho, hmem]
      · rw [set_ne _ _ hap]; exact hC.mem a
    · rw [hs]
      by_cases hb : b = p
      · subst hb
        rw [set_self, hr'] at hj
        rcases Nat.lt_or_ge j (recvd (C.proc b)) with h | h
        · exact hC.first a b j h hd
        · obtain rfl : j = (C.proc b).pc := by omega
          rw [hD] at hd
          cases hd
      · rw [set_ne _ _ hb] at hj
        exact hC.first a b j hj hd
    · rw [hs]
      by_cases hb : b = p
      · subst hb
        rw [set_self, hr', ← pending_skip]
        · exact hC.chan a b
        · rw [hr, hD]; simp
      · rw [set_ne _ _ hb]; exact hC.chan a b
    · show (C.proc p).calls + 1 = (colls _ _ ((C.proc p).pc + 1)).length
      rw [colls_succ, hcol, hC.calls p]
      simp

theorem inv_steps (hV : ∀ k (hk : k < is.length), Round is[k] (V k) (V (k + 1))) {k : ℕ} {C C' : Config P G T}
    (h : Steps (codeOf is) buffered k C C') (hC : Inv is V C) : Inv is V C' := by
  induction h with
  | zero => exact hC
  | succ _ h ih => exact inv_step hV (ih hC) h

/-- nobody does anything that is not allowed -/
theorem not_faulty (hV : ∀ k (hk : k < is.length), Round is[k] (V k) (V (k + 1))) {C : Config P G T} (hC : Inv is V C) :
    ¬ C.Faulty (codeOf is) := by
  rintro ⟨p, hp⟩
  rcases hi : (codeOf is p)[(C.proc p).pc]? with _ | i
  · rw [hi] at hp
    exact hp
  · rw [hi] at hp
    obtain ⟨j, h1, h2, h3⟩ := round_of hV hi
    cases i with
    | compute f =>
      obtain ⟨h4, h5⟩ := h3.compute_of h2
      have hidle : (C.proc p).received = false := by
        by_contra hh
        rcases hC.busy p (Or.inr (by simpa using hh)) with ⟨d, hd⟩ | ⟨-, hd⟩
        · rw [dst_of h1, h5] at hd
          cases hd
        · exact hh hd
      have hm := hC.mem p
      rw [recvd, hidle] at hm
      refine hp (V ((C.proc p).pc + 1) p) ?_
      rw [hm]
      exact (h4 _).mpr rfl
    | sendrecv dest source sc rc =>
      obtain ⟨h4, h5, h6, ⟨d', sc', rc', h7⟩, h8, h9, h10⟩ := h3.sendrecv_of h2
      rcases hp with ⟨-, hp⟩ | ⟨hr, m, ms, hm, hc⟩
      · refine hp ?_
        rw [hC.mem p, recvd]
        cases (C.proc p).received
        · exact h9
        · rw [Bool.toNat_true, h8]
          exact h9
      · have hr0 : recvd (C.proc p) = (C.proc p).pc := by simp [recvd, hr]
        have hDs : dst is (C.proc p).pc source = some p := by rw [dst_of h1, h5]
        have hch := hC.chan source p
        rw [hr0] at hch
        rcases Nat.lt_or_ge (C.proc p).pc (sent (C.proc source)) with hlt | hge
        · rw [pending_cons hDs hlt, hm, List.map_cons] at hch
          have hm := hC.mem p
          rw [hr0] at hm
          rw [(List.cons.inj hch).1, hm] at hc
          exact absurd h10 (not_le.mpr hc)
        · rw [pending_nil hge, hm] at hch
          cases hch
    | allreduce op =>
      obtain ⟨h4, h5, h6, h7, r, h8, h9⟩ := h3.allreduce_of h2
      have hcol : col is (C.proc p).pc p = true := by rw [col_of h1, h5]
      rcases hp with ⟨-, hp⟩ | ⟨hp, x, hx, hno⟩
      · refine hp ?_
        rw [hC.mem p, recvd]
        cases (C.proc p).received
        · exact h6 p
        · rw [Bool.toNat_true, h7, h6]
      · rw [contributions hV hC hcol hx] at hno
        exact hno r ((h8 r).mpr rfl)

/-- at the end everything is as if all had gone together -/
theorem finished_mem {C : Config P G T} (hC : Inv is V C) (hF : C.Finished (codeOf is)) (p : P) :
    (C.proc p).mem = V is.length p ∧ ∀ b, C.chan p b = [] := by
  have hlen : ∀ p, (C.proc p).pc = is.length := fun p => by rw [hF p, codeOf, List.length_map]
  have hidle : ∀ p, (C.proc p).posted = false ∧ (C.proc p).received = false := fun p => by
    by_contra hh
    rcases hC.busy p (by cases h : (C.proc p).posted <;> cases h' : (C.proc p).received <;> simp_all) with ⟨d, hd⟩ | ⟨hd, -⟩
    · rw [hlen, dst, List.getElem?_eq_none le_rfl] at hd
      cases hd
    · rw [hlen, col, List.getElem?_eq_none le_rfl] at hd
      cases hd
  constructor
  · rw [hC.mem p, recvd, (hidle p).2, hlen]
    rfl
  · intro b
    rw [hC.chan, recvd, sent, (hidle b).2, (hidle p).1, hlen, hlen, pending_nil le_rfl]
    rfl

/-- there is always somebody who can go on -/
theorem progress [Fintype P] (hV : ∀ k (hk : k < is.length), Round is[k] (V k) (V (k + 1))) {C : Config P G T} (hC : Inv is V C)
    (hF : ¬ C.Finished (codeOf is)) : ∃ C', Step (codeOf is) buffered C C' := by
  have hF' : ∃ p, (C.proc p).pc < is.length := by
    by_contra hh
    push Not at hh
    refine hF fun p => ?_
    rw [codeOf, List.length_map]
    exact le_antisymm (hC.le p) (hh p)
  obtain ⟨p0, hp0⟩ := hF'
  obtain ⟨p, -, hmin⟩ := Finset.exists_min_image Finset.univ (fun p => (C.proc p).pc) ⟨p0, Finset.mem_univ _⟩
  have hmin : ∀ a, (C.proc p).pc ≤ (C.proc a).pc := fun a => hmin a (Finset.mem_univ _)
  have hlt : (C.proc p).pc < is.length := lt_of_le_of_lt (hmin p0) hp0
  have hget : is[(C.proc p).pc]? = some is[(C.proc p).pc] := List.getElem?_eq_getElem hlt
  have hcode : ∀ a, (codeOf is a)[(C.proc p).pc]? = some (is[(C.proc p).pc] a) := fun a => by rw [codeOf_get, hget]; rfl
  have hnf := not_faulty hV hC
  rcases hi : is[(C.proc p).pc] p with f | ⟨dest, source, sc, rc⟩ | op
  · have hc := hcode p
    rw [hi] at hc
    by_contra hno
    refine hnf ⟨p, ?_⟩
    rw [hc]
    exact fun m hm => hno ⟨_, .compute hc hm⟩
  · have h3 := hV _ hlt
    obtain ⟨h4, h5, h6, ⟨d', sc', rc', h7⟩, h8, h9, h10⟩ := h3.sendrecv_of hi
    have hc := hcode p
    rw [hi] at hc
    have hDp : dst is (C.proc p).pc p = some dest := by rw [dst_of hget, h4]
    have hDs : dst is (C.proc p).pc source = some p := by rw [dst_of hget, h5]
    -- a process that is here and has not sent can send
    have hpost : ∀ a d s c c', (C.proc a).pc = (C.proc p).pc → is[(C.proc p).pc] a = .sendrecv d s c c' → (C.proc a).posted = false →
        ∃ C', Step (codeOf is) buffered C C' := by
      intro a d s c c' ha hia hpa
      have hca := hcode a
      rw [hia, ← ha] at hca
      refine ⟨_, .post hca hpa ?_⟩
      by_contra hne
      refine hnf ⟨a, ?_⟩
      rw [hca]
      exact Or.inl ⟨hpa, hne⟩
    -- a process that is here and waits for a message that has been sent can receive it
    have hrecv : ∀ a d s c c', (C.proc a).pc = (C.proc p).pc → is[(C.proc p).pc] a = .sendrecv d s c c' → (C.proc a).received = false →
        (C.proc p).pc < sent (C.proc s) → ∃ C', Step (codeOf is) buffered C C' := by
      intro a d s c c' ha hia hra hss
      obtain ⟨-, g5, -, -, -, -, -⟩ := h3.sendrecv_of hia
      have hca := hcode a
      rw [hia, ← ha] at hca
      have hch := hC.chan s a
      rw [recvd, hra, ha, Bool.toNat_false, Nat.add_zero, pending_cons (by rw [dst_of hget, g5]) hss, List.map_cons] at hch
      refine ⟨_, .receive hca hra hch ?_⟩
      by_contra hne
      refine hnf ⟨a, ?_⟩
      rw [hca]
      exact Or.inr ⟨hra, _, _, hch, not_le.mp hne⟩
    rcases hpp : (C.proc p).posted with _ | _
    · exact hpost p _ _ _ _ rfl hi hpp
    rcases hpr : (C.proc p).received with _ | _
    · rcases Nat.lt_or_ge (C.proc p).pc (sent (C.proc source)) with hs | hs
      · exact hrecv p _ _ _ _ rfl hi hpr hs
      · have h1 := hmin source
        rw [sent] at hs
        have hps : (C.proc source).posted = false := by
          cases h : (C.proc source).posted
          · rfl
          · rw [h] at hs; simp at hs; omega
        rcases his : is[(C.proc p).pc] source with f | ⟨d2, s2, sc2, rc2⟩ | op2
        · rw [his] at h5; cases h5
        · exact hpost source _ _ _ _ (by omega) his hps
        · rw [his] at h5; cases h5
    · rcases Nat.lt_or_ge (C.proc p).pc (recvd (C.proc dest)) with hd | hd
      · refine ⟨_, .complete hc hpp hpr (Or.inr ?_)⟩
        rw [hC.chan, sent, hpp, pending_nil, List.map_nil]
        exact hd
      · have h1 := hmin dest
        rw [recvd] at hd
        have hpd : (C.proc dest).received = false := by
          cases h : (C.proc dest).received
          · rfl
          · rw [h] at hd; simp at hd; omega
        exact hrecv dest _ _ _ _ (by omega) h7 hpd (by simp [sent, hpp])
  · have h3 := hV _ hlt
    obtain ⟨h4, h5, h6, h7, r, h8, h9⟩ := h3.allreduce_of hi
    have hcol : ∀ a, col is (C.proc p).pc a = true := fun a => by rw [col_of hget, h5]
    by_cases hall : ∀ a, (C.proc p).pc < sent (C.proc a)
    · have hpp : (C.proc p).posted = true := by
        have := hall p
        rw [sent] at this
        cases h : (C.proc p).posted
        · rw [h] at this; simp at this
        · rfl
      have hc := hcode p
      rw [hi] at hc
      refine ⟨_, .leave (x := fun q => (V (C.proc p).pc q).send) (m := r) hc hpp (fun a => ?_) ((h8 r).mpr rfl)⟩
      rw [hC.coll, List.getElem?_map, hC.calls p, colls_congr fun j _ => col_congr hV j p a, colls_get (hcol a) (hall a)]
      rfl
    · push Not at hall
      obtain ⟨a, ha⟩ := hall
      have h1 := hmin a
      rw [sent] at ha
      have hpa : (C.proc a).posted = false := by
        cases h : (C.proc a).posted
        · rfl
        · rw [h] at ha; simp at ha; omega
      have hpc : (C.proc a).pc = (C.proc p).pc := by omega
      have hca := hcode a
      have hcolla := h5 a
      rcases hia : is[(C.proc p).pc] a with f | ⟨d, s, c, c'⟩ | op'
      · rw [hia] at hcolla; cases hcolla
      · rw [hia] at hcolla; cases hcolla
      · rw [hia, ← hpc] at hca
        refine ⟨_, .enter hca hpa ?_⟩
        by_contra hne
        refine hnf ⟨a, ?_⟩
        rw [hca]
        exact Or.inl ⟨hpa, hne⟩

/-- how far all processes have come -/
def total [Fintype P] (C : Config P G T) : ℕ := ∑ p, (3 * (C.proc p).pc + (C.proc p).posted.toNat + (C.proc p).received.toNat)

theorem total_set [Fintype P] (C C' : Config P G T) (p : P) (q : Proc G T) (hC' : C'.proc = update C.proc p q)
    (h : 3 * (C.proc p).pc + (C.proc p).posted.toNat + (C.proc p).received.toNat <
      3 * q.pc + q.posted.toNat + q.received.toNat) : total C < total C' := by
  refine Finset.sum_lt_sum (fun a _ => ?_) ⟨p, Finset.mem_univ _, by rw [hC', update_self]; exact h⟩
  rw [hC']
  by_cases ha : a = p
  · subst ha; rw [update_self]; exact h.le
  · rw [update_of_ne ha]

theorem total_step [Fintype P] {code : P → List (Instr P G T)} {C C' : Config P G T} (h : Step code buffered C C') :
    total C < total C' := by
  cases h with
  | @compute p f m hi hf =>
    refine total_set C _ p _ rfl ?_
    have := Bool.toNat_le (C.proc p).posted
    have := Bool.toNat_le (C.proc p).received
    simp only [Bool.toNat_false]
    omega
  | @post p dest source sc rc hi hp hc =>
    refine total_set C _ p _ rfl ?_
    simp [hp]
  | @receive p dest source sc rc m ms hi hr hm hc =>
    refine total_set C _ p _ rfl ?_
    simp [hr]
  | @complete p dest source sc rc hi hp hr hb =>
    refine total_set C _ p _ rfl ?_
    simp [hp, hr]
    omega
  | @enter p op hi hp hc =>
    refine total_set C _ p _ rfl ?_
    simp [hp]
  | @leave p op x m hi hp hx ho =>
    refine total_set C _ p _ rfl ?_
    have := Bool.toNat_le (C.proc p).received
    simp [hp]
    omega

theorem total_steps [Fintype P] {code : P → List (Instr P G T)} {k : ℕ} {C C' : Config P G T} (h : Steps code buffered k C C') :
    total C + k ≤ total C' := by
  induction h with
  | zero => simp
  | succ _ h ih =>
    have := total_step h
    omega

theorem total_le [Fintype P] {C : Config P G T} (hC : Inv is V C) : total C ≤ Fintype.card P * (3 * is.length + 2) := by
  unfold total
  calc ∑ p, (3 * (C.proc p).pc + (C.proc p).posted.toNat + (C.proc p).received.toNat) ≤ ∑ _p : P, (3 * is.length + 2) :=
        Finset.sum_le_sum fun p _ => by
          have := hC.le p
          have := Bool.toNat_le (C.proc p).posted
          have := Bool.toNat_le (C.proc p).received
          omega
    _ = _ := by rw [Finset.sum_const, Finset.card_univ]; rfl

/-- If all processes can execute their instructions together, then they can be executed at any pace: nobody does anything that is not
allowed, there is always somebody who can go on until all have finished, the number of steps is bounded, and the result is the same. -/
theorem any_schedule [Fintype P] {W W' : P → Memory G T} (h : Together is W W') (buffered : P → ℕ → Bool) {k : ℕ} {C : Config P G T}
    (hC : Steps (codeOf is) buffered k (Config.start W) C) :
    ¬ C.Faulty (codeOf is) ∧ (¬ C.Finished (codeOf is) → ∃ C', Step (codeOf is) buffered C C') ∧
      (C.Finished (codeOf is) → ∀ p, (C.proc p).mem = W' p ∧ ∀ b, C.chan p b = []) ∧
      k ≤ Fintype.card P * (3 * is.length + 2) := by
  obtain ⟨V, rfl, rfl, hV⟩ := h.rounds
  have hI := inv_steps hV hC inv_start
  refine ⟨not_faulty hV hI, progress hV hI, fun hF p => finished_mem hI hF p, ?_⟩
  have h1 := total_steps hC
  have h2 := total_le hI
  omega

end Schnek.Lemma.MpiSchedule
