import Verif.Spec.HdfActive
import Mathlib.Algebra.BigOperators.Fin
import Mathlib.Tactic.Ring

namespace Schnek.Lemma.HdfActive

open Schnek.Hdf.Active Schnek.Spec.HdfActive

variable {N : ℕ}

theorem collective_ok {call : Fin N → Option (ℕ × Comm N)}
    (h : ∀ p kc, call p = some kc → kc.2.has p = true ∧ ∀ q, kc.2.has q = true → call q = some kc) : collective call = .ok () := by
  unfold collective
  rw [if_neg, if_neg]
  · simp only [List.any_eq_true, Option.any_eq_true, Bool.and_eq_true, decide_eq_true_eq]
    rintro ⟨p, _, kc, e, q, _, hq, hne⟩
    exact hne ((h p kc e).2 q hq)
  · simp only [List.any_eq_true, Option.any_eq_true, Bool.not_eq_true']
    rintro ⟨p, _, kc, e, hp⟩
    rw [(h p kc e).1] at hp
    cases hp

theorem collective_stuck {call : Fin N → Option (ℕ × Comm N)} (h : ∀ p kc, call p = some kc → kc.2.has p = true)
    {p q : Fin N} {kc : ℕ × Comm N} (hp : call p = some kc) (hq : kc.2.has q = true) (hne : call q ≠ some kc) :
    collective call = .error .stuck := by
  unfold collective
  rw [if_neg, if_pos]
  · simp only [List.any_eq_true, Option.any_eq_true, Bool.and_eq_true, decide_eq_true_eq]
    exact ⟨p, List.mem_finRange _, kc, hp, q, List.mem_finRange _, hq, hne⟩
  · simp only [List.any_eq_true, Option.any_eq_true, Bool.not_eq_true']
    rintro ⟨p, _, kc, e, hp⟩
    rw [h p kc e] at hp
    cases hp

theorem collective_invalid {call : Fin N → Option (ℕ × Comm N)} {p : Fin N} {kc : ℕ × Comm N} (hp : call p = some kc)
    (hq : kc.2.has p = false) : collective call = .error .invalid := by
  unfold collective
  rw [if_pos]
  simp only [List.any_eq_true, Option.any_eq_true, Bool.not_eq_true']
  exact ⟨p, List.mem_finRange _, kc, hp, hq⟩

theorem has_group {l : List (Fin N)} {p : Fin N} : (Comm.group l).has p = true ↔ p ∈ l := by
  simp [Comm.has]

theorem has_world (p : Fin N) : (commWorld : Comm N).has p = true := by
  simp [commWorld, Comm.has]

theorem mem_ranks {a : Fin N → Bool} {p : Fin N} : p ∈ ranks a ↔ a p = true := by simp [ranks]

theorem activeArr_eq (w : World N) (i : Fin N) : activeArr w i = if (w.procs i).active then 1 else 0 := by
  unfold activeArr
  rw [← List.ofFn_eq_map, List.sum_ofFn, Finset.sum_eq_single i]
  · simp
  · intro b _ hb
    simp [Ne.symm hb]
  · simp

theorem activeGroup_eq (w : World N) : activeGroup w = ranks fun p => (w.procs p).active := by
  unfold activeGroup ranks
  congr 1
  funext i
  rw [activeArr_eq]
  cases (w.procs i).active <;> simp

theorem makeGroup_all (w : World N) (hm : (∀ p, (w.procs p).modified = true) ∨ ∀ p, (w.procs p).modified = false) :
    makeGroup w (fun _ => true) =
      .ok { w with procs := fun p => (w.procs p).group p (ranks fun p => (w.procs p).active) } := by
  unfold makeGroup
  rw [collective_ok, activeGroup_eq]
  · rfl
  · intro p kc e
    rcases hm with hm | hm
    · simp only [hm, Bool.and_self, if_true, Option.some.injEq] at e ⊢
      subst e
      exact ⟨has_world p, fun _ _ => rfl⟩
    · simp [hm] at e

theorem openFile_all (w : World N) (who : Fin N → Bool) (comm : Fin N → Comm N)
    (h : ∀ p, who p = true → comm p = .group (ranks who)) :
    openFile w who comm = .ok { w with
      procs := fun p => if who p then { w.procs p with file := some w.files.length } else w.procs p
      files := w.files ++ [ranks who] } := by
  unfold openFile
  rw [collective_ok]
  · show (if _ then _ else _) = _
    rw [if_neg]
    · rfl
    · simp only [List.any_eq_true, Bool.and_eq_true, decide_eq_true_eq]
      rintro ⟨p, _, q, _, ⟨hp, hq⟩, hne⟩
      exact hne ((h p hp).trans (h q hq).symm)
  · intro p kc e
    by_cases hp : who p = true
    · rw [if_pos hp] at e
      cases e
      rw [h p hp]
      refine ⟨has_group.mpr (mem_ranks.mpr hp), fun q hq => ?_⟩
      have hq' := mem_ranks.mp (has_group.mp hq)
      rw [if_pos hq', h q hq']
    · rw [if_neg hp] at e
      cases e

/-- the processes `a` have the file `k` open -/
structure HasFile (w : World N) (a : Fin N → Bool) (k : ℕ) : Prop where
  file : ∀ p, (w.procs p).file = if a p then some k else none
  members : w.files[k]? = some (ranks a)
  active : ∀ p, (w.procs p).active = a p

theorem collective_file {w : World N} {a : Fin N → Bool} {k : ℕ} (h : HasFile w a k) (who : Fin N → Bool)
    (hw : ∀ p, a p = true → who p = true) :
    collective (fun p => if who p then (w.procs p).file.map fun k => (k, .group (w.files[k]?.getD [])) else none) = .ok () := by
  have key : ∀ p, (if who p then (w.procs p).file.map fun k => (k, Comm.group (w.files[k]?.getD [])) else none)
      = if a p then some (k, .group (ranks a)) else none := by
    intro p
    rw [h.file]
    by_cases ha : a p = true
    · simp [ha, hw p ha, h.members]
    · simp [ha]
  apply collective_ok
  intro p kc e
  rw [key] at e
  by_cases ha : a p = true
  · rw [if_pos ha] at e
    cases e
    refine ⟨has_group.mpr (mem_ranks.mpr ha), fun q hq => ?_⟩
    rw [key, if_pos (mem_ranks.mp (has_group.mp hq))]
  · rw [if_neg ha] at e
    cases e

theorem close_all {w : World N} {a : Fin N → Bool} {k : ℕ} (h : HasFile w a k) :
    close w (fun _ => true) = .ok { w with procs := fun p => { w.procs p with file := none } } := by
  unfold Hdf.Active.close
  rw [collective_file h (fun _ => true) (fun _ _ => rfl)]
  rfl

theorem close_none {w : World N} (h : ∀ p, (w.procs p).file = none) :
    close w (fun _ => true) = .ok { w with procs := fun p => { w.procs p with file := none } } := by
  unfold Hdf.Active.close
  rw [collective_ok]
  · rfl
  · intro p kc e
    simp [h] at e

theorem ranks_eq_nil {a : Fin N → Bool} : ranks a = [] ↔ ∀ p, a p = false := by
  simp [ranks, List.filter_eq_nil_iff]

/-- the attributes of a transfer by these processes -/
def attrs (kind : Kind) (a : Fin N → Bool) : Bool :=
  match kind with
  | .input => false
  | .output => (List.finRange N).any fun q => decide (q.val = 0) && a q

/-- the processes that may call a transfer: of an input stream only active ones, of an output stream all active ones must -/
def CallOk (kind : Kind) (who a : Fin N → Bool) : Prop :=
  match kind with
  | .input => ∀ p, who p = true → a p = true
  | .output => ∀ p, a p = true → who p = true

/-- the transfer that is recorded -/
def record (kind : Kind) (k : ℕ) (a who : Fin N → Bool) : Option (Transfer N) :=
  if ranks (fun p => who p && a p) = [] then none
  else some ⟨k, ranks (fun p => who p && a p), attrs kind fun p => who p && a p⟩

theorem transfer_all (kind : Kind) {w : World N} {a : Fin N → Bool} {k : ℕ} (h : HasFile w a k) (who : Fin N → Bool)
    (hw : CallOk kind who a) :
    call kind w (.transfer who) = .ok { w with transfers := w.transfers ++ (record kind k a who).toList } := by
  have hfile : ∀ p, a p = true → (w.procs p).file = some k := fun p hp => by rw [h.file, if_pos hp]
  cases kind with
  | input =>
    show readGrid w who = _
    have e : (fun p => who p && a p) = who := by
      funext p
      cases hp : who p with
      | false => rfl
      | true => rw [hw p hp]; rfl
    unfold readGrid record
    rw [e, if_neg]
    · cases hr : (List.finRange N).filter who with
      | nil =>
        rw [if_pos (by exact hr)]
        simp
      | cons p l =>
        have hp : who p = true := mem_ranks.mp (show p ∈ ranks who by rw [ranks, hr]; simp)
        rw [if_neg (by rw [ranks, hr]; simp)]
        simp [ranks, hr, hfile p (hw p hp), attrs]
    · simp only [List.any_eq_true, Bool.and_eq_true, Option.isNone_iff_eq_none]
      rintro ⟨p, _, hp, hn⟩
      rw [hfile p (hw p hp)] at hn
      cases hn
  | output =>
    show writeGrid w who = _
    have e : (fun p => who p && (w.procs p).active) = a := by
      funext p
      rw [h.active]
      cases hp : a p with
      | false => simp
      | true => rw [hw p hp]; rfl
    have e' : (fun p => who p && a p) = a := by
      funext p
      cases hp : a p with
      | false => simp
      | true => rw [hw p hp]; rfl
    have e2 : ∀ p, (who p && (w.procs p).active) = a p := congrFun e
    unfold writeGrid record
    simp only [e2, e']
    rw [if_neg, collective_file h a (fun _ h => h)]
    · show (match (List.finRange N).filter a with | [] => _ | p :: l => _) = _
      cases hr : (List.finRange N).filter a with
      | nil =>
        rw [if_pos (by exact hr)]
        simp
        rfl
      | cons p l =>
        have hp : a p = true := mem_ranks.mp (show p ∈ ranks a by rw [ranks, hr]; simp)
        rw [if_neg (by rw [ranks, hr]; simp)]
        simp [ranks, hr, hfile p hp, attrs]
        rfl
    · simp only [List.any_eq_true, Bool.and_eq_true, Option.isNone_iff_eq_none]
      rintro ⟨p, _, hp, hn⟩
      rw [hfile p hp] at hn
      cases hn

theorem run_append (kind : Kind) (w : World N) (l l' : List (Call N)) :
    run kind w (l ++ l') = (run kind w l).bind fun w => run kind w l' := by
  unfold run
  rw [List.foldlM_append]
  rfl

theorem run_cons (kind : Kind) (w : World N) (c : Call N) (l : List (Call N)) :
    run kind w (c :: l) = (call kind w c).bind fun w => run kind w l := rfl

theorem transfers_all (kind : Kind) {a : Fin N → Bool} {k : ℕ} : ∀ (l : List (Fin N → Bool)) {w : World N}, HasFile w a k →
    (∀ who ∈ l, CallOk kind who a) →
    run kind w (l.map .transfer) = .ok { w with transfers := w.transfers ++ l.filterMap (record kind k a) }
  | [], w, _, _ => by simp [run]; rfl
  | who :: l, w, h, hw => by
    rw [List.map_cons, run_cons, transfer_all kind h who (hw who (by simp))]
    show run kind _ _ = _
    rw [transfers_all kind l (w := { w with transfers := w.transfers ++ (record kind k a who).toList }) ⟨h.file, h.members, h.active⟩ (fun x hx => hw x (by simp [hx]))]
    simp only [List.filterMap_cons]
    cases record kind k a who <;> simp

/-- the object of a process after a file has been opened -/
def opened (kind : Kind) (o : Proc N) (p : Fin N) (a : Fin N → Bool) : Proc N :=
  match kind with
  | .input => o.group p (ranks a)
  | .output => if a p then (o.group p (ranks a)).prepare else o.group p (ranks a)

/-- the communicator that is used to open a file -/
def usedComm (kind : Kind) (o : Proc N) : Comm N :=
  match kind with
  | .input => o.comm
  | .output => o.plist

theorem group_active (o : Proc N) (p : Fin N) (l : List (Fin N)) : (o.group p l).active = o.active := by
  unfold Proc.group
  split_ifs <;> rfl

theorem group_file (o : Proc N) (p : Fin N) (l : List (Fin N)) : (o.group p l).file = o.file := by
  unfold Proc.group
  split_ifs <;> rfl

theorem prepare_active (o : Proc N) : o.prepare.active = o.active := by
  unfold Proc.prepare
  split_ifs <;> rfl

theorem prepare_file (o : Proc N) : o.prepare.file = o.file := by
  unfold Proc.prepare
  split_ifs <;> rfl

theorem opened_active (kind : Kind) (o : Proc N) (p : Fin N) (a : Fin N → Bool) : (opened kind o p a).active = o.active := by
  unfold opened
  cases kind
  · exact group_active _ _ _
  · by_cases h : a p = true
    · simp only; rw [if_pos h, prepare_active, group_active]
    · simp only; rw [if_neg h, group_active]

theorem opened_file (kind : Kind) (o : Proc N) (p : Fin N) (a : Fin N → Bool) : (opened kind o p a).file = o.file := by
  unfold opened
  cases kind
  · exact group_file _ _ _
  · by_cases h : a p = true
    · simp only; rw [if_pos h, prepare_file, group_file]
    · simp only; rw [if_neg h, group_file]

theorem open_all (kind : Kind) {w : World N} {a : Fin N → Bool} (hf : ∀ p, (w.procs p).file = none)
    (ha : ∀ p, (w.procs p).active = a p)
    (hm : (∀ p, (w.procs p).modified = true) ∨ ∀ p, (w.procs p).modified = false)
    (hc : ∀ p, a p = true → usedComm kind (opened kind (w.procs p) p a) = .group (ranks a)) :
    call kind w (.open fun _ => true) = .ok { w with
      procs := fun p => { opened kind (w.procs p) p a with file := if a p then some w.files.length else none }
      files := w.files ++ [ranks a] } := by
  have hra : (fun p => (w.procs p).active) = a := funext ha
  cases kind with
  | input =>
    show openInput w _ = _
    unfold openInput
    rw [close_none hf]
    have e : (fun p => { w.procs p with file := none }) = w.procs := by
      funext p
      have h := hf p
      rcases hp : w.procs p with ⟨a1, a2, a3, a4, a5, a6, a7⟩
      rw [hp] at h
      cases h
      rfl
    rw [e]
    show (makeGroup w fun _ => true).bind _ = _
    rw [makeGroup_all w hm, hra]
    show openFile _ (fun p => true && ((w.procs p).group p (ranks a)).active) _ = _
    have e2 : (fun p => true && ((w.procs p).group p (ranks a)).active) = a := by
      funext p
      rw [Bool.true_and, group_active, ha]
    rw [e2, openFile_all]
    · congr 2
      funext p
      by_cases h : a p = true
      · simp only [if_pos h]
        rfl
      · simp only [if_neg h]
        show (w.procs p).group p (ranks a) = { (w.procs p).group p (ranks a) with file := none }
        rw [← hf p, ← group_file (w.procs p) p (ranks a)]
    · exact hc
  | output =>
    show openOutput w _ = _
    unfold openOutput
    rw [makeGroup_all w hm, hra]
    show openFile ⟨fun p => if (true && ((w.procs p).group p (ranks a)).active) = true then ((w.procs p).group p (ranks a)).prepare
      else (w.procs p).group p (ranks a), _, _⟩ (fun p => true && ((w.procs p).group p (ranks a)).active) _ = _
    have e2 : ∀ p, (true && ((w.procs p).group p (ranks a)).active) = a p := by
      intro p
      rw [Bool.true_and, group_active, ha]
    simp only [e2]
    rw [openFile_all]
    · congr 2
      funext p
      by_cases h : a p = true
      · simp only [if_pos h, opened]
      · simp only [if_neg h, opened]
        rw [← hf p, ← group_file (w.procs p) p (ranks a)]
    · exact hc

/-- one round, after the processes have been chosen -/
theorem round_all (kind : Kind) {w : World N} {a : Fin N → Bool} (hf : ∀ p, (w.procs p).file = none)
    (ha : ∀ p, (w.procs p).active = a p)
    (hm : (∀ p, (w.procs p).modified = true) ∨ ∀ p, (w.procs p).modified = false)
    (hc : ∀ p, a p = true → usedComm kind (opened kind (w.procs p) p a) = .group (ranks a))
    (work : List (Fin N → Bool)) (hw : ∀ who ∈ work, CallOk kind who a) :
    run kind w ([.open fun _ => true] ++ work.map .transfer ++ [.close fun _ => true]) = .ok
      ⟨fun p => opened kind (w.procs p) p a, w.files ++ [ranks a],
        w.transfers ++ work.filterMap (record kind w.files.length a)⟩ := by
  rw [List.append_assoc, run_append]
  have e1 : run kind w [.open fun _ => true] = _ := (run_cons kind w _ _).trans (by rw [open_all kind hf ha hm hc])
  rw [e1]
  show run kind _ _ = _
  have hh : HasFile (⟨fun p => { opened kind (w.procs p) p a with file := if a p then some w.files.length else none },
      w.files ++ [ranks a], w.transfers⟩ : World N) a w.files.length :=
    ⟨fun p => rfl, by simp, fun p => (opened_active _ _ _ _).trans (ha p)⟩
  rw [run_append, transfers_all kind work hh hw]
  show run kind _ [.close _] = _
  rw [run_cons]
  have hh2 : HasFile (⟨fun p => { opened kind (w.procs p) p a with file := if a p then some w.files.length else none },
      w.files ++ [ranks a], w.transfers ++ work.filterMap (record kind w.files.length a)⟩ : World N) a w.files.length :=
    ⟨hh.file, hh.members, hh.active⟩
  refine (congrArg (fun r => Except.bind r _) (close_all hh2)).trans ?_
  show Except.ok _ = _
  congr 2
  funext p
  show { opened kind (w.procs p) p a with file := none } = _
  rw [← hf p, ← opened_file kind (w.procs p) p a]

end Schnek.Lemma.HdfActive
