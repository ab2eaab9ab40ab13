import Verif.Lemma.HdfActive

/-!
# C136: Only the chosen processes take part in the output

The calls of a stream are described by rounds (`Spec/HdfActive.lean`), one for each file.
-/

namespace Schnek.Props.HdfActive

open Schnek.Hdf.Active Schnek.Spec.HdfActive Schnek.Lemma.HdfActive

variable {N : ℕ}

/-- all processes -/
abbrev everyone : Fin N → Bool := fun _ => true

private theorem choose_step (kind : Kind) (w : World N) (a : Fin N → Bool) (work : List (Fin N → Bool)) :
    run kind w (Round.calls ⟨some a, work⟩) =
      run kind { w with procs := fun p => (w.procs p).setActive (some (a p)) }
        ([.open fun _ => true] ++ work.map .transfer ++ [.close fun _ => true]) := rfl

private theorem keep_step (kind : Kind) (w : World N) (work : List (Fin N → Bool)) :
    run kind w (Round.calls ⟨none, work⟩) =
      run kind w ([.open fun _ => true] ++ work.map .transfer ++ [.close fun _ => true]) := rfl

private theorem input_choose (attributes : (Fin N → Bool) → Bool) (hat : ∀ a, attributes a = false) :
    ∀ (rs : List (Round N)) (w : World N) (a0 : Fin N → Bool), (∀ r ∈ rs, r.choose.isSome) → (∀ p, (w.procs p).file = none) →
    (∀ x ∈ (chosen a0 rs).zip rs, ∀ who ∈ x.2.work, ∀ p, who p = true → x.1 p = true) →
    ∃ w', run .input w (rs.flatMap Round.calls) = .ok w' ∧ w'.files = w.files ++ (chosen a0 rs).map ranks ∧
      w'.transfers = w.transfers ++ transfersFrom attributes w.files.length (chosen a0 rs) rs ∧ ∀ p, (w'.procs p).file = none
  | [], w, _, _, hf, _ => ⟨w, rfl, by simp [chosen], by simp [chosen, transfersFrom], hf⟩
  | ⟨none, _⟩ :: _, _, _, h, _, _ => by simpa using h _ List.mem_cons_self
  | ⟨some a, work⟩ :: rs, w, a0, h, hf, hw => by
    rw [List.flatMap_cons, run_append, choose_step]
    have hc : chosen a0 (⟨some a, work⟩ :: rs) = a :: chosen a rs := rfl
    rw [hc] at hw ⊢
    rw [round_all .input (w := { w with procs := fun p => (w.procs p).setActive (some (a p)) }) (a := a) hf (fun _ => rfl)
      (Or.inl fun _ => rfl)
      (fun p hp => by
        show (((w.procs p).setActive (some (a p))).group p (ranks a)).comm = _
        rw [Proc.group, if_pos (by rfl)]
        show (if p ∈ ranks a then _ else _) = _
        rw [if_pos (mem_ranks.mpr hp)]) work (fun who hx => hw (a, ⟨some a, work⟩) (by simp) who hx)]
    obtain ⟨w', e1, e2, e3, e4⟩ := input_choose attributes hat rs
      ⟨fun p => opened .input ((w.procs p).setActive (some (a p))) p a, w.files ++ [ranks a],
        w.transfers ++ work.filterMap (record .input w.files.length a)⟩ a (fun r hr => h r (by simp [hr]))
      (fun p => (opened_file _ _ _ _).trans (hf p)) (fun x hx => hw x (by simp [hx]))
    refine ⟨w', e1, by simp [e2], ?_, e4⟩
    rw [e3]
    simp only [transfersFrom, List.length_append, List.length_singleton, List.append_assoc]
    congr 2
    refine congrArg (fun f => List.filterMap f work) ?_
    funext who
    simp only [record, attrs, hat]

private theorem ranks_all : ranks (everyone : Fin N → Bool) = List.finRange N := by simp [ranks]

private theorem chosen_keep (a : Fin N → Bool) : ∀ (rs : List (Round N)), (∀ r ∈ rs, r.choose = none) →
    chosen a rs = rs.map fun _ => a
  | [], _ => rfl
  | ⟨none, _⟩ :: rs, h => by
    show a :: chosen a rs = _
    rw [chosen_keep a rs fun r hr => h r (by simp [hr])]
    rfl
  | ⟨some _, _⟩ :: _, h => by simpa using h _ List.mem_cons_self

private theorem mem_zip_const (a : Fin N → Bool) : ∀ (rs : List (Round N)) (r : Round N), r ∈ rs → (a, r) ∈ (rs.map fun _ => a).zip rs
  | r' :: rs, r, h => by
    rw [List.map_cons, List.zip_cons_cons]
    rcases List.mem_cons.mp h with rfl | h
    · exact List.mem_cons_self
    · exact List.mem_cons_of_mem _ (mem_zip_const a rs r h)

private theorem rounds_keep (kind : Kind) (attributes : (Fin N → Bool) → Bool) (hat : ∀ a, attributes a = attrs kind a) (a : Fin N → Bool)
    (J : World N → Prop)
    (hJ : ∀ w, J w → (∀ p, (w.procs p).file = none) ∧ (∀ p, (w.procs p).active = a p) ∧ (∀ p, (w.procs p).modified = false) ∧
      (∀ p, a p = true → usedComm kind (opened kind (w.procs p) p a) = .group (ranks a)))
    (hstep : ∀ w f t, J w → J ⟨fun p => opened kind (w.procs p) p a, f, t⟩) :
    ∀ (rs : List (Round N)) (w : World N), (∀ r ∈ rs, r.choose = none) → J w →
    (∀ r ∈ rs, ∀ who ∈ r.work, CallOk kind who a) →
    ∃ w', run kind w (rs.flatMap Round.calls) = .ok w' ∧ w'.files = w.files ++ (rs.map fun _ => ranks a) ∧
      w'.transfers = w.transfers ++ transfersFrom attributes w.files.length (rs.map fun _ => a) rs ∧ ∀ p, (w'.procs p).file = none
  | [], w, _, hj, _ => ⟨w, rfl, by simp, by simp [transfersFrom], (hJ w hj).1⟩
  | ⟨some _, _⟩ :: _, _, h, _, _ => by simpa using h _ List.mem_cons_self
  | ⟨none, work⟩ :: rs, w, h, hj, hw => by
    obtain ⟨h1, h2, h3, h4⟩ := hJ w hj
    rw [List.flatMap_cons, run_append, keep_step, round_all kind h1 h2 (Or.inr h3) h4 work (hw ⟨none, work⟩ (by simp))]
    obtain ⟨w', e1, e2, e3, e4⟩ := rounds_keep kind attributes hat a J hJ hstep rs _ (fun r hr => h r (by simp [hr])) (hstep w (w.files ++ [ranks a])
      (w.transfers ++ work.filterMap (record kind w.files.length a)) hj) (fun r hr => hw r (by simp [hr]))
    refine ⟨w', e1, by simp [e2], ?_, e4⟩
    rw [e3]
    simp only [transfersFrom, List.length_append, List.length_singleton, List.append_assoc, List.map_cons]
    congr 2
    refine congrArg (fun f => List.filterMap f work) ?_
    funext who
    simp only [record, hat]

/-- **C136** (partial: the active processes are chosen again before every file, or never; `readGrid` is called by active processes only) An input
stream: no process waits forever, and file number `k` is opened by exactly the processes that have been chosen for it, with a communicator that
consists of exactly these in the order of their ranks. Each transfer takes place, by the processes that call it, and after the last round no
process has a file open. -/
theorem C136_input_partial (rs : List (Round N)) (h : (∀ r ∈ rs, r.choose.isSome) ∨ ∀ r ∈ rs, r.choose = none)
    (hw : ∀ x ∈ (chosen everyone rs).zip rs, ∀ who ∈ x.2.work, ∀ p, who p = true → x.1 p = true) :
    ∃ w, run .input .start (rs.flatMap Round.calls) = .ok w ∧ w.files = (chosen everyone rs).map ranks ∧
      w.transfers = transfersFrom (fun _ => false) 0 (chosen everyone rs) rs ∧ ∀ p, (w.procs p).file = none := by
  rcases h with h | h
  · obtain ⟨w, e1, e2, e3, e4⟩ := input_choose (fun _ => false) (fun _ => rfl) rs .start everyone h (fun _ => rfl) hw
    exact ⟨w, e1, by simpa [World.start] using e2, by simpa [World.start] using e3, e4⟩
  · rw [chosen_keep everyone rs h] at hw ⊢
    obtain ⟨w, e1, e2, e3, e4⟩ := rounds_keep .input (fun _ => false) (fun _ => rfl) everyone
      (fun w => ∀ p, (w.procs p).file = none ∧ (w.procs p).active = true ∧ (w.procs p).modified = false ∧
        ((w.procs p).commSet = true → (w.procs p).comm = commWorld))
      (fun w hj => ⟨fun p => (hj p).1, fun p => (hj p).2.1, fun p => (hj p).2.2.1, fun p _ => by
        show ((w.procs p).group p (ranks everyone)).comm = _
        rw [Proc.group, if_neg (by rw [(hj p).2.2.1]; simp)]
        by_cases hc : (w.procs p).commSet = true
        · rw [if_pos hc, (hj p).2.2.2 hc, ranks_all]; rfl
        · rw [if_neg hc, ranks_all]; rfl⟩)
      (fun w f t hj p => by
        show ((w.procs p).group p (ranks everyone)).file = none ∧ ((w.procs p).group p (ranks everyone)).active = true ∧
          ((w.procs p).group p (ranks everyone)).modified = false ∧ (((w.procs p).group p (ranks everyone)).commSet = true →
            ((w.procs p).group p (ranks everyone)).comm = commWorld)
        rw [Proc.group, if_neg (by rw [(hj p).2.2.1]; simp)]
        by_cases hc : (w.procs p).commSet = true
        · rw [if_pos hc]; exact hj p
        · rw [if_neg hc]; exact ⟨(hj p).1, (hj p).2.1, (hj p).2.2.1, fun _ => rfl⟩)
      rs .start h (fun _ => ⟨rfl, rfl, rfl, fun h => by cases h⟩) (fun r hr who hx => fun _ _ => rfl)
    refine ⟨w, e1, ?_, by simpa [World.start] using e3, e4⟩
    rw [e2, List.map_map]
    rfl

private theorem output_first (ch : Option (Fin N → Bool)) (work : List (Fin N → Bool)) (a : Fin N → Bool) (ha : ch.getD everyone = a)
    (hw : ∀ who ∈ work, ∀ p, a p = true → who p = true) :
    ∃ w : World N, run .output .start (Round.calls ⟨ch, work⟩) = .ok w ∧ w.files = [ranks a] ∧
      w.transfers = work.filterMap (record .output 0 a) ∧
      ∀ p, (w.procs p).file = none ∧ (w.procs p).active = a p ∧ (w.procs p).modified = false ∧
        (a p = true → (w.procs p).initialised = true ∧ (w.procs p).plist = .group (ranks a)) ∧
        (a p = false → (w.procs p).initialised = false) := by
  have first : ∃ w0 : World N, run .output .start (Round.calls ⟨ch, work⟩) = run .output w0
        ([.open fun _ => true] ++ work.map .transfer ++ [.close fun _ => true]) ∧ w0.files = [] ∧ w0.transfers = [] ∧
      ∀ p, (w0.procs p).file = none ∧ (w0.procs p).active = a p ∧ (w0.procs p).initialised = false ∧
        (w0.procs p).modified = ch.isSome ∧ (w0.procs p).commSet = false := by
    cases ch with
    | none =>
      refine ⟨.start, keep_step _ _ _, rfl, rfl, fun p => ⟨rfl, ?_, rfl, rfl, rfl⟩⟩
      rw [← ha]; rfl
    | some b =>
      have : b = a := ha
      subst this
      exact ⟨_, choose_step _ _ _ _, rfl, rfl, fun p => ⟨rfl, rfl, rfl, rfl, rfl⟩⟩
  obtain ⟨w0, f1, f2, f3, f4⟩ := first
  have hcomm : ∀ p, a p = true → ((w0.procs p).group p (ranks a)).comm = .group (ranks a) := by
    intro p hp
    obtain ⟨_, _, _, g1, g2⟩ := f4 p
    rw [Proc.group]
    cases ch with
    | none =>
      have : a = everyone := ha.symm
      subst this
      rw [if_neg (by rw [g1]; simp), if_neg (by rw [g2]; simp), ranks_all]
      rfl
    | some b =>
      rw [if_pos (by rw [g1]; rfl)]
      show (if p ∈ ranks a then _ else _) = _
      rw [if_pos (mem_ranks.mpr hp)]
  have hinit : ∀ p, ((w0.procs p).group p (ranks a)).initialised = false := by
    intro p
    rw [← (f4 p).2.2.1, Proc.group]
    split_ifs <;> rfl
  have hprep : ∀ p, a p = true → (opened .output (w0.procs p) p a).initialised = true ∧
      (opened .output (w0.procs p) p a).plist = .group (ranks a) := by
    intro p hp
    show (if a p then _ else _ : Proc N).initialised = true ∧ (if a p then _ else _ : Proc N).plist = _
    rw [if_pos hp, Proc.prepare, if_neg (by rw [hinit p]; simp)]
    exact ⟨rfl, hcomm p hp⟩
  have hround := round_all .output (w := w0) (a := a) (fun p => (f4 p).1) (fun p => (f4 p).2.1)
    (by
      cases ch with
      | none => exact Or.inr fun p => (f4 p).2.2.2.1
      | some b => exact Or.inl fun p => (f4 p).2.2.2.1)
    (fun p hp => (hprep p hp).2) work hw
  refine ⟨⟨fun p => opened .output (w0.procs p) p a, [ranks a], work.filterMap (record .output 0 a)⟩, ?_, rfl, rfl, fun p =>
    ⟨(opened_file _ _ _ _).trans (f4 p).1, (opened_active _ _ _ _).trans (f4 p).2.1, ?_, hprep p, fun hp => ?_⟩⟩
  · rw [f1, hround, f2, f3]
    rfl
  · have gm : ((w0.procs p).group p (ranks a)).modified = false := by
      rw [Proc.group]
      by_cases hm : (w0.procs p).modified = true
      · rw [if_pos hm]
      · rw [if_neg hm]
        split_ifs <;> simpa using hm
    show (if a p then _ else _ : Proc N).modified = false
    by_cases hp : a p = true
    · rw [if_pos hp, Proc.prepare]
      split_ifs <;> exact gm
    · rw [if_neg hp]; exact gm
  · show (if a p then _ else _ : Proc N).initialised = false
    rw [if_neg (by rw [hp]; simp)]
    exact hinit p

/-- **C136** (partial: the active processes are chosen before the first file, or never; `writeGrid` is called by all active processes) An output
stream: no process waits forever, and every file is made by exactly the chosen processes, with a communicator that consists of exactly these in the
order of their ranks. Each transfer takes place, by all of the chosen processes; its attributes are written if the process with number 0 is one of
them. After the last round no process has a file open. -/
theorem C136_output_partial (rs : List (Round N)) (h : ∀ r ∈ rs.tail, r.choose = none)
    (hw : ∀ x ∈ (chosen everyone rs).zip rs, ∀ who ∈ x.2.work, ∀ p, x.1 p = true → who p = true) :
    ∃ w, run .output .start (rs.flatMap Round.calls) = .ok w ∧ w.files = (chosen everyone rs).map ranks ∧
      w.transfers = transfersFrom (fun a => (List.finRange N).any fun q => decide (q.val = 0) && a q) 0 (chosen everyone rs) rs ∧
      ∀ p, (w.procs p).file = none := by
  rcases rs with _ | ⟨⟨ch, work⟩, rs⟩
  · exact ⟨.start, rfl, rfl, rfl, fun _ => rfl⟩
  have h : ∀ r ∈ rs, r.choose = none := h
  have hc : chosen everyone (⟨ch, work⟩ :: rs) = ch.getD everyone :: rs.map fun _ => ch.getD everyone := by
    rw [← chosen_keep _ rs h]; rfl
  rw [hc] at hw ⊢
  generalize ha : ch.getD everyone = a at hw ⊢
  obtain ⟨w0, f1, f2, f3, f4⟩ := output_first ch work a ha (fun who hx => hw (a, ⟨ch, work⟩) (by simp) who hx)
  rw [List.flatMap_cons, run_append, f1]
  obtain ⟨w, e1, e2, e3, e4⟩ := rounds_keep .output (fun a => (List.finRange N).any fun q => decide (q.val = 0) && a q) (fun _ => rfl) a
    (fun w => ∀ p, (w.procs p).file = none ∧ (w.procs p).active = a p ∧ (w.procs p).modified = false ∧
      (a p = true → (w.procs p).initialised = true ∧ (w.procs p).plist = .group (ranks a)))
    (fun w hj => ⟨fun p => (hj p).1, fun p => (hj p).2.1, fun p => (hj p).2.2.1, fun p hp => by
      show (if a p then _ else _ : Proc N).plist = _
      rw [if_pos hp, Proc.prepare]
      obtain ⟨_, _, g3, g4⟩ := hj p
      have gi : ((w.procs p).group p (ranks a)).initialised = true := by
        rw [← (g4 hp).1, Proc.group]
        split_ifs <;> rfl
      rw [if_pos gi, ← (g4 hp).2, Proc.group]
      split_ifs <;> rfl⟩)
    (fun w f t hj p => by
      obtain ⟨g1, g2, g3, g4⟩ := hj p
      have gm : ((w.procs p).group p (ranks a)).modified = false := by
        rw [Proc.group, if_neg (by rw [g3]; simp)]
        split_ifs <;> exact g3
      refine ⟨(opened_file _ _ _ _).trans g1, (opened_active _ _ _ _).trans g2, ?_, fun hp => ?_⟩
      · show (if a p then _ else _ : Proc N).modified = false
        by_cases hp : a p = true
        · rw [if_pos hp, Proc.prepare]
          split_ifs <;> exact gm
        · rw [if_neg hp]; exact gm
      · show (if a p then _ else _ : Proc N).initialised = true ∧ (if a p then _ else _ : Proc N).plist = _
        have gi : ((w.procs p).group p (ranks a)).initialised = true := by
          rw [← (g4 hp).1, Proc.group]
          split_ifs <;> rfl
        rw [if_pos hp, Proc.prepare, if_pos gi]
        refine ⟨gi, ?_⟩
        rw [← (g4 hp).2, Proc.group]
        split_ifs <;> rfl)
    rs w0 h (fun p => ⟨(f4 p).1, (f4 p).2.1, (f4 p).2.2.1, (f4 p).2.2.2.1⟩)
    (fun r hr who hx => hw (a, r) (List.mem_cons_of_mem _ (mem_zip_const a rs r hr)) who hx)
  refine ⟨w, e1, ?_, ?_, e4⟩
  · rw [e2, f2]; simp
  · rw [e3, f2, f3]
    rfl

/-- non-vacuity: of three processes, the last two write two files, with two transfers each, and other ones read two files -/
example : (∀ r ∈ ([⟨some ![false, true, true], [everyone, ![false, true, true]]⟩, ⟨none, [everyone]⟩] : List (Round 3)).tail,
      r.choose = none) ∧
    (∀ r ∈ ([⟨some ![false, true, true], [![false, true, false]]⟩, ⟨some ![true, false, true], []⟩] : List (Round 3)),
      r.choose.isSome) := by
  constructor <;> simp

/-- the first transfer of the example: by processes 1 and 2, without attributes -/
example : ∃ w : World 3, run .output .start
      (([⟨some ![false, true, true], [everyone, ![false, true, true]]⟩, ⟨none, [everyone]⟩] : List (Round 3)).flatMap Round.calls) = .ok w ∧
    w.files = [[1, 2], [1, 2]] ∧ w.transfers = [⟨0, [1, 2], false⟩, ⟨0, [1, 2], false⟩, ⟨1, [1, 2], false⟩] := by
  obtain ⟨w, e1, e2, e3, _⟩ := C136_output_partial
    ([⟨some ![false, true, true], [everyone, ![false, true, true]]⟩, ⟨none, [everyone]⟩] : List (Round 3)) (by simp)
    (by decide +kernel)
  exact ⟨w, e1, e2.trans (by decide +kernel), e3.trans (by decide +kernel)⟩

/-! ## What does not hold -/

private theorem run_one (kind : Kind) (w : World N) (c : Call N) : run kind w [c] = call kind w c := by
  rw [run_cons]
  cases call kind w c <;> rfl

/-- **C136** FINDING: A choice made in some processes only leaves these waiting for the other ones, in the next call of `open`. -/
theorem C136_violated_choice_in_some_processes (kind : Kind) (value : Fin N → Option Bool) (p q : Fin N) (hp : (value p).isSome)
    (hq : value q = none) : run kind .start [.setActive value, .open everyone] = .error .stuck := by
  rw [run_cons]
  show run kind _ [.open everyone] = _
  rw [run_one]
  have key : makeGroup (⟨fun p => Proc.new.setActive (value p), [], []⟩ : World N) everyone = .error .stuck := by
    unfold makeGroup
    rw [collective_stuck (p := p) (q := q) (kc := (0, commWorld))]
    · rfl
    · intro x kc e
      by_cases hx : ((Proc.new : Proc N).setActive (value x)).modified = true
      · simp only [hx, Bool.and_self, if_true, Option.some.injEq] at e
        subst e
        exact has_world x
      · simp [hx] at e
    · obtain ⟨b, hb⟩ := Option.isSome_iff_exists.mp hp
      simp [hb, Proc.setActive]
    · exact has_world q
    · simp [hq, Proc.setActive, Proc.new]
  cases kind with
  | input =>
    show openInput _ _ = _
    unfold openInput
    rw [close_none fun x => by
      show (Proc.new.setActive (value x)).file = none
      cases value x <;> rfl]
    have e : (fun x => { (Proc.new : Proc N).setActive (value x) with file := none }) = fun x => Proc.new.setActive (value x) := by
      funext x
      cases value x <;> rfl
    show (makeGroup ⟨fun x => { (Proc.new : Proc N).setActive (value x) with file := none }, [], []⟩ everyone).bind _ = _
    rw [e, key]
    rfl
  | output =>
    show openOutput _ _ = _
    unfold openOutput
    show (makeGroup ⟨fun x => (Proc.new : Proc N).setActive (value x), [], []⟩ everyone).bind _ = _
    rw [key]
    rfl

/-- **C136** FINDING: An input stream of which some processes are active and some are not can be used for one file only: the next call of `open`
opens the file with all processes, and the active ones wait for the other ones forever. -/
theorem C136_violated_second_input_file (a : Fin N → Bool) (p q : Fin N) (hp : a p = true) (hq : a q = false)
    (work : List (Fin N → Bool)) (hw : ∀ who ∈ work, ∀ p, who p = true → a p = true) :
    run .input .start (Round.calls ⟨some a, work⟩ ++ [.open everyone]) = .error .stuck := by
  rw [run_append, choose_step]
  show Except.bind (run .input ⟨fun p => Proc.new.setActive (some (a p)), [], []⟩ _) _ = _
  rw [round_all .input (w := ⟨fun p => Proc.new.setActive (some (a p)), [], []⟩) (a := a) (fun _ => rfl) (fun _ => rfl)
      (Or.inl fun _ => rfl)
      (fun p hp => by
        show (if p ∈ ranks a then _ else _) = _
        rw [if_pos (mem_ranks.mpr hp)]) work hw]
  show run .input ⟨fun p => (Proc.new.setActive (some (a p))).group p (ranks a), _, _⟩ [.open everyone] = _
  rw [run_one]
  show openInput _ _ = _
  unfold openInput
  rw [close_none (fun _ => rfl)]
  show (makeGroup _ fun _ => true).bind _ = _
  rw [makeGroup_all _ (Or.inr fun _ => rfl)]
  show openFile _ _ _ = _
  unfold openFile
  rw [collective_stuck (p := p) (q := q) (kc := (_, commWorld))]
  · rfl
  · intro x kc e
    by_cases hx : a x = true
    · have : some ((1 : ℕ), (commWorld : Comm N)) = some kc := by
        rw [← e]
        exact (if_pos (by exact hx)).symm
      cases this
      exact has_world x
    · have : none = some kc := by
        rw [← e]
        exact (if_neg (by exact hx)).symm
      cases this
  · exact if_pos (by exact hp)
  · exact has_world q
  · rw [if_neg]
    · simp
    · show ¬ a q = true
      rw [hq]; simp

/-- **C136** FINDING: The active processes of an output stream can not be changed any more after the first file: the communicator of the first file
is used for all the others. If one process was active and stays active, but another one changes, `open` never ends. -/
theorem C136_violated_changed_output (r : Round N) (a b : Fin N → Bool) (ha : r.choose.getD everyone = a)
    (hw : ∀ who ∈ r.work, ∀ p, a p = true → who p = true) (p q : Fin N) (hp : a p = true ∧ b p = true) (hq : a q ≠ b q) :
    run .output .start (r.calls ++ [.setActive fun p => some (b p), .open everyone]) = .error .stuck := by
  obtain ⟨w, e1, _, _, e4⟩ := output_first r.choose r.work a ha hw
  rw [run_append]
  show Except.bind (run .output .start (Round.calls ⟨r.choose, r.work⟩)) _ = _
  rw [e1]
  show run .output ⟨fun p => (w.procs p).setActive (some (b p)), w.files, w.transfers⟩ [.open everyone] = _
  rw [run_one]
  show openOutput _ _ = _
  unfold openOutput
  rw [makeGroup_all _ (Or.inl fun _ => rfl)]
  have hact : ∀ x, (true && (((w.procs x).setActive (some (b x))).group x (ranks b)).active) = b x := fun x => by
    rw [group_active]; rfl
  have hpl : ∀ x, b x = true → ((((w.procs x).setActive (some (b x))).group x (ranks b)).prepare).plist =
      .group (if a x then ranks a else ranks b) := fun x hx => by
    obtain ⟨_, _, _, g1, g2⟩ := e4 x
    rw [Proc.group, if_pos (by rfl), Proc.prepare]
    by_cases hax : a x = true
    · rw [if_pos (by exact (g1 hax).1), if_pos hax]
      exact (g1 hax).2
    · rw [if_neg (by
        show ¬ (w.procs x).initialised = true
        rw [g2 (by simpa using hax)]; simp), if_neg hax]
      show (if x ∈ ranks b then _ else _) = _
      rw [if_pos (mem_ranks.mpr hx)]
  show openFile ⟨fun x => if (true && (((w.procs x).setActive (some (b x))).group x (ranks b)).active) = true then
      (((w.procs x).setActive (some (b x))).group x (ranks b)).prepare else ((w.procs x).setActive (some (b x))).group x (ranks b), w.files, _⟩
    (fun x => true && (((w.procs x).setActive (some (b x))).group x (ranks b)).active)
    (fun x => (if (true && (((w.procs x).setActive (some (b x))).group x (ranks b)).active) = true then
      (((w.procs x).setActive (some (b x))).group x (ranks b)).prepare else ((w.procs x).setActive (some (b x))).group x (ranks b)).plist) = _
  simp only [hact]
  have hcall : ∀ x, (if b x = true then some (w.files.length, (if b x = true then
      (((w.procs x).setActive (some (b x))).group x (ranks b)).prepare else ((w.procs x).setActive (some (b x))).group x (ranks b)).plist)
      else none) = if b x = true then some (w.files.length, Comm.group (if a x then ranks a else ranks b)) else none := fun x => by
    by_cases hx : b x = true
    · rw [if_pos hx, if_pos hx, if_pos hx, hpl x hx]
    · rw [if_neg hx, if_neg hx]
  unfold openFile
  simp only [hcall]
  have hvalid : ∀ x kc, (if b x = true then some (w.files.length, Comm.group (if a x then ranks a else ranks b)) else none) = some kc →
      kc.2.has x = true := by
    intro x kc e
    by_cases hx : b x = true
    · rw [if_pos hx] at e
      cases e
      rw [has_group]
      by_cases hax : a x = true
      · rw [if_pos hax]; exact mem_ranks.mpr hax
      · rw [if_neg hax]; exact mem_ranks.mpr hx
    · rw [if_neg hx] at e
      cases e
  by_cases hbq : b q = true
  · have haq : a q = false := by
      rw [hbq] at hq
      simpa using hq
    rw [collective_stuck (p := q) (q := p) (kc := (w.files.length, .group (ranks b))) hvalid]
    · rfl
    · rw [if_pos hbq, haq]
      rfl
    · exact has_group.mpr (mem_ranks.mpr hp.2)
    · rw [if_pos hp.2, if_pos hp.1]
      intro h
      have h : ranks a = ranks b := by simpa using h
      have := mem_ranks.mpr hbq
      rw [← h, mem_ranks, haq] at this
      cases this
  · have haq : a q = true := by
      have : b q = false := by simpa using hbq
      rw [this] at hq
      simpa using hq
    rw [collective_stuck (p := p) (q := q) (kc := (w.files.length, .group (ranks a))) hvalid]
    · rfl
    · rw [if_pos hp.2, if_pos hp.1]
    · exact has_group.mpr (mem_ranks.mpr haq)
    · rw [if_neg hbq]
      simp

/-- **C136** FINDING: If the process with number 0 is not active, the attributes are not written by any process. -/
theorem C136_violated_attributes (a : Fin N → Bool) (h0 : ∀ q : Fin N, q.val = 0 → a q = false) (p : Fin N) (hp : a p = true) :
    ∃ w, run .output .start (Round.calls ⟨some a, [everyone]⟩) = .ok w ∧ w.transfers = [⟨0, ranks a, false⟩] := by
  obtain ⟨w, e1, _, e3, _⟩ := C136_output_partial [⟨some a, [everyone]⟩] (by simp) (by simp [chosen])
  refine ⟨w, by simpa using e1, ?_⟩
  rw [e3]
  have hne : ranks a ≠ [] := fun h => by
    have := ranks_eq_nil.mp h p
    rw [hp] at this
    cases this
  have hany : ((List.finRange N).any fun q => decide (q.val = 0) && a q) = false := by
    rw [List.any_eq_false]
    intro q _
    by_cases h : q.val = 0
    · simp [h0 q h]
    · simp [h]
  simp [transfersFrom, chosen, hne, hany]

/-- **C136** FINDING: `readGrid`, unlike `writeGrid`, fails in a process that is not active. -/
theorem C136_violated_read (a : Fin N → Bool) (q : Fin N) (hq : a q = false) :
    run .input .start [.setActive fun p => some (a p), .open everyone, .transfer everyone] = .error .failed := by
  rw [run_cons]
  show run .input ⟨fun p => Proc.new.setActive (some (a p)), [], []⟩ _ = _
  rw [run_cons, open_all .input (a := a) (fun _ => rfl) (fun _ => rfl) (Or.inl fun _ => rfl) (fun p hp => by
        show (if p ∈ ranks a then _ else _) = _
        rw [if_pos (mem_ranks.mpr hp)])]
  show run .input _ [_] = _
  rw [run_one]
  show readGrid _ _ = _
  unfold readGrid
  rw [if_pos]
  simp only [List.any_eq_true, Bool.and_eq_true, Option.isNone_iff_eq_none]
  exact ⟨q, List.mem_finRange _, trivial, by rw [hq]; rfl⟩

/-- **C136** FINDING: A copy of a stream is active in all processes, whatever has been chosen for the original. -/
theorem C136_violated_copy (kind : Kind) (a : Fin N → Bool) :
    ∃ w, run kind .start [.setActive fun p => some (a p), .copy, .open everyone] = .ok w ∧ w.files = [List.finRange N] := by
  refine ⟨_, (run_cons _ _ _ _).trans ((run_cons _ _ _ _).trans ((run_one _ _ _).trans (open_all kind (a := everyone)
    (fun _ => rfl) (fun _ => rfl) (Or.inr fun _ => rfl) fun p _ => ?_))), ?_⟩
  · rw [ranks_all]
    cases kind <;> rfl
  · show [] ++ [ranks everyone] = _
    rw [ranks_all]; rfl

/-- **C136** FINDING: A copy of an output stream that has been used can not be used: the communicator to make files with is not initialised. -/
theorem C136_violated_copy_of_used (p : Fin N) :
    run .output .start ((Round.calls ⟨none, []⟩) ++ [.copy, .open (everyone : Fin N → Bool)]) = .error .invalid := by
  obtain ⟨w, e1, _, _, e4⟩ := output_first none [] (everyone : Fin N → Bool) rfl (by simp)
  rw [run_append, e1]
  show run .output ⟨fun p => (w.procs p).copied, w.files, w.transfers⟩ [.open everyone] = _
  rw [run_one]
  show openOutput _ _ = _
  unfold openOutput
  rw [makeGroup_all _ (Or.inr fun _ => rfl)]
  show openFile _ _ _ = _
  unfold openFile
  rw [collective_invalid (p := p) (kc := (w.files.length, .unset))]
  · rfl
  · have hi : (w.procs p).initialised = true := ((e4 p).2.2.2.1 rfl).1
    simp [Proc.copied, Proc.group, Proc.prepare, hi]
  · rfl

/-- non-vacuity of the findings, with two or three processes -/
example : run (N := 2) .input .start [.setActive ![some true, none], .open everyone] = .error .stuck ∧
    run (N := 2) .input .start (Round.calls ⟨some ![true, false], [![true, false]]⟩ ++ [.open everyone]) = .error .stuck ∧
    run (N := 3) .output .start (Round.calls ⟨some ![true, true, false], [everyone]⟩ ++
      [.setActive fun p => some (![true, false, false] p), .open everyone]) = .error .stuck ∧
    run (N := 2) .input .start [.setActive fun p => some (![true, false] p), .open everyone, .transfer everyone] = .error .failed :=
  ⟨C136_violated_choice_in_some_processes _ _ 0 1 rfl rfl,
   C136_violated_second_input_file ![true, false] 0 1 rfl rfl _ (by simp),
   C136_violated_changed_output _ ![true, true, false] ![true, false, false] rfl (by simp) 0 1 ⟨rfl, rfl⟩ (by decide),
   C136_violated_read _ 1 rfl⟩

end Schnek.Props.HdfActive
