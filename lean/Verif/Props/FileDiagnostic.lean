import Verif.Lemma.FileDiagnostic
import Verif.Props.Diagnostic

/-!
# Text files written by diagnostics (C115)
-/

namespace Schnek.Props

open Schnek.Diagnostic Schnek.Spec Schnek.Lemma.Diag

/-! ## one file for each output -/

/-- C115: an interval diagnostic that does not append leaves complete files: for each step at which output is due the file of that step contains
the text the field had then, if no later output went to the same file; other files are unchanged, and no file is open. This is so however
the stream buffers what is written. -/
theorem C115_separate (d : Interval) (master : Bool) (rank : ℤ) (steps : List (ℤ × List Char)) (hi : d.interval ≠ 0)
    (ha : d.append = false) (hs : d.single = true → master = true) (s : Stream) (D : Disk) (h : s.file = none) :
    ∃ calls, intervalCalls d master rank steps = some calls ∧ ∀ l, IsRunOf l calls →
      (runActions l s D).1.file = none ∧ (runActions l s D).2 = written D (outputsDue d rank steps) :=
  ⟨_, interval_blocks d master rank steps hi ha hs, fun l hl => run_blocks _ l s D hl h⟩

/-- C115: if the program stops at any point, the outputs so far are complete, except perhaps the last: its file has the beginning of the
text. -/
theorem C115_separate_stopped (d : Interval) (master : Bool) (rank : ℤ) (steps : List (ℤ × List Char)) (hi : d.interval ≠ 0)
    (ha : d.append = false) (hs : d.single = true → master = true) (s : Stream) (D : Disk) (h : s.file = none)
    (calls : List (Call × List Char)) (hc : intervalCalls d master rank steps = some calls) (l l' : List Action) (hl : IsRunOf l calls)
    (hp : l' <+: l) :
    ∃ done rest, outputsDue d rank steps = done ++ rest ∧
      ((runActions l' s D).2 = written D done ∨
        ∃ name text p rest', rest = (name, text) :: rest' ∧ p <+: text ∧
          (runActions l' s D).2 = Function.update (written D done) name (some p)) := by
  rw [interval_blocks d master rank steps hi ha hs, Option.some.injEq] at hc
  subst hc
  exact run_blocks_prefix _ l l' s D hl hp h

theorem written_other (l : List (List Char × List Char)) (n : List Char) : ∀ D : Disk, (∀ p ∈ l, p.1 ≠ n) → written D l n = D n := by
  induction l with
  | nil => intro D _; rfl
  | cons p l ih =>
    intro D h
    rw [show written D (p :: l) = written (Function.update D p.1 (some p.2)) l from rfl, ih _ fun q hq => h q (by simp [hq]),
      Function.update_of_ne (h p (by simp)).symm]

theorem written_append (l l' : List (List Char × List Char)) : ∀ D : Disk, written D (l ++ l') = written (written D l) l' := by
  induction l with
  | nil => intro D; rfl
  | cons p l ih => intro D; exact ih _

/-- C115: with `#t` in the name each step has its own file, with the text of that step. -/
theorem C115_each_step (d : Interval) (master : Bool) (rank : ℤ) (steps : List (ℤ × List Char)) (hi : d.interval ≠ 0)
    (ha : d.append = false) (hs : d.single = true → master = true) (s : Stream) (D : Disk) (h : s.file = none)
    (ht : Placeholder 't' d.fname) (hpos : ∀ p ∈ steps, 0 ≤ p.1) (hnodup : (steps.map Prod.fst).Nodup)
    (calls : List (Call × List Char)) (hc : intervalCalls d master rank steps = some calls) (l : List Action) (hl : IsRunOf l calls)
    (t : ℤ) (text : List Char) (hmem : (t, text) ∈ steps) (hdue : Due d.interval t) :
    (runActions l s D).2 (parsedFileName d.fname rank t) = some text := by
  obtain ⟨calls', hc', hrun⟩ := C115_separate d master rank steps hi ha hs s D h
  rw [hc, Option.some.injEq] at hc'
  subst hc'
  rw [(hrun l hl).2]
  obtain ⟨a, b, rfl⟩ := List.append_of_mem hmem
  have e : outputsDue d rank (a ++ (t, text) :: b) =
      outputsDue d rank a ++ ((parsedFileName d.fname rank t, text) :: outputsDue d rank b) := by
    unfold outputsDue
    rw [List.filter_append, List.filter_cons_of_pos (by simpa using hdue), List.map_append, List.map_cons]
  rw [e, written_append]
  rw [show ∀ D' : Disk, written D' ((parsedFileName d.fname rank t, text) :: outputsDue d rank b) =
    written (Function.update D' (parsedFileName d.fname rank t) (some text)) (outputsDue d rank b) from fun _ => rfl,
    written_other, Function.update_self]
  intro p hp he
  unfold outputsDue at hp
  obtain ⟨q, hq, rfl⟩ := List.mem_map.1 hp
  rw [List.mem_filter] at hq
  have hq1 : q.1 ≠ t := by
    rw [List.map_append, List.map_cons, List.nodup_append, List.nodup_cons] at hnodup
    intro he
    exact hnodup.2.1.1 (List.mem_map.2 ⟨q, hq.1, he⟩)
  have hqpos := hpos q (by simp [hq.1])
  rcases C66_steps d.fname ht rank q.1 t he with h | h
  · exact hq1 h
  · omega

/-- C115: a physical time diagnostic that does not append: the `k`-th output is in the file with number `k`. -/
theorem C115_delta {K : Type} [Field K] [LinearOrder K] (master : Bool) (rank : ℤ) (times : List (K × List Char)) :
    ∀ (d : Delta K), d.append = false → (d.single = true → master = true) → ∀ (s : Stream) (D : Disk), s.file = none → ∀ l,
    IsRunOf l (deltaCalls d master rank times).flatten →
      (runActions l s D).1.file = none ∧ (runActions l s D).2 =
        written D ((textsWritten (deltaCalls d master rank times)).zipIdx.map fun p => (parsedFileName d.fname rank (d.count + p.2 : ℕ), p.1)) := by
  suffices H : ∀ (d : Delta K), d.append = false → (d.single = true → master = true) → (deltaCalls d master rank times).flatten =
      blocks ((textsWritten (deltaCalls d master rank times)).zipIdx.map fun p => (parsedFileName d.fname rank (d.count + p.2 : ℕ), p.1)) by
    intro d ha hs s D h l hl
    rw [H d ha hs] at hl
    exact run_blocks _ l s D hl h
  induction times with
  | nil => intro d _ _; rfl
  | cons p times ih =>
    obtain ⟨now, text⟩ := p
    intro d ha hs
    have h1 : (d.single && !master) = false := by
      cases hd : d.single
      · rfl
      · rw [hs hd]; rfl
    by_cases hn : d.nextOutput ≤ now
    · have e : d.execute master rank now = (output d.toSettings rank d.count,
          { d with nextOutput := d.nextOutput + d.deltaTime, count := d.count + 1 }) := by
        unfold Delta.execute
        simp [h1, ha, hn]
      have e2 : deltaCalls d master rank ((now, text) :: times) = (output d.toSettings rank d.count).map (fun c => (c, text)) ::
          deltaCalls { d with nextOutput := d.nextOutput + d.deltaTime, count := d.count + 1 } master rank times := by
        rw [deltaCalls, e]
      rw [e2, List.flatten_cons, ih { d with nextOutput := d.nextOutput + d.deltaTime, count := d.count + 1 } ha hs]
      have e3 : ∀ cs, textsWritten ((output d.toSettings rank d.count).map (fun c => (c, text)) :: cs) = text :: textsWritten cs := by
        intro cs
        simp [textsWritten, output, ha]
      rw [e3, List.zipIdx_cons, List.map_cons, blocks, blocks, List.flatMap_cons]
      congr 1
      · simp [output, ha]
      · rw [List.zipIdx_succ, List.map_map]
        congr 1
        refine List.map_congr_left fun q _ => ?_
        simp only [Function.comp_apply]
        rw [show d.count + 1 + q.2 = d.count + (q.2 + 1) by omega]
    · have e : d.execute master rank now = ([], d) := by
        unfold Delta.execute
        simp [h1, ha, hn]
      have e2 : deltaCalls d master rank ((now, text) :: times) = [] :: deltaCalls d master rank times := by
        rw [deltaCalls, e, List.map_nil]
      rw [e2, List.flatten_cons, List.nil_append, ih d ha hs]
      rfl

/-! ## one file for all outputs -/

/-- C115: an interval diagnostic that appends and is first executed at step 0 writes one file: in the end it contains the texts of all steps
at which output was due, one after the other, and other files are unchanged. -/
theorem C115_append_partial (d : Interval) (master : Bool) (rank : ℤ) (text0 : List Char) (steps : List (ℤ × List Char))
    (hi : d.interval ≠ 0) (ha : d.append = true) (hs : d.single = true → master = true) (h0 : ∀ p ∈ steps, p.1 ≠ 0) (s : Stream) (D : Disk)
    (h : s.file = none) :
    ∃ calls, intervalCalls d master rank ((0, text0) :: steps) = some calls ∧
      ∀ l, IsRunOf l calls → (runActions l s D).1.destroy (runActions l s D).2 =
        Function.update D d.fname (some (text0 ++ ((steps.filter fun p => Due d.interval p.1).map Prod.snd).flatten)) := by
  have e : intervalCalls d master rank ((0, text0) :: steps) = some ((.open d.fname, text0) ::
      (text0 :: (steps.filter fun p => Due d.interval p.1).map Prod.snd).map fun t => (.write, t)) := by
    rw [intervalCalls_cons, interval_execute d master rank 0 hi hs, interval_writes d master rank steps h0 hi ha hs]
    simp [ha, output, Due]
  refine ⟨_, e, ?_⟩
  intro l hl
  obtain ⟨a, l1, rfl, hac, -, h1⟩ := isRunOf_cons hl
  obtain ⟨w, eD⟩ := open_writing d.fname s D h
  have r : a.run s D = s.openFile d.fname D := by unfold Action.run; rw [hac]
  obtain ⟨c', b', e1, -, w', e4⟩ := run_writes d.fname _ l1 _ _ [] [] h1 w
  rw [runActions_cons, r, destroy_writing w', e1]
  funext n
  by_cases hn : n = d.fname
  · subst hn
    simp
  · rw [Function.update_of_ne hn, Function.update_of_ne hn, e4 n hn, eD, Function.update_of_ne hn]

/-- C115: a physical time diagnostic that appends and is first executed at time 0 writes one file: in the end it contains the texts of all outputs,
one after the other, and other files are unchanged.

Missing for the full property: as for `C115_append_partial`. -/
theorem C115_delta_append_partial {K : Type} [Field K] [LinearOrder K] (master : Bool) (rank : ℤ) (d : Delta K) (text0 : List Char)
    (times : List (K × List Char)) (ha : d.append = true) (hs : d.single = true → master = true) (h0 : ∀ p ∈ times, p.1 ≠ 0) (s : Stream)
    (D : Disk) (h : s.file = none) (l : List Action) (hl : IsRunOf l (deltaCalls d master rank ((0, text0) :: times)).flatten) :
    (runActions l s D).1.destroy (runActions l s D).2 =
      Function.update D d.fname (some (textsWritten (deltaCalls d master rank ((0, text0) :: times))).flatten) := by
  have h1 : (d.single && !master) = false := by
    cases hd : d.single
    · rfl
    · rw [hs hd]; rfl
  have later : ∀ (times : List (K × List Char)), (∀ p ∈ times, p.1 ≠ 0) → ∀ (d : Delta K), d.append = true → (d.single && !master) = false →
      (deltaCalls d master rank times).flatten = (textsWritten (deltaCalls d master rank times)).map fun t => (.write, t) := by
    intro times
    induction times with
    | nil => intro _ d _ _; rfl
    | cons p times ih =>
      intro hp d ha h1
      obtain ⟨now, text⟩ := p
      have hnow : now ≠ 0 := hp (now, text) (by simp)
      have e : d.execute master rank now = (if d.nextOutput ≤ now then ([.write],
          { d with nextOutput := d.nextOutput + d.deltaTime, count := d.count + 1 }) else ([], d)) := by
        unfold Delta.execute
        by_cases hn : d.nextOutput ≤ now <;> simp [h1, ha, hn, output, hnow.symm]
      rw [deltaCalls, e]
      split
      · have e3 : ∀ cs, textsWritten ([.write].map (fun c => (c, text)) :: cs) = text :: textsWritten cs := fun cs => by simp [textsWritten]
        dsimp only
        rw [List.flatten_cons, ih (fun q hq => hp q (by simp [hq])) { d with nextOutput := d.nextOutput + d.deltaTime, count := d.count + 1 } ha h1, e3]
        rfl
      · have e3 : ∀ cs, textsWritten (([] : List Call).map (fun c => (c, text)) :: cs) = textsWritten cs := fun cs => rfl
        dsimp only
        rw [List.flatten_cons, ih (fun q hq => hp q (by simp [hq])) d ha h1, e3]
        rfl
  have e : (deltaCalls d master rank ((0, text0) :: times)).flatten = (.open d.fname, text0) ::
      (textsWritten (deltaCalls d master rank ((0, text0) :: times))).map fun t => (.write, t) := by
    have e : d.execute master rank 0 = (if d.nextOutput ≤ 0 then ([.open d.fname, .write],
        { d with nextOutput := d.nextOutput + d.deltaTime, count := d.count + 1 }) else ([.open d.fname], d)) := by
      unfold Delta.execute
      by_cases hn : d.nextOutput ≤ 0 <;> simp [h1, ha, hn, output]
    rw [deltaCalls, e]
    split
    · have e3 : ∀ cs, textsWritten ([.open d.fname, .write].map (fun c => (c, text0)) :: cs) = text0 :: textsWritten cs := fun cs => by
        simp [textsWritten]
      dsimp only
      rw [List.flatten_cons, later times h0 { d with nextOutput := d.nextOutput + d.deltaTime, count := d.count + 1 } ha h1, e3]
      rfl
    · have e3 : ∀ cs, textsWritten ([.open d.fname].map (fun c => (c, text0)) :: cs) = textsWritten cs := fun cs => by simp [textsWritten]
      dsimp only
      rw [List.flatten_cons, later times h0 d ha h1, e3]
      rfl
  rw [e] at hl
  generalize textsWritten (deltaCalls d master rank ((0, text0) :: times)) = texts at hl ⊢
  obtain ⟨a, l1, rfl, hac, -, h1⟩ := isRunOf_cons hl
  obtain ⟨w, eD⟩ := open_writing d.fname s D h
  have r : a.run s D = s.openFile d.fname D := by unfold Action.run; rw [hac]
  obtain ⟨c', b', e1, -, w', e4⟩ := run_writes d.fname _ l1 _ _ [] [] h1 w
  rw [runActions_cons, r, destroy_writing w', e1]
  funext n
  by_cases hn : n = d.fname
  · subst hn
    simp
  · rw [Function.update_of_ne hn, Function.update_of_ne hn, e4 n hn, eD, Function.update_of_ne hn]

/-- C115: if the program stops at any point, the file contains the beginning of this text, and other files are unchanged. -/
theorem C115_append_stopped_partial (d : Interval) (master : Bool) (rank : ℤ) (text0 : List Char) (steps : List (ℤ × List Char))
    (hi : d.interval ≠ 0) (ha : d.append = true) (hs : d.single = true → master = true) (h0 : ∀ p ∈ steps, p.1 ≠ 0) (s : Stream) (D : Disk)
    (h : s.file = none) (calls : List (Call × List Char)) (hc : intervalCalls d master rank ((0, text0) :: steps) = some calls)
    (l l' : List Action) (hl : IsRunOf l calls) (hp : l' <+: l) (hne : l' ≠ []) :
    ∃ p, p <+: text0 ++ ((steps.filter fun p => Due d.interval p.1).map Prod.snd).flatten ∧
      (runActions l' s D).2 = Function.update D d.fname (some p) := by
  have e : intervalCalls d master rank ((0, text0) :: steps) = some ((.open d.fname, text0) ::
      (text0 :: (steps.filter fun p => Due d.interval p.1).map Prod.snd).map fun t => (.write, t)) := by
    rw [intervalCalls_cons, interval_execute d master rank 0 hi hs, interval_writes d master rank steps h0 hi ha hs]
    simp [ha, output, Due]
  rw [e, Option.some.injEq] at hc
  subst hc
  obtain ⟨a, l1, rfl, hac, -, h1⟩ := isRunOf_cons hl
  obtain ⟨a', l1', rfl⟩ := List.exists_cons_of_ne_nil hne
  rw [List.cons_prefix_cons] at hp
  obtain ⟨rfl, hp⟩ := hp
  obtain ⟨calls', hpre, hrun⟩ := isRunOf_prefix h1 hp
  rw [List.prefix_map_iff] at hpre
  obtain ⟨texts, ht, rfl⟩ := hpre
  obtain ⟨w, eD⟩ := open_writing d.fname s D h
  have r : a'.run s D = s.openFile d.fname D := by unfold Action.run; rw [hac]
  obtain ⟨c', b', e1, -, w', e4⟩ := run_writes d.fname _ l1' _ _ [] [] hrun w
  refine ⟨c', ?_, ?_⟩
  · have : c' <+: texts.flatten := ⟨b', by simpa using e1⟩
    obtain ⟨more, hm⟩ := ht
    refine this.trans ⟨more.flatten, ?_⟩
    rw [← List.flatten_append, hm, List.flatten_cons]
  · rw [runActions_cons, r]
    funext n
    by_cases hn : n = d.fname
    · subst hn
      rw [w'.disk, Function.update_self]
    · rw [Function.update_of_ne hn, e4 n hn, eD, Function.update_of_ne hn]

/-! ## several diagnostics and processes -/

/-- C115: what a diagnostic does with its files does not depend on other diagnostics, in the same process or in others, that work at
the same time, in any order, as long as they open other files. -/
theorem C115_independent {ι : Type} [DecidableEq ι] (i : ι) (N : Set (List Char)) (l : List (ι × Action)) (ss : ι → Stream) (D : Disk)
    (hss : ∀ j, (ss j).file = none) (hi : ∀ a f, (i, a) ∈ l → a.call = .open f → f ∈ N)
    (hj : ∀ j a f, j ≠ i → (j, a) ∈ l → a.call = .open f → f ∉ N) :
    let alone := runActions ((l.filter fun x => x.1 = i).map Prod.snd) (ss i) D
    (runAll l ss D).1 i = alone.1 ∧ ∀ n ∈ N, (runAll l ss D).2 n = alone.2 n :=
  runAll_alone i N l ss D D (fun _ _ => rfl) (fun f hf => by rw [hss i] at hf; cases hf) (fun j _ f hf => by rw [hss j] at hf; cases hf)
    (fun a ha f hf => hi a f ha hf) (fun j a hne ha f hf => hj j a f hne ha hf)

/-- C115: all processes of a parallel run write files for each step, at their own pace, and the name has `#p`, then `#t`, with something
between them that is not only digits. Then each file has the text its process had at its step. -/
theorem C115_parallel (a b c : List Char) (ha : ∀ x ∈ a, x ≠ '#') (hb : ∀ x ∈ b, x ≠ '#') (x : Char) (hxb : x ∈ b) (hx : x.isDigit = false)
    (P : ℕ) (d : Interval) (hname : d.fname = a ++ '#' :: 'p' :: b ++ '#' :: 't' :: c) (hi : d.interval ≠ 0) (hap : d.append = false)
    (hs : d.single = false) (steps : Fin P → List (ℤ × List Char)) (hpos : ∀ p, ∀ q ∈ steps p, 0 ≤ q.1)
    (hnodup : ∀ p, ((steps p).map Prod.fst).Nodup) (l : List (Fin P × Action))
    (hl : ∀ p : Fin P, ∃ calls, intervalCalls d (p.1 = 0) (p.1 : ℤ) (steps p) = some calls ∧
      IsRunOf ((l.filter fun x => x.1 = p).map Prod.snd) calls)
    (D : Disk) (p : Fin P) (t : ℤ) (text : List Char) (hmem : (t, text) ∈ steps p) (hdue : Due d.interval t) :
    (runAll l (fun _ => Stream.new) D).2 (parsedFileName d.fname (p.1 : ℤ) t) = some text := by
  have opens : ∀ (q : Fin P) (act : Action) (f : List Char), (q, act) ∈ l → act.call = .open f →
      ∃ t' : ℤ, f = parsedFileName d.fname (q.1 : ℤ) t' := by
    intro q act f hq hf
    obtain ⟨calls, hc, hrun⟩ := hl q
    rw [interval_blocks d _ _ _ hi hap (by simp [hs]), Option.some.injEq] at hc
    subst hc
    have hin : (Call.open f, act.text) ∈ blocks (outputsDue d (q.1 : ℤ) (steps q)) := by
      rw [← hrun]
      refine List.mem_map.2 ⟨act, List.mem_map.2 ⟨(q, act), List.mem_filter.2 ⟨hq, by simp⟩, rfl⟩, by rw [hf]⟩
    unfold blocks at hin
    rw [List.mem_flatMap] at hin
    obtain ⟨o, ho, hm⟩ := hin
    unfold outputsDue at ho
    obtain ⟨st, -, rfl⟩ := List.mem_map.1 ho
    refine ⟨st.1, ?_⟩
    have : f = parsedFileName d.fname (q.1 : ℤ) st.1 ∧ act.text = st.2 := by simpa using hm
    exact this.1
  obtain ⟨calls, hc, hrun⟩ := hl p
  obtain ⟨-, e⟩ := C115_independent p {f | ∃ t' : ℤ, f = parsedFileName d.fname (p.1 : ℤ) t'} l (fun _ => Stream.new) D (fun _ => rfl)
    (fun act f hm hf => opens p act f hm hf)
    (fun j act f hne hm hf ⟨t', ht'⟩ => by
      obtain ⟨t'', ht''⟩ := opens j act f hm hf
      rw [ht'', hname] at ht'
      obtain ⟨h1, -⟩ := C66_both_partial a b c ha hb x hxb hx _ _ _ _ (by positivity) (by positivity) ht'
      exact hne (Fin.ext (by exact_mod_cast h1)))
  rw [e _ ⟨t, rfl⟩]
  refine C115_each_step d _ _ (steps p) hi hap (by simp [hs]) Stream.new D rfl ?_ (hpos p) (hnodup p) calls hc _ hrun t text hmem hdue
  rw [hname]
  exact ⟨a ++ '#' :: 'p' :: b, c, by simp⟩

/-! ## examples -/

/-- a diagnostic that writes every second step -/
def fileDiagnostic (append : Bool) (name : String) : Interval := ⟨⟨name.toList, append, false, true⟩, 2⟩

example : intervalCalls (fileDiagnostic false "o#t") true 0 [(0, ['a']), (1, ['b']), (2, ['c'])] =
    some [(.open ['o', '0'], ['a']), (.write, ['a']), (.close, ['a']), (.open ['o', '2'], ['c']), (.write, ['c']), (.close, ['c'])] := by
  decide +kernel

example : outputsDue (fileDiagnostic false "o#t") 0 [(0, ['a']), (1, ['b']), (2, ['c'])] = [(['o', '0'], ['a']), (['o', '2'], ['c'])] := by
  decide +kernel

/-- the calls of the diagnostic, with buffers that are flushed for `k` characters -/
def actionsOf (k : ℕ) (calls : Option (List (Call × List Char))) : List Action := (calls.getD []).map fun c => ⟨c.1, c.2, k⟩

example : IsRunOf (actionsOf 1 (intervalCalls (fileDiagnostic false "o#t") true 0 [(0, ['a']), (2, ['c'])]))
    [(.open ['o', '0'], ['a']), (.write, ['a']), (.close, ['a']), (.open ['o', '2'], ['c']), (.write, ['c']), (.close, ['c'])] := by
  unfold IsRunOf; decide +kernel

/-- what the example leaves in a file -/
def leaves (d : Interval) (k : ℕ) (steps : List (ℤ × List Char)) (name : String) : Option (List Char) :=
  let r := runActions (actionsOf k (intervalCalls d true 0 steps)) Stream.new fun _ => none
  r.1.destroy r.2 name.toList

example : (leaves (fileDiagnostic false "o#t") 1 [(0, ['a']), (1, ['b']), (2, ['c', 'd'])] "o2",
    leaves (fileDiagnostic true "o") 1 [(0, ['a']), (1, ['b']), (2, ['c', 'd'])] "o") = (some ['c', 'd'], some ['a', 'c', 'd']) := by
  decide +kernel

example : textsWritten (deltaCalls (⟨⟨"o#t".toList, false, false, true⟩, 1, 0, 0⟩ : Delta ℚ) true 0 [(0, ['a']), (1 / 2, ['b']), (1, ['c'])]) =
    [['a'], ['c']] := by decide +kernel

example : textsWritten (deltaCalls (⟨⟨"o".toList, true, false, true⟩, 1, 0, 0⟩ : Delta ℚ) true 0 [(0, ['a']), (1 / 2, ['b']), (1, ['c'])]) =
    [['a'], ['c']] := by decide +kernel

/-- two processes, one after the other in each step -/
def twoProcesses (d : Interval) (k : ℕ) : List (Fin 2 × Action) :=
  let l := fun (p : ℤ) (m : Bool) (t : ℤ) (text : List Char) => actionsOf k (intervalCalls d m p [(t, text)])
  (l 0 true 0 ['a']).map (0, ·) ++ (l 1 false 0 ['b']).map (1, ·) ++ (l 1 false 2 ['d']).map (1, ·) ++ (l 0 true 2 ['c']).map (0, ·)

/-- the hypotheses of `C115_parallel` are met -/
example : ∀ p : Fin 2, intervalCalls (fileDiagnostic false "o#p-#t") (p.1 = 0) (p.1 : ℤ)
      (if p = 0 then [(0, ['a']), (2, ['c'])] else [(0, ['b']), (2, ['d'])]) =
    some ((((twoProcesses (fileDiagnostic false "o#p-#t") 1).filter fun x => x.1 = p).map Prod.snd).map fun a => (a.call, a.text)) := by
  decide +kernel

/-! ## where the code does something else -/

/-- C115 is false for a diagnostic that appends and is executed at step 0 twice (for example for an initial output): the second call of `open`
fails, and all later output is lost without a message. -/
theorem C115_violated_again : leaves (fileDiagnostic true "o") 1 [(0, ['a']), (0, ['b']), (2, ['c']), (4, ['d'])] "o" = some ['a'] := by
  decide +kernel

/-- C115 is false for a diagnostic that appends in a run that does not begin at step 0: nothing is written, and there is no message. -/
theorem C115_violated_restart : leaves (fileDiagnostic true "o") 1 [(1, ['a']), (2, ['b']), (4, ['c'])] "o" = none := by decide +kernel

/-- C115 is false for a diagnostic that appends in a parallel run, even if the name has `#p`: all processes open the same file, and overwrite what
others wrote. -/
theorem C115_violated_parallel : (runAll (twoProcesses (fileDiagnostic true "o#p") 1) (fun _ => Stream.new) fun _ => none).2 "o#p".toList =
    some ['b', 'c'] := by decide +kernel

end Schnek.Props
