import Verif.Spec.FileDiagnostic
import Verif.Lemma.Diagnostic

/-!
# Lemmas about text files
-/

namespace Schnek.Lemma.Diag

open Schnek.Diagnostic Schnek.Spec

theorem runActions_append (a b : List Action) (s : Stream) (D : Disk) :
    runActions (a ++ b) s D = runActions b (runActions a s D).1 (runActions a s D).2 := by
  unfold runActions
  rw [List.foldl_append]

theorem runActions_cons (a : Action) (b : List Action) (s : Stream) (D : Disk) :
    runActions (a :: b) s D = runActions b (a.run s D).1 (a.run s D).2 := rfl

theorem overwrite_end (c t : List Char) : overwrite c c.length t = c ++ t := by
  unfold overwrite
  by_cases h : t = []
  · simp [h]
  · rw [if_neg h]
    simp

/-- The stream writes to `f`, which has the content `c`; `b` is in the buffer. -/
structure Writing (f c b : List Char) (s : Stream) (D : Disk) : Prop where
  file : s.file = some f
  pos : s.pos = c.length
  buffer : s.buffer = b
  fail : s.fail = false
  disk : D f = some c

theorem open_writing (name : List Char) (s : Stream) (D : Disk) (hs : s.file = none) :
    Writing name [] [] (s.openFile name D).1 (s.openFile name D).2 ∧ (s.openFile name D).2 = Function.update D name (some []) := by
  unfold Stream.openFile
  rw [hs]
  exact ⟨⟨rfl, rfl, rfl, rfl, by simp⟩, rfl⟩

theorem flush_writing {f c b : List Char} {s : Stream} {D : Disk} (k : ℕ) (h : Writing f c b s D) :
    Writing f (c ++ b.take k) (b.drop k) (s.flush k D).1 (s.flush k D).2 ∧
      (s.flush k D).2 = Function.update D f (some (c ++ b.take k)) := by
  unfold Stream.flush
  rw [h.file]
  have e : overwrite ((D f).getD []) s.pos (s.buffer.take k) = c ++ b.take k := by
    rw [h.disk, h.pos, h.buffer, Option.getD_some, overwrite_end]
  dsimp only
  rw [e]
  refine ⟨⟨rfl, ?_, ?_, h.fail, by simp⟩, rfl⟩
  · dsimp only
    rw [h.pos, h.buffer, List.length_append]
  · dsimp only
    rw [h.buffer]

theorem write_writing {f c b : List Char} {s : Stream} {D : Disk} (text : List Char) (k : ℕ) (h : Writing f c b s D) :
    Writing f (c ++ (b ++ text).take k) ((b ++ text).drop k) (s.write text k D).1 (s.write text k D).2 ∧
      (s.write text k D).2 = Function.update D f (some (c ++ (b ++ text).take k)) := by
  unfold Stream.write
  rw [h.fail, h.file]
  simp only [Bool.false_eq_true, if_false]
  exact flush_writing k ⟨rfl, h.pos, by simp [h.buffer], rfl, h.disk⟩

theorem close_writing {f c b : List Char} {s : Stream} {D : Disk} (h : Writing f c b s D) :
    (s.close D).1.file = none ∧ (s.close D).2 = Function.update D f (some (c ++ b)) := by
  unfold Stream.close
  rw [h.file]
  obtain ⟨-, h2⟩ := flush_writing s.buffer.length h
  refine ⟨rfl, ?_⟩
  dsimp only
  rw [h2, h.buffer, List.take_length]

theorem destroy_writing {f c b : List Char} {s : Stream} {D : Disk} (h : Writing f c b s D) :
    s.destroy D = Function.update D f (some (c ++ b)) := by
  unfold Stream.destroy
  rw [h.file]
  obtain ⟨-, h2⟩ := flush_writing s.buffer.length h
  dsimp only
  rw [h2, h.buffer, List.take_length]

/-! ## one file for each output -/

/-- the calls for outputs to separate files -/
def blocks (outs : List (List Char × List Char)) : List (Call × List Char) :=
  outs.flatMap fun p => [(.open p.1, p.2), (.write, p.2), (.close, p.2)]

theorem isRunOf_cons {l : List Action} {c : Call} {t : List Char} {rest : List (Call × List Char)} (h : IsRunOf l ((c, t) :: rest)) :
    ∃ a l', l = a :: l' ∧ a.call = c ∧ a.text = t ∧ IsRunOf l' rest := by
  unfold IsRunOf at h ⊢
  cases l with
  | nil => cases h
  | cons a l' =>
    rw [List.map_cons, List.cons.injEq, Prod.mk.injEq] at h
    exact ⟨a, l', rfl, h.1.1, h.1.2, h.2⟩

theorem isRunOf_prefix {l l' : List Action} {calls : List (Call × List Char)} (h : IsRunOf l calls) (hp : l' <+: l) :
    ∃ calls', calls' <+: calls ∧ IsRunOf l' calls' := by
  obtain ⟨r, rfl⟩ := hp
  refine ⟨_, ?_, rfl⟩
  rw [← h, List.map_append]
  exact List.prefix_append _ _

theorem run_block {a b c : Action} {name text : List Char} (ha : a.call = .open name) (hb : b.call = .write) (hbt : b.text = text)
    (hc : c.call = .close) {s : Stream} (hs : s.file = none) (D : Disk) :
    (runActions [a] s D).2 = Function.update D name (some []) ∧
    (∃ p, p <+: text ∧ (runActions [a, b] s D).2 = Function.update D name (some p)) ∧
    (runActions [a, b, c] s D).1.file = none ∧ (runActions [a, b, c] s D).2 = Function.update D name (some text) := by
  obtain ⟨w1, e1⟩ := open_writing name s D hs
  have r1 : a.run s D = s.openFile name D := by unfold Action.run; rw [ha]
  obtain ⟨w2, e2⟩ := write_writing text b.flushed w1
  have r2 : b.run (s.openFile name D).1 (s.openFile name D).2 = (s.openFile name D).1.write text b.flushed (s.openFile name D).2 := by
    unfold Action.run; rw [hb, hbt]
  obtain ⟨w3, e3⟩ := close_writing w2
  have x1 : runActions [a] s D = s.openFile name D := by rw [runActions_cons, r1]; rfl
  have x2 : runActions [a, b] s D = (s.openFile name D).1.write text b.flushed (s.openFile name D).2 := by
    rw [runActions_cons, r1, runActions_cons, r2]; rfl
  have x3 : runActions [a, b, c] s D = (runActions [a, b] s D).1.close (runActions [a, b] s D).2 := by
    rw [x2, runActions_cons, r1, runActions_cons, r2, runActions_cons]
    unfold Action.run; rw [hc]; rfl
  refine ⟨by rw [x1, e1], ⟨_, List.take_prefix b.flushed text, ?_⟩, by rw [x3, x2]; exact w3, ?_⟩
  · rw [x2, e2, e1]
    simp
  · rw [x3, x2, e3, e2, e1]
    simp

theorem run_blocks (outs : List (List Char × List Char)) : ∀ (l : List Action) (s : Stream) (D : Disk), IsRunOf l (blocks outs) →
    s.file = none → (runActions l s D).1.file = none ∧ (runActions l s D).2 = written D outs := by
  induction outs with
  | nil =>
    intro l s D h hs
    have : l = [] := by simpa [IsRunOf, blocks] using h
    subst this
    exact ⟨hs, rfl⟩
  | cons p outs ih =>
    intro l s D h hs
    have h' : IsRunOf l ((.open p.1, p.2) :: (.write, p.2) :: (.close, p.2) :: blocks outs) := h
    obtain ⟨a, l1, rfl, ha, -, h1⟩ := isRunOf_cons h'
    obtain ⟨b, l2, rfl, hb, hbt, h2⟩ := isRunOf_cons h1
    obtain ⟨c, l3, rfl, hc, -, h3⟩ := isRunOf_cons h2
    obtain ⟨-, -, e1, e2⟩ := run_block ha hb hbt hc hs D
    have : a :: b :: c :: l3 = [a, b, c] ++ l3 := rfl
    rw [this, runActions_append, e2]
    exact ih l3 _ _ h3 e1

/-- at any time, all outputs so far are complete, except perhaps the last -/
theorem run_blocks_prefix (outs : List (List Char × List Char)) : ∀ (l l' : List Action) (s : Stream) (D : Disk), IsRunOf l (blocks outs) →
    l' <+: l → s.file = none → ∃ done rest, outs = done ++ rest ∧
      ((runActions l' s D).2 = written D done ∨
        ∃ name text p rest', rest = (name, text) :: rest' ∧ p <+: text ∧
          (runActions l' s D).2 = Function.update (written D done) name (some p)) := by
  induction outs with
  | nil =>
    intro l l' s D h hp hs
    have : l = [] := by simpa [IsRunOf, blocks] using h
    subst this
    rw [List.prefix_nil.1 hp]
    exact ⟨[], [], rfl, Or.inl rfl⟩
  | cons p outs ih =>
    intro l l' s D h hp hs
    have h' : IsRunOf l ((.open p.1, p.2) :: (.write, p.2) :: (.close, p.2) :: blocks outs) := h
    obtain ⟨a, l1, rfl, ha, -, h1⟩ := isRunOf_cons h'
    obtain ⟨b, l2, rfl, hb, hbt, h2⟩ := isRunOf_cons h1
    obtain ⟨c, l3, rfl, hc, -, h3⟩ := isRunOf_cons h2
    obtain ⟨e1, ⟨q, hq, e2⟩, e3, e4⟩ := run_block ha hb hbt hc hs D
    rcases l' with _ | ⟨a', l'⟩
    · exact ⟨[], p :: outs, rfl, Or.inl rfl⟩
    · rw [List.cons_prefix_cons] at hp
      obtain ⟨rfl, hp⟩ := hp
      rcases l' with _ | ⟨b', l'⟩
      · exact ⟨[], p :: outs, rfl, Or.inr ⟨p.1, p.2, [], outs, rfl, List.nil_prefix, e1⟩⟩
      · rw [List.cons_prefix_cons] at hp
        obtain ⟨rfl, hp⟩ := hp
        rcases l' with _ | ⟨c', l'⟩
        · exact ⟨[], p :: outs, rfl, Or.inr ⟨p.1, p.2, q, outs, rfl, hq, e2⟩⟩
        · rw [List.cons_prefix_cons] at hp
          obtain ⟨rfl, hp⟩ := hp
          obtain ⟨done, rest, e, hor⟩ := ih l3 l' (runActions [a', b', c'] s D).1 (Function.update D p.1 (some p.2)) h3 hp e3
          have : a' :: b' :: c' :: l' = [a', b', c'] ++ l' := rfl
          rw [this, runActions_append, e4]
          exact ⟨p :: done, rest, by rw [e]; rfl, hor⟩

/-! ## one file for all outputs -/

theorem run_writes (f : List Char) (texts : List (List Char)) : ∀ (l : List Action) (s : Stream) (D : Disk) (c b : List Char),
    IsRunOf l (texts.map fun t => (.write, t)) → Writing f c b s D → ∃ c' b', c' ++ b' = c ++ b ++ texts.flatten ∧ c <+: c' ∧
      Writing f c' b' (runActions l s D).1 (runActions l s D).2 ∧ ∀ n, n ≠ f → (runActions l s D).2 n = D n := by
  induction texts with
  | nil =>
    intro l s D c b h hw
    have : l = [] := by simpa [IsRunOf] using h
    subst this
    exact ⟨c, b, by simp, List.prefix_rfl, hw, fun n _ => rfl⟩
  | cons t texts ih =>
    intro l s D c b h hw
    obtain ⟨a, l1, rfl, ha, hat, h1⟩ := isRunOf_cons (show IsRunOf l ((.write, t) :: texts.map fun t => (.write, t)) from h)
    have r : a.run s D = s.write t a.flushed D := by unfold Action.run; rw [ha, hat]
    obtain ⟨w, e⟩ := write_writing t a.flushed hw
    obtain ⟨c', b', e1, e2, e3, e4⟩ := ih l1 _ _ _ _ h1 w
    rw [runActions_cons, r]
    refine ⟨c', b', ?_, (List.prefix_append _ _).trans e2, e3, ?_⟩
    · rw [e1, List.append_assoc c, List.take_append_drop, List.flatten_cons]
      simp
    · intro n hn
      rw [e4 n hn, e]
      simp [hn]

/-! ## several diagnostics -/

theorem flush_other (k : ℕ) (s : Stream) (D : Disk) (n : List Char) (h : s.file ≠ some n) : (s.flush k D).2 n = D n := by
  unfold Stream.flush
  cases hf : s.file with
  | none => rfl
  | some f =>
    have : n ≠ f := fun e => h (by rw [hf, e])
    simp [this]

theorem flush_file (k : ℕ) (s : Stream) (D : Disk) : (s.flush k D).1.file = s.file := by
  unfold Stream.flush
  cases hf : s.file with
  | none => exact hf
  | some f => rfl

/-- a call changes only the file that is open or opened -/
theorem run_other (a : Action) (s : Stream) (D : Disk) (N : Set (List Char)) (hf : ∀ f, s.file = some f → f ∉ N)
    (ha : ∀ f, a.call = .open f → f ∉ N) :
    (∀ n ∈ N, (a.run s D).2 n = D n) ∧ ∀ f, (a.run s D).1.file = some f → f ∉ N := by
  have hne : ∀ n ∈ N, s.file ≠ some n := fun n hn he => hf n he hn
  unfold Action.run
  cases hc : a.call with
  | «open» name =>
    dsimp only
    unfold Stream.openFile
    cases hs : s.file with
    | none =>
      refine ⟨?_, ?_⟩
      · intro n hn
        have : n ≠ name := fun e => ha name hc (e ▸ hn)
        simp [this]
      · intro f h
        have : name = f := by simpa using h
        exact this ▸ ha name hc
    | some f0 =>
      refine ⟨fun _ _ => rfl, ?_⟩
      intro f h
      exact hf f (by simpa [hs] using h)
  | write =>
    dsimp only
    unfold Stream.write
    by_cases hfail : s.fail = true
    · rw [if_pos hfail]
      exact ⟨fun _ _ => rfl, hf⟩
    · rw [if_neg hfail]
      cases hs : s.file with
      | none => exact ⟨fun _ _ => rfl, fun f h => hf f (by simpa using h)⟩
      | some f0 =>
        refine ⟨fun n hn => flush_other _ _ _ _ (hs ▸ hne n hn), ?_⟩
        intro f h
        dsimp only at h
        rw [flush_file] at h
        exact hf f (hs ▸ h)
  | close =>
    dsimp only
    unfold Stream.close
    cases hs : s.file with
    | none => exact ⟨fun _ _ => rfl, fun f h => hf f (by simpa using h)⟩
    | some f0 =>
      refine ⟨fun n hn => flush_other _ _ _ _ (hne n hn), ?_⟩
      intro f h
      cases h

/-- a call depends only on the file that is open -/
theorem run_same (a : Action) (s : Stream) (D D' : Disk) (N : Set (List Char)) (hD : ∀ n ∈ N, D n = D' n) (hf : ∀ f, s.file = some f → f ∈ N)
    (ha : ∀ f, a.call = .open f → f ∈ N) :
    (a.run s D).1 = (a.run s D').1 ∧ (∀ n ∈ N, (a.run s D).2 n = (a.run s D').2 n) ∧ ∀ f, (a.run s D).1.file = some f → f ∈ N := by
  have flush : ∀ k (s : Stream), (∀ f, s.file = some f → f ∈ N) →
      (s.flush k D).1 = (s.flush k D').1 ∧ ∀ n ∈ N, (s.flush k D).2 n = (s.flush k D').2 n := by
    intro k s hf
    unfold Stream.flush
    cases hs : s.file with
    | none => exact ⟨rfl, hD⟩
    | some f =>
      refine ⟨rfl, ?_⟩
      intro n hn
      dsimp only
      by_cases h : n = f
      · subst h
        rw [Function.update_self, Function.update_self, hD n hn]
      · rw [Function.update_of_ne h, Function.update_of_ne h, hD n hn]
  unfold Action.run
  cases hc : a.call with
  | «open» name =>
    dsimp only
    unfold Stream.openFile
    cases hs : s.file with
    | none =>
      refine ⟨rfl, ?_, ?_⟩
      · intro n hn
        dsimp only
        by_cases h : n = name
        · subst h
          rw [Function.update_self, Function.update_self]
        · rw [Function.update_of_ne h, Function.update_of_ne h, hD n hn]
      · intro f h
        have : name = f := by simpa using h
        exact this ▸ ha name hc
    | some f0 =>
      refine ⟨rfl, hD, ?_⟩
      intro f h
      exact hf f (by simpa [hs] using h)
  | write =>
    dsimp only
    unfold Stream.write
    by_cases hfail : s.fail = true
    · rw [if_pos hfail, if_pos hfail]
      exact ⟨rfl, hD, hf⟩
    · rw [if_neg hfail, if_neg hfail]
      cases hs : s.file with
      | none => exact ⟨rfl, hD, fun f h => hf f (by simpa using h)⟩
      | some f0 =>
        obtain ⟨h1, h2⟩ := flush a.flushed { s with buffer := s.buffer ++ a.text } hf
        rw [hs] at h1 h2
        refine ⟨h1, h2, ?_⟩
        intro f h
        dsimp only at h
        rw [flush_file] at h
        exact hf f (by rw [hs]; exact h)
  | close =>
    dsimp only
    unfold Stream.close
    cases hs : s.file with
    | none => exact ⟨rfl, hD, fun f h => hf f (by simpa using h)⟩
    | some f0 =>
      obtain ⟨h1, h2⟩ := flush s.buffer.length s hf
      refine ⟨?_, h2, ?_⟩
      · dsimp only
        rw [h1]
      · intro f h
        cases h

/-- a diagnostic does the same with its files, whatever other diagnostics do with theirs -/
theorem runAll_alone {ι : Type} [DecidableEq ι] (i : ι) (N : Set (List Char)) (l : List (ι × Action)) :
    ∀ (ss : ι → Stream) (D D' : Disk), (∀ n ∈ N, D n = D' n) → (∀ f, (ss i).file = some f → f ∈ N) →
    (∀ j, j ≠ i → ∀ f, (ss j).file = some f → f ∉ N) →
    (∀ a, (i, a) ∈ l → ∀ f, a.call = .open f → f ∈ N) → (∀ j a, j ≠ i → (j, a) ∈ l → ∀ f, a.call = .open f → f ∉ N) →
    (runAll l ss D).1 i = (runActions ((l.filter fun x => x.1 = i).map Prod.snd) (ss i) D').1 ∧
      ∀ n ∈ N, (runAll l ss D).2 n = (runActions ((l.filter fun x => x.1 = i).map Prod.snd) (ss i) D').2 n := by
  induction l with
  | nil => intro ss D D' hD _ _ _ _; exact ⟨rfl, hD⟩
  | cons x l ih =>
    obtain ⟨j, a⟩ := x
    intro ss D D' hD hi hj hl hl'
    have step : runAll ((j, a) :: l) ss D = runAll l (Function.update ss j (a.run (ss j) D).1) (a.run (ss j) D).2 := rfl
    rw [step]
    by_cases h : j = i
    · subst h
      obtain ⟨r1, r2, r3⟩ := run_same a (ss j) D D' N hD hi (hl a (by simp))
      have e : (((j, a) :: l).filter fun x => x.1 = j).map Prod.snd = a :: (l.filter fun x => x.1 = j).map Prod.snd := by simp
      rw [e, runActions_cons]
      have := ih (Function.update ss j (a.run (ss j) D).1) (a.run (ss j) D).2 (a.run (ss j) D').2 r2
        (by rw [Function.update_self]; exact r3)
        (fun k hk => by rw [Function.update_of_ne hk]; exact hj k hk)
        (fun b hb => hl b (by simp [hb])) (fun k b hk hb => hl' k b hk (by simp [hb]))
      rw [Function.update_self, r1] at this
      rw [r1]
      exact this
    · obtain ⟨r1, r2⟩ := run_other a (ss j) D N (hj j h) (hl' j a h (by simp))
      have e : (((j, a) :: l).filter fun x => x.1 = i).map Prod.snd = (l.filter fun x => x.1 = i).map Prod.snd := by
        simp [h]
      rw [e]
      have := ih (Function.update ss j (a.run (ss j) D).1) (a.run (ss j) D).2 D' (fun n hn => (r1 n hn).trans (hD n hn))
        (by rw [Function.update_of_ne (Ne.symm h)]; exact hi)
        (fun k hk => by
          by_cases hkj : k = j
          · subst hkj; rw [Function.update_self]; exact r2
          · rw [Function.update_of_ne hkj]; exact hj k hk)
        (fun b hb => hl b (by simp [hb])) (fun k b hk hb => hl' k b hk (by simp [hb]))
      rw [Function.update_of_ne (Ne.symm h)] at this
      exact this

/-- files nobody opens stay as they are -/
theorem runAll_untouched {ι : Type} [DecidableEq ι] (N : Set (List Char)) (l : List (ι × Action)) :
    ∀ (ss : ι → Stream) (D : Disk), (∀ j f, (ss j).file = some f → f ∉ N) →
    (∀ j a, (j, a) ∈ l → ∀ f, a.call = .open f → f ∉ N) → ∀ n ∈ N, (runAll l ss D).2 n = D n := by
  induction l with
  | nil => intro ss D _ _ n _; rfl
  | cons x l ih =>
    obtain ⟨j, a⟩ := x
    intro ss D hj hl n hn
    have step : runAll ((j, a) :: l) ss D = runAll l (Function.update ss j (a.run (ss j) D).1) (a.run (ss j) D).2 := rfl
    obtain ⟨r1, r2⟩ := run_other a (ss j) D N (hj j) (hl j a (by simp))
    rw [step, ih _ _ ?_ (fun k b hb => hl k b (by simp [hb])) n hn, r1 n hn]
    intro k
    by_cases hkj : k = j
    · subst hkj; rw [Function.update_self]; exact r2
    · rw [Function.update_of_ne hkj]; exact hj k

/-! ## the calls of the diagnostics -/

theorem intervalCalls_cons (d : Interval) (master : Bool) (rank t : ℤ) (text : List Char) (steps : List (ℤ × List Char)) :
    intervalCalls d master rank ((t, text) :: steps) = (d.execute master rank t).bind fun calls =>
      (intervalCalls d master rank steps).map fun l => calls.map (fun c => (c, text)) ++ l := by
  unfold intervalCalls
  rw [List.mapM_cons]
  cases d.execute master rank t with
  | none => rfl
  | some calls =>
    dsimp only [Option.map_some, Option.bind_some]
    cases List.mapM (fun p : ℤ × List Char => (d.execute master rank p.1).map fun calls => calls.map fun c => (c, p.2)) steps <;> rfl

theorem interval_blocks (d : Interval) (master : Bool) (rank : ℤ) (steps : List (ℤ × List Char)) (hi : d.interval ≠ 0)
    (ha : d.append = false) (hs : d.single = true → master = true) :
    intervalCalls d master rank steps = some (blocks (outputsDue d rank steps)) := by
  induction steps with
  | nil => rfl
  | cons p steps ih =>
    obtain ⟨t, text⟩ := p
    rw [intervalCalls_cons, interval_execute d master rank t hi hs, ih, Option.bind_some, Option.map_some]
    congr 1
    unfold outputsDue
    by_cases hd : Due d.interval t
    · rw [List.filter_cons_of_pos (by simpa using hd)]
      simp [ha, hd, output, blocks]
    · rw [List.filter_cons_of_neg (by simpa using hd)]
      simp [ha, hd]

theorem interval_writes (d : Interval) (master : Bool) (rank : ℤ) (steps : List (ℤ × List Char)) (h0 : ∀ p ∈ steps, p.1 ≠ 0)
    (hi : d.interval ≠ 0) (ha : d.append = true) (hs : d.single = true → master = true) :
    intervalCalls d master rank steps = some (((steps.filter fun p => Due d.interval p.1).map Prod.snd).map fun t => (.write, t)) := by
  induction steps with
  | nil => rfl
  | cons p steps ih =>
    obtain ⟨t, text⟩ := p
    have hne : t ≠ 0 := h0 (t, text) (by simp)
    rw [intervalCalls_cons, interval_execute d master rank t hi hs, ih fun q hq => h0 q (by simp [hq]), Option.bind_some, Option.map_some]
    congr 1
    by_cases hd : Due d.interval t
    · rw [List.filter_cons_of_pos (by simpa using hd)]
      simp [ha, hd, hne, output]
    · rw [List.filter_cons_of_neg (by simpa using hd)]
      simp [hd, hne]

end Schnek.Lemma.Diag
