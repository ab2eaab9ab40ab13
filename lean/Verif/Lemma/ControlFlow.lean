import Verif.Spec.ControlFlow
import Verif.Lemma.ParallelProgram

/-!
# Lemmas about parallel programs with branches and loops
-/

namespace Schnek.Lemma.ControlFlow

open Schnek Schnek.Spec Schnek.Mpi Schnek.Buffer Schnek.Lemma.MpiSchedule Schnek.Lemma.ParallelProgram Function

variable {X T F : Type} {n : ℕ} {S : Setup n}

/-- The processes go together. -/
inductive Traj [Add T] [LinearOrder F] (fresh : ℕ → List Byte) (rnd : ℚ → ℚ) :
    (Coord S → List (Todo S X T F)) → List (Coord S → Instr (Coord S) X (Datum T F)) → (Coord S → Memory X (Datum T F)) →
    (Coord S → Memory X (Datum T F)) → (Coord S → List (Todo S X T F)) → Prop
  | nil (t W) : Traj fresh rnd t [] W W t
  | cons {t i is W W₁ W' t'} (hi : ∀ c, nextInstr (t c) = some (i c)) (hr : Round i W W₁)
      (h : Traj fresh rnd (fun c => after S fresh rnd c (W c).grid (t c)) is W₁ W' t') : Traj fresh rnd t (i :: is) W W' t'

section
variable [Add T] [LinearOrder F] {fresh : ℕ → List Byte} {rnd : ℚ → ℚ}

theorem Traj.append {t t₁ t' : Coord S → List (Todo S X T F)} {is js} {W W₁ W'} (h : Traj fresh rnd t is W W₁ t₁)
    (h' : Traj fresh rnd t₁ js W₁ W' t') : Traj fresh rnd t (is ++ js) W W' t' := by
  induction h with
  | nil => exact h'
  | cons hi hr _ ih => exact .cons hi hr (ih h')

theorem Traj.rounds {t t' : Coord S → List (Todo S X T F)} {is} {W W'} (h : Traj fresh rnd t is W W' t') :
    ∃ (V : ℕ → Coord S → Memory X (Datum T F)) (H : ℕ → Coord S → List (Todo S X T F)),
      V 0 = W ∧ V is.length = W' ∧ H 0 = t ∧ H is.length = t' ∧
      (∀ k (hk : k < is.length), Round is[k] (V k) (V (k + 1))) ∧
      ∀ k (hk : k < is.length) c, nextInstr (H k c) = some (is[k] c) ∧ H (k + 1) c = after S fresh rnd c (V k c).grid (H k c) := by
  induction h with
  | nil t W => exact ⟨fun _ => W, fun _ => t, rfl, rfl, rfl, rfl, fun k hk => absurd hk (Nat.not_lt_zero _),
      fun k hk => absurd hk (Nat.not_lt_zero _)⟩
  | @cons t i is W W₁ W' t' hi hr _ ih =>
    obtain ⟨V, H, h0, h1, h2, h3, h4, h5⟩ := ih
    refine ⟨fun k => match k with | 0 => W | k + 1 => V k, fun k => match k with | 0 => t | k + 1 => H k, rfl, h1, rfl, h3, ?_, ?_⟩
    · rintro (_ | k) hk
      · show Round i W (V 0)
        rw [h0]
        exact hr
      · exact h4 k (by simpa using hk)
    · rintro (_ | k) hk c
      · refine ⟨hi c, ?_⟩
        show H 0 c = _
        rw [h2]
      · exact h5 k (by simpa using hk) c

/-- instructions that can be executed together, then the rest -/
theorem Traj.of_together {is : List (Coord S → Instr (Coord S) X (Datum T F))} {W W'} (h : Together is W W') (rest : List (Todo S X T F)) :
    Traj fresh rnd (fun c => (codeOf is c).map .instr ++ rest) is W W' fun _ => rest := by
  induction h with
  | nil W => exact .nil _ _
  | compute h _ ih => exact .cons (fun c => rfl) (.compute _ rfl h) ih
  | sendrecv hd hs hl hc _ ih => exact .cons (fun c => rfl) (.sendrecv _ _ _ _ rfl hd hs hl hc rfl) ih
  | allreduce hl h _ ih => exact .cons (fun c => rfl) (.allreduce _ _ rfl hl h rfl) ih

/-- all processes begin a statement -/
theorem Traj.begin {s : Stmt S X T F} {rest : List (Todo S X T F)} {is} {W W' : Coord S → Memory X (Datum T F)} {t'}
    {t : Coord S → List (Todo S X T F)} (ht : ∀ c, s.begin S fresh rnd c (W c).grid ++ rest = t c) (h : Traj fresh rnd t is W W' t') :
    Traj fresh rnd (fun _ => .stmt s :: rest) ((fun _ => .compute fun m m' => m' = m) :: is) W W' t' := by
  refine .cons (W₁ := W) (fun c => rfl) (.compute (fun _ m m' => m' = m) rfl fun p m => Iff.rfl) ?_
  have : (fun c => after S fresh rnd c (W c).grid (.stmt s :: rest)) = t := funext ht
  rw [this]
  exact h

end

/-! ## the processes at their own pace -/

section
variable {P G D : Type} [DecidableEq P]

theorem step_congr {code code' : P → List (Instr P G D)} {buffered : P → ℕ → Bool} {C C' : Config P G D}
    (h : ∀ p, (code p)[(C.proc p).pc]? = (code' p)[(C.proc p).pc]?) (hs : Step code buffered C C') : Step code' buffered C C' := by
  cases hs with
  | compute hi hf => exact .compute ((h _).symm.trans hi) hf
  | post hi hp hc => exact .post ((h _).symm.trans hi) hp hc
  | receive hi hr hm hc => exact .receive ((h _).symm.trans hi) hr hm hc
  | complete hi hp hr hb => exact .complete ((h _).symm.trans hi) hp hr hb
  | enter hi hp hc => exact .enter ((h _).symm.trans hi) hp hc
  | leave hi hp hx ho => exact .leave ((h _).symm.trans hi) hp hx ho

omit [DecidableEq P] in
theorem faulty_congr {code code' : P → List (Instr P G D)} {C : Config P G D}
    (h : ∀ p, (code p)[(C.proc p).pc]? = (code' p)[(C.proc p).pc]?) (hs : C.Faulty code) : C.Faulty code' := by
  obtain ⟨p, hp⟩ := hs
  refine ⟨p, ?_⟩
  rw [h p] at hp
  exact hp

/-- one process finishes at most one instruction -/
theorem step_pc {code : P → List (Instr P G D)} {buffered : P → ℕ → Bool} {C C' : Config P G D} (hs : Step code buffered C C') (p : P) :
    (C'.proc p).pc = (C.proc p).pc ∨ (C'.proc p).pc = (C.proc p).pc + 1 := by
  cases hs with
  | @compute q => by_cases h : p = q <;> [subst h; skip] <;> simp [Config.set, update_of_ne, *]
  | @post q => by_cases h : p = q <;> [subst h; skip] <;> simp [Config.set, Config.setChan, update_of_ne, *]
  | @receive q => by_cases h : p = q <;> [subst h; skip] <;> simp [Config.set, Config.setChan, update_of_ne, *]
  | @complete q => by_cases h : p = q <;> [subst h; skip] <;> simp [Config.set, update_of_ne, *]
  | @enter q => by_cases h : p = q <;> [subst h; skip] <;> simp [Config.set, Config.setColl, update_of_ne, *]
  | @leave q => by_cases h : p = q <;> [subst h; skip] <;> simp [Config.set, update_of_ne, *]

/-- if a process finishes a computation, its data before are those of the common history -/
theorem step_mem {is : List (P → Instr P G D)} {V : ℕ → P → Memory G D} (hV : ∀ k (hk : k < is.length), Round is[k] (V k) (V (k + 1)))
    {C : Config P G D} (hC : Inv is V C) {p : P} {f} (hi : (codeOf is p)[(C.proc p).pc]? = some (.compute f)) :
    (C.proc p).mem = V (C.proc p).pc p := by
  obtain ⟨i, h1, h2, h3⟩ := round_of hV hi
  obtain ⟨h4, h5⟩ := h3.compute_of h2
  have hidle : (C.proc p).received = false := by
    by_contra hh
    rcases hC.busy p (Or.inr (by simpa using hh)) with ⟨d, hd⟩ | ⟨hd, -⟩
    · rw [dst_of h1, h5] at hd
      cases hd
    · rw [col_of h1, h2] at hd
      cases hd
  have := hC.mem p
  rwa [recvd, hidle] at this

end

variable [Add T] [LinearOrder F] {fresh : ℕ → List Byte} {rnd : ℚ → ℚ} {buffered : Coord S → ℕ → Bool}
  {is : List (Coord S → Instr (Coord S) X (Datum T F))} {V : ℕ → Coord S → Memory X (Datum T F)} {H : ℕ → Coord S → List (Todo S X T F)}

/-- Each process is somewhere in the common history. -/
structure Sim (is : List (Coord S → Instr (Coord S) X (Datum T F))) (V : ℕ → Coord S → Memory X (Datum T F))
    (H : ℕ → Coord S → List (Todo S X T F)) (A : Cluster S X T F) : Prop where
  inv : Inv is V A.base
  todo : ∀ c, A.todo c = H (A.base.proc c).pc c

theorem code_eq (hH : ∀ k (hk : k < is.length) c, nextInstr (H k c) = some (is[k] c)) {A : Cluster S X T F} (hA : Sim is V H A)
    (hlt : ∀ c, (A.base.proc c).pc < is.length ∨ H is.length c = []) (c : Coord S) :
    (A.code c)[(A.base.proc c).pc]? = (codeOf is c)[(A.base.proc c).pc]? := by
  rw [codeOf_get, Cluster.code, hA.todo]
  rcases Nat.lt_or_ge (A.base.proc c).pc is.length with h | h
  · rw [hH _ h c, List.getElem?_eq_getElem h]
    simp
  · have h1 : (A.base.proc c).pc = is.length := le_antisymm (hA.inv.le c) h
    have h2 : H is.length c = [] := (hlt c).resolve_left (by omega)
    rw [h1, h2, List.getElem?_eq_none le_rfl]
    rfl

theorem sim_step (hV : ∀ k (hk : k < is.length), Round is[k] (V k) (V (k + 1)))
    (hH : ∀ k (hk : k < is.length) c, nextInstr (H k c) = some (is[k] c) ∧ H (k + 1) c = after S fresh rnd c (V k c).grid (H k c))
    {A A' : Cluster S X T F} (hA : Sim is V H A) (hlt : ∀ c, (A.base.proc c).pc < is.length ∨ H is.length c = [])
    (h : Cluster.Step S fresh rnd buffered A A') : Mpi.Step (codeOf is) buffered A.base A'.base ∧ Sim is V H A' := by
  obtain ⟨h1, h2⟩ := h
  have hs := step_congr (code_eq (fun k hk c => (hH k hk c).1) hA hlt) h1
  have hI := inv_step hV hA.inv hs
  refine ⟨hs, hI, fun c => ?_⟩
  rw [h2]
  rcases step_pc hs c with h | h
  · rw [if_pos h, hA.todo, h]
  · rw [if_neg (by omega), hA.todo, h]
    have hl : (A.base.proc c).pc < is.length := by
      have := hI.le c
      omega
    rw [(hH _ hl c).2]
    have h3 := (hH _ hl c).1
    cases ht : H (A.base.proc c).pc c with
    | nil => rfl
    | cons t rest =>
      cases t with
      | instr i => rfl
      | stmt s =>
        rw [ht] at h3
        have : (codeOf is c)[(A.base.proc c).pc]? = some (.compute fun m m' => m' = m) := by
          rw [codeOf_get, List.getElem?_eq_getElem hl]
          exact congrArg some (Option.some.inj h3).symm
        rw [step_mem hV hA.inv this]

theorem steps_pc {k : ℕ} {A A' : Cluster S X T F} (h : Cluster.Steps S fresh rnd buffered k A A') (c : Coord S) :
    (A'.base.proc c).pc ≤ (A.base.proc c).pc + k := by
  induction h with
  | zero => exact le_rfl
  | succ _ h ih =>
    have := step_pc h.1 c
    omega

theorem sim_steps (hV : ∀ k (hk : k < is.length), Round is[k] (V k) (V (k + 1)))
    (hH : ∀ k (hk : k < is.length) c, nextInstr (H k c) = some (is[k] c) ∧ H (k + 1) c = after S fresh rnd c (V k c).grid (H k c))
    {k : ℕ} {A A' : Cluster S X T F} (h : Cluster.Steps S fresh rnd buffered k A A') (hA : Sim is V H A)
    (h0 : ∀ c, (A.base.proc c).pc = 0) (hlt : k < is.length ∨ ∀ c, H is.length c = []) :
    Mpi.Steps (codeOf is) buffered k A.base A'.base ∧ Sim is V H A' := by
  induction h with
  | zero => exact ⟨.zero _, hA⟩
  | @succ k A A' A'' hs h ih =>
    obtain ⟨h1, h2⟩ := ih hA h0 (hlt.imp_left fun h => by omega)
    obtain ⟨h3, h4⟩ := sim_step hV hH h2 (fun c => by
      rcases hlt with h | h
      · have := steps_pc hs c
        rw [h0 c] at this
        exact Or.inl (by omega)
      · exact Or.inr (h c)) h
    exact ⟨.succ h1 h3, h4⟩

theorem sim_start {s : Stmt S X T F} {M : Coord S → Memory X (Datum T F)} (h0 : V 0 = M) (h1 : H 0 = fun _ => [.stmt s]) :
    Sim is V H (Cluster.start s M) := ⟨by
  subst h0
  exact inv_start, fun c => by
  show _ = H 0 c
  rw [h1]
  rfl⟩

/-- While the common history has not been left behind, nothing that is not allowed is done and there is a process that can go on. -/
theorem sim_fine (hV : ∀ k (hk : k < is.length), Round is[k] (V k) (V (k + 1)))
    (hH : ∀ k (hk : k < is.length) c, nextInstr (H k c) = some (is[k] c) ∧ H (k + 1) c = after S fresh rnd c (V k c).grid (H k c))
    {A : Cluster S X T F} (hA : Sim is V H A) (hlt : ∀ c, (A.base.proc c).pc < is.length ∨ H is.length c = []) :
    ¬ A.Faulty ∧ (¬ A.Finished → ∃ A', Cluster.Step S fresh rnd buffered A A') := by
  have hc := code_eq (fun k hk c => (hH k hk c).1) hA hlt
  refine ⟨fun h => not_faulty hV hA.inv (faulty_congr hc h), fun h => ?_⟩
  obtain ⟨C', hC'⟩ := progress (buffered := buffered) hV hA.inv fun hF => h fun c => by
    have h1 : (A.base.proc c).pc = is.length := (hF c).trans (by simp [codeOf])
    rw [hA.todo, h1]
    exact (hlt c).resolve_left (by omega)
  refine ⟨⟨C', fun c => if (C'.proc c).pc = (A.base.proc c).pc then A.todo c
    else after S fresh rnd c (A.base.proc c).mem.grid (A.todo c)⟩, step_congr (fun p => (hc p).symm) hC', fun c => rfl⟩

theorem finished_pc (hH : ∀ k (hk : k < is.length) c, nextInstr (H k c) = some (is[k] c)) {A : Cluster S X T F} (hA : Sim is V H A)
    (hF : A.Finished) : A.base.Finished (codeOf is) := by
  intro c
  show _ = (is.map _).length
  rw [List.length_map]
  by_contra h
  have h1 : (A.base.proc c).pc < is.length := lt_of_le_of_ne (hA.inv.le c) h
  have h2 := hH _ h1 c
  rw [← hA.todo, hF c] at h2
  cases h2

/-! ## the processes together -/

end Schnek.Lemma.ControlFlow

namespace Schnek.Lemma.ControlFlow

open Schnek Schnek.Spec Schnek.Mpi Schnek.Buffer Schnek.Lemma.MpiSchedule Schnek.Lemma.ParallelProgram Function

variable {X T F : Type} {n : ℕ} {S : Setup n} [AddCommMonoid T] [LinearOrder F] {fresh : ℕ → List Byte} {rnd : ℚ → ℚ}

/-- all processes execute a call, then the rest -/
theorem Traj.call {f : Call S X T F} {rest : List (Todo S X T F)} {is} {W W₁ W' : Coord S → Memory X (Datum T F)} {t'}
    (h : Together (roundsOf S fresh rnd f) W W₁) (h' : Traj fresh rnd (fun _ => rest) is W₁ W' t') :
    Traj fresh rnd (fun _ => .stmt (.call f) :: rest) ((fun _ => .compute fun m m' => m' = m) :: (roundsOf S fresh rnd f ++ is)) W W' t' := by
  refine Traj.begin (t := fun c => (codeOf (roundsOf S fresh rnd f) c).map .instr ++ rest) (fun c => ?_) ((Traj.of_together h rest).append h')
  rw [codeOf_roundsOf]
  rfl

theorem traj_of_achieves (hok : Ok S fresh rnd) (c₀ : Coord S) {Q : (Coord S → X) → Prop} {l : List (Stmt S X T F)} {x : Coord S → X}
    (h : Achieves Q l x) : ∀ M : Coord S → Memory X (Datum T F), (fun c => (M c).grid) = x →
      ∃ is M', Traj fresh rnd (fun _ => l.map .stmt) is M M' (fun _ => []) ∧ Q fun c => (M' c).grid := by
  induction h with
  | done h => exact fun M hM => ⟨[], M, .nil _ _, hM ▸ h⟩
  | skip _ ih =>
    intro M hM
    obtain ⟨is, M', t, q⟩ := ih M hM
    exact ⟨_, M', .begin (fun c => rfl) t, q⟩
  | @call f rest x hr _ ih =>
    rintro M rfl
    obtain ⟨M₁, t1, d1⟩ := call_together hok c₀ f M hr
    obtain ⟨is, M', t, q⟩ := ih _ d1 M₁ rfl
    exact ⟨_, M', .call t1 t, q⟩
  | seq _ ih =>
    intro M hM
    obtain ⟨is, M', t, q⟩ := ih M hM
    exact ⟨_, M', .begin (fun c => rfl) t, q⟩
  | @choice cond a b rest x v hv _ ih =>
    rintro M rfl
    obtain ⟨is, M', t, q⟩ := ih M rfl
    refine ⟨_, M', .begin (fun c => ?_) t, q⟩
    show (if cond c (M c).grid = true then _ else _) ++ _ = _
    rw [hv c]
    cases v <;> rfl
  | @again cond body rest x hv _ ih =>
    rintro M rfl
    obtain ⟨is, M', t, q⟩ := ih M rfl
    refine ⟨_, M', .begin (fun c => ?_) t, q⟩
    show (if cond c (M c).grid = true then _ else _) ++ _ = _
    rw [hv c]
    rfl
  | @leave cond body rest x hv _ ih =>
    rintro M rfl
    obtain ⟨is, M', t, q⟩ := ih M rfl
    refine ⟨_, M', .begin (fun c => ?_) t, q⟩
    show (if cond c (M c).grid = true then _ else _) ++ _ = _
    rw [hv c]
    rfl

theorem traj_of_kept (hok : Ok S fresh rnd) (c₀ : Coord S) {R : List (Stmt S X T F) → (Coord S → X) → Prop} (hR : Kept R) :
    ∀ (N : ℕ) (l : List (Stmt S X T F)) (M : Coord S → Memory X (Datum T F)), R l (fun c => (M c).grid) →
      ∃ is M' t', Traj fresh rnd (fun _ => l.map .stmt) is M M' t' ∧ (N ≤ is.length ∨ ∀ c, t' c = [])
  | 0, l, M, _ => ⟨[], M, _, .nil _ _, Or.inl le_rfl⟩
  | N + 1, [], M, _ => ⟨[], M, _, .nil _ _, Or.inr fun c => rfl⟩
  | N + 1, .skip :: rest, M, h => by
    obtain ⟨is, M', t', t, q⟩ := traj_of_kept hok c₀ hR N rest M (hR _ _ h)
    exact ⟨_, M', t', .begin (fun c => rfl) t, q.imp_left Nat.succ_le_succ⟩
  | N + 1, .call f :: rest, M, h => by
    obtain ⟨hr, hd⟩ := hR _ _ h
    obtain ⟨M₁, t1, d1⟩ := call_together hok c₀ f M hr
    obtain ⟨is, M', t', t, q⟩ := traj_of_kept hok c₀ hR N rest M₁ (hd _ d1)
    refine ⟨_, M', t', .call t1 t, q.imp_left fun h => ?_⟩
    rw [List.length_cons, List.length_append]
    omega
  | N + 1, .seq a b :: rest, M, h => by
    obtain ⟨is, M', t', t, q⟩ := traj_of_kept hok c₀ hR N (a :: b :: rest) M (hR _ _ h)
    exact ⟨_, M', t', .begin (fun c => rfl) t, q.imp_left Nat.succ_le_succ⟩
  | N + 1, .choice cond a b :: rest, M, h => by
    obtain ⟨v, hv, hk⟩ := hR _ _ h
    obtain ⟨is, M', t', t, q⟩ := traj_of_kept hok c₀ hR N _ M hk
    refine ⟨_, M', t', .begin (fun c => ?_) t, q.imp_left Nat.succ_le_succ⟩
    show (if cond c (M c).grid = true then _ else _) ++ _ = _
    rw [hv c]
    cases v <;> rfl
  | N + 1, .loop cond body :: rest, M, h => by
    rcases hR _ _ h with ⟨hv, hk⟩ | ⟨hv, hk⟩
    all_goals
      obtain ⟨is, M', t', t, q⟩ := traj_of_kept hok c₀ hR N _ M hk
      refine ⟨_, M', t', .begin (fun c => ?_) t, q.imp_left Nat.succ_le_succ⟩
      show (if cond c (M c).grid = true then _ else _) ++ _ = _
      rw [hv c]
      rfl

/-- a program that ends is one that goes on -/
theorem goesOn_of_achieves {Q : (Coord S → X) → Prop} {s : Stmt S X T F} {x : Coord S → X} (h : Achieves Q [s] x) : GoesOn s x := by
  refine ⟨Achieves Q, h, fun l x h => ?_⟩
  cases h with
  | done h => trivial
  | skip h => exact h
  | call h1 h2 => exact ⟨h1, h2⟩
  | seq h => exact h
  | choice v h1 h2 => exact ⟨v, h1, h2⟩
  | again h1 h2 => exact Or.inl ⟨h1, h2⟩
  | leave h1 h2 => exact Or.inr ⟨h1, h2⟩

end Schnek.Lemma.ControlFlow
