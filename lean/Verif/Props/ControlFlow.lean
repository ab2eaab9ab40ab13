import Verif.Lemma.ControlFlow
import Verif.Props.ParallelProgram

/-!
# C120: parallel programs with branches and loops
-/

namespace Schnek.Props

open Schnek Schnek.Spec Schnek.Mpi Schnek.Buffer Schnek.Lemma.MpiSchedule Schnek.Lemma.ParallelProgram Schnek.Lemma.ControlFlow Function

variable {n : ℕ} {X T F : Type}

/-- **C120** A program with branches and loops, whose conditions depend on the data of the process: if all processes would come to the same
decisions when going together, and the requirements of each call would be met then, nobody does anything that is not allowed and there is no
deadlock under any schedule, whether the program ends or not. -/
theorem C120_never_stuck [AddCommMonoid T] [LinearOrder F] (S : Setup n) (hS : ∀ i, 1 ≤ S.dims i) (hδ : 1 ≤ S.delta)
    (hw : ∀ c i, S.delta ≤ ownWidth S c i)
    (hfit : ∀ c, S.delta * ∏ i, ((bounds S c).size.hi i - (bounds S c).size.lo i + 1) < 2 ^ 31) (hP : ∏ i, S.dims i < 2 ^ 31)
    (fresh : ℕ → List Byte) (hf : ∀ k, (fresh k).length = k) (rnd : ℚ → ℚ) (hr : SymmetricRounding rnd)
    (s : Stmt S X T F) (M : Coord S → Memory X (Datum T F)) (h : GoesOn s fun c => (M c).grid) : NeverStuck S fresh rnd s M := by
  intro buffered k A hA
  obtain ⟨R, h0, hR⟩ := h
  obtain ⟨is, M', t', t, q⟩ := traj_of_kept ⟨hδ, hw, hfit, hP, hf, hr⟩ (fun i => ⟨0, hS i⟩) hR (k + 1) [s] M h0
  obtain ⟨V, H, e1, e2, e3, e4, hV, hH⟩ := t.rounds
  have q' : k < is.length ∨ ∀ c, H is.length c = [] := q.imp_right fun h c => by rw [e4]; exact h c
  obtain ⟨-, h2⟩ := sim_steps hV hH hA (sim_start e1 e3) (fun c => rfl) q'
  refine sim_fine hV hH h2 fun c => q'.imp (fun h => ?_) fun h => h c
  have := steps_pc hA c
  have h0 : ((Cluster.start s M).base.proc c).pc = 0 := rfl
  omega

/-- **C120** If such a program comes to an end when all processes go together, it does so under every schedule, without deadlock; no message
is left, and the data at the end are the same under all schedules: such as may result when all processes go together. -/
theorem C120_any_schedule [AddCommMonoid T] [LinearOrder F] (S : Setup n) (hS : ∀ i, 1 ≤ S.dims i) (hδ : 1 ≤ S.delta)
    (hw : ∀ c i, S.delta ≤ ownWidth S c i)
    (hfit : ∀ c, S.delta * ∏ i, ((bounds S c).size.hi i - (bounds S c).size.lo i + 1) < 2 ^ 31) (hP : ∏ i, S.dims i < 2 ^ 31)
    (fresh : ℕ → List Byte) (hf : ∀ k, (fresh k).length = k) (rnd : ℚ → ℚ) (hr : SymmetricRounding rnd)
    (s : Stmt S X T F) (M : Coord S → Memory X (Datum T F)) (Q : (Coord S → X) → Prop) (h : Achieves Q [s] fun c => (M c).grid) :
    NeverStuck S fresh rnd s M ∧ ∃ x, Q x ∧ EndsWith S fresh rnd s M fun x' => x' = x := by
  refine ⟨C120_never_stuck S hS hδ hw hfit hP fresh hf rnd hr s M (goesOn_of_achieves h), ?_⟩
  obtain ⟨is, M', t, q⟩ := traj_of_achieves ⟨hδ, hw, hfit, hP, hf, hr⟩ (fun i => ⟨0, hS i⟩) h M rfl
  obtain ⟨V, H, e1, e2, e3, e4, hV, hH⟩ := t.rounds
  have sim : ∀ buffered k A, Cluster.Steps S fresh rnd buffered k (.start s M) A →
      Mpi.Steps (codeOf is) buffered k (Config.start M) A.base ∧ Sim is V H A := fun buffered k A hA =>
    sim_steps hV hH hA (sim_start e1 e3) (fun c => rfl) (Or.inr fun c => by rw [e4])
  refine ⟨_, q, fun buffered => ⟨⟨Fintype.card (Coord S) * (3 * is.length + 2), fun k A hA => ?_⟩, fun k A hA hF => ?_⟩⟩
  · obtain ⟨h1, h2⟩ := sim _ k A hA
    have h1 := total_steps h1
    have h2 := total_le h2.inv
    omega
  · obtain ⟨h1, h2⟩ := sim _ k A hA
    have h3 := fun c => finished_mem h2.inv (finished_pc (fun k hk c => (hH k hk c).1) h2 hF) c
    exact ⟨fun a b => (h3 a).2 b, funext fun c => by rw [(h3 c).1, e2]⟩

/-! ### examples -/

open ExampleData in
/-- Each process has some items in `input` and removes one of them in each round, until no process has any left. How many rounds there
are is decided by a reduction. -/
def exampleLoop : Stmt exampleSetup ExampleData ℤ ℚ :=
  .seq (.call (.reduceInt .max (fun x => x.input.length) countPart))
    (.loop (fun _ x => decide (0 < x.count))
      (.seq (.call (.exchange gridPart)) (.seq (.call (.compute fun _ x => { x with input := x.input.drop 1 }))
        (.call (.reduceInt .max (fun x => x.input.length) countPart)))))

/-- non-vacuity: this program reaches its end, whatever the number of items of each process -/
example (φ : Idx 2 → ℤ) (items : Coord exampleSetup → List Byte) :
    let S := exampleSetup
    (∀ i, 1 ≤ S.dims i) ∧ 1 ≤ S.delta ∧ (∀ c i, S.delta ≤ ownWidth S c i) ∧
    (∀ c, S.delta * ∏ i, ((bounds S c).size.hi i - (bounds S c).size.lo i + 1) < 2 ^ 31) ∧ ∏ i, S.dims i < 2 ^ 31 ∧
    Achieves (fun x => ∀ c, (x c).input = []) [exampleLoop] fun c => ⟨⟨(bounds S c).size, φ⟩, items c, [], 0, 0⟩ := by
  intro S
  obtain ⟨h1, h2, h3, -⟩ := exampleSetup_exchange
  refine ⟨by decide, h1, h2, h3, by decide, ?_⟩
  have red : ∀ x x' : Coord S → ExampleData,
      Does (T := ℤ) (F := ℚ) (.reduceInt .max (fun x => x.input.length) ExampleData.countPart) x x' →
      ∃ L : ℕ, (∀ c, (x c).input.length ≤ L) ∧ (∃ c, (x c).input.length = L) ∧ ∀ c, x' c = { x c with count := L } := by
    intro x x' d
    let c₀ : Coord S := fun i => ⟨0, by fin_cases i <;> decide⟩
    obtain ⟨r, ⟨⟨c₁, hc₁⟩, hr⟩, -⟩ := d c₀
    refine ⟨(x c₁).input.length, fun c => ?_, ⟨c₁, rfl⟩, fun c => ?_⟩
    · have : ((x c).input.length : ℤ) ≤ r := hr ⟨c, rfl⟩
      have hc₁ : ((x c₁).input.length : ℤ) = r := hc₁
      omega
    · obtain ⟨r', hr', e⟩ := d c
      have : r' = r := hr'.unique ⟨⟨c₁, hc₁⟩, hr⟩
      rw [e, this, ← hc₁]
      rfl
  refine .seq (.call trivial fun x d => ?_)
  obtain ⟨L, hL, -, e⟩ := red _ _ d
  have key : ∀ (L : ℕ) (x : Coord S → ExampleData), (∀ c, (x c).count = L ∧ (x c).input.length ≤ L ∧
      (x c).grid.range = (bounds S c).size) → Achieves (fun x => ∀ c, (x c).input = [])
        [.loop (fun _ x => decide (0 < x.count))
          (.seq (.call (.exchange ExampleData.gridPart)) (.seq (.call (.compute fun _ x => { x with input := x.input.drop 1 }))
            (.call (.reduceInt .max (fun x => x.input.length) ExampleData.countPart))) : Stmt S ExampleData ℤ ℚ)] x := by
    intro L
    induction L using Nat.strong_induction_on with
    | _ L ih =>
      intro x hx
      rcases Nat.eq_zero_or_pos L with rfl | hpos
      · refine .leave (fun c => ?_) (.done fun c => ?_)
        · show decide (0 < (x c).count) = false
          rw [(hx c).1]
          rfl
        · exact List.length_eq_zero_iff.mp (Nat.le_zero.mp (hx c).2.1)
      · refine .again (fun c => ?_) (.seq (.call (fun c p hp => ?_) fun x1 d1 => .seq (.call trivial fun x2 d2 =>
          .call trivial fun x3 d3 => ?_)))
        · show decide (0 < (x c).count) = true
          rw [(hx c).1]
          simpa using hpos
        · show (x c).grid.range.inside p = true
          rw [(hx c).2.2]
          exact (C01_inside_iff _ _).mpr hp
        · obtain ⟨L', hL', ⟨c₁, hc₁⟩, e'⟩ := red _ _ d3
          have h2 : ∀ c, (x2 c).input = (x c).input.drop 1 ∧ (x2 c).grid.range = (bounds S c).size := fun c => by
            obtain ⟨g, hg, e⟩ := d1 c
            rw [d2 c, e]
            exact ⟨rfl, hg.1.trans (hx c).2.2⟩
          have hlt : L' < L := by
            rw [← hc₁, (h2 c₁).1, List.length_drop]
            have := (hx c₁).2.1
            omega
          exact ih L' hlt x3 fun c => by
            rw [e' c]
            exact ⟨rfl, hL' c, (h2 c).2⟩
  exact key L _ fun c => by
    rw [e c]
    exact ⟨rfl, hL c, rfl⟩

open ExampleData in
/-- non-vacuity: a program that runs forever -/
example (φ : Idx 2 → ℤ) : GoesOn (S := exampleSetup) (T := ℤ) (F := ℚ) (.loop (fun _ _ => true) (.call (.exchange gridPart)))
    fun c => ⟨⟨(bounds exampleSetup c).size, φ⟩, [], [], 0, 0⟩ := by
  refine ⟨fun l x => (∀ c, (x c).grid.range = (bounds exampleSetup c).size) ∧
    (l = [.loop (fun _ _ => true) (.call (.exchange gridPart))] ∨
     l = [.call (.exchange gridPart), .loop (fun _ _ => true) (.call (.exchange gridPart))]), ⟨fun c => rfl, Or.inl rfl⟩, ?_⟩
  rintro l x ⟨hx, rfl | rfl⟩
  · exact Or.inl ⟨fun c => rfl, hx, Or.inr rfl⟩
  · refine ⟨fun c p hp => ?_, fun x' d => ⟨fun c => ?_, Or.inl rfl⟩⟩
    · show (x c).grid.range.inside p = true
      rw [hx c]
      exact (C01_inside_iff _ _).mpr hp
    · obtain ⟨g, hg, e⟩ := d c
      rw [e]
      exact hg.1.trans (hx c)

/-- 8 cells, two processes -/
def twoDomains : Setup 1 := ⟨fun _ => 0, fun _ => 7, fun _ => 2, fun _ k => 4 * k, 1⟩

/-- the data are one number -/
def wholePart : Part ℤ ℤ := ⟨id, fun a _ => a, fun _ _ => rfl, fun _ => rfl, fun _ _ _ => rfl⟩

/-- only the process 0 calls the reduction -/
def oneSided : Stmt twoDomains ℤ ℤ ℚ := .choice (fun c _ => decide ((c 0).1 = 0)) (.call (.reduceInt .max id wholePart)) .skip

/-- **C120** That all processes come to the same decision is needed: if only one of two processes calls a reduction, it waits forever. -/
theorem C120_disagreement_deadlocks (fresh : ℕ → List Byte) (rnd : ℚ → ℚ) :
    ¬ NeverStuck twoDomains fresh rnd oneSided fun _ => ⟨0, [], []⟩ := by
  intro h
  let c0 : Coord twoDomains := fun _ => (0 : Fin 2)
  let c1 : Coord twoDomains := fun _ => (1 : Fin 2)
  have hall : ∀ c : Coord twoDomains, c = c0 ∨ c = c1 := fun c => by
    have h2 : (c 0).1 < 2 := (c 0).2
    rcases Nat.lt_or_ge (c 0).1 1 with h | h
    · refine Or.inl (funext fun i => Fin.ext ?_)
      rw [Fin.eq_zero i]
      exact Nat.lt_one_iff.mp h
    · refine Or.inr (funext fun i => Fin.ext ?_)
      rw [Fin.eq_zero i]
      exact le_antisymm (Nat.lt_succ_iff.mp h2) h
  let go (A : Cluster twoDomains ℤ ℤ ℚ) (C' : Config (Coord twoDomains) ℤ (Datum ℤ ℚ)) : Cluster twoDomains ℤ ℤ ℚ :=
    ⟨C', fun c => if (C'.proc c).pc = (A.base.proc c).pc then A.todo c else after twoDomains fresh rnd c (A.base.proc c).mem.grid (A.todo c)⟩
  let fwd (A : Cluster twoDomains ℤ ℤ ℚ) (c : Coord twoDomains) (m : Memory ℤ (Datum ℤ ℚ)) : Cluster twoDomains ℤ ℤ ℚ :=
    go A (A.base.set c ⟨m, (A.base.proc c).pc + 1, false, false, (A.base.proc c).calls⟩)
  let A0 : Cluster twoDomains ℤ ℤ ℚ := .start oneSided fun _ => ⟨0, [], []⟩
  let A1 := fwd A0 c0 ⟨0, [], []⟩
  let A2 := fwd A1 c0 ⟨0, [], []⟩
  let A3 := fwd A2 c0 ⟨0, [.int 0], []⟩
  let A4 := fwd A3 c1 ⟨0, [], []⟩
  let A5 := fwd A4 c1 ⟨0, [], []⟩
  let A6 := go A5 ((A5.base.set c0 { A5.base.proc c0 with posted := true }).setColl c0 (A5.base.coll c0 ++ [(A5.base.proc c0).mem.send]))
  have s1 : Cluster.Step twoDomains fresh rnd (fun _ _ => true) A0 A1 := ⟨.compute (f := fun m m' => m' = m) rfl rfl, fun c => rfl⟩
  have s2 : Cluster.Step twoDomains fresh rnd (fun _ _ => true) A1 A2 := ⟨.compute (f := fun m m' => m' = m) rfl rfl, fun c => rfl⟩
  have s3 : Cluster.Step twoDomains fresh rnd (fun _ _ => true) A2 A3 :=
    ⟨.compute (f := fun m m' => m' = { m with send := [.int m.grid] }) rfl rfl, fun c => rfl⟩
  have s4 : Cluster.Step twoDomains fresh rnd (fun _ _ => true) A3 A4 := ⟨.compute (f := fun m m' => m' = m) rfl rfl, fun c => rfl⟩
  have s5 : Cluster.Step twoDomains fresh rnd (fun _ _ => true) A4 A5 := ⟨.compute (f := fun m m' => m' = m) rfl rfl, fun c => rfl⟩
  have s6 : Cluster.Step twoDomains fresh rnd (fun _ _ => true) A5 A6 := ⟨.enter (p := c0) rfl rfl rfl, fun c => rfl⟩
  obtain ⟨-, hp⟩ := h (fun _ _ => true) 6 A6 (.succ (.succ (.succ (.succ (.succ (.succ (.zero _) s1) s2) s3) s4) s5) s6)
  obtain ⟨A', hA', -⟩ := hp fun hF => by cases hF c0
  generalize A'.base = C' at hA'
  cases hA' with
  | @compute p f m hi hf => rcases hall p with rfl | rfl <;> cases hi
  | @post p d s sc rc hi => rcases hall p with rfl | rfl <;> cases hi
  | @receive p d s sc rc m ms hi => rcases hall p with rfl | rfl <;> cases hi
  | @complete p d s sc rc hi => rcases hall p with rfl | rfl <;> cases hi
  | @enter p op hi hp => rcases hall p with rfl | rfl <;> [cases hp; cases hi]
  | @leave p op x m hi hp hx ho =>
    rcases hall p with rfl | rfl
    · cases hx c1
    · cases hi

end Schnek.Props
