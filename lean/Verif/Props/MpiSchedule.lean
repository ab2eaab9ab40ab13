import Verif.Spec.MpiSchedule
import Verif.Lemma.MpiScheduleExchange
import Verif.Props.MpiAccumulate

/-!
# C105 – C107: parallel programs at any pace
-/

namespace Schnek.Props

open Schnek Schnek.Spec Schnek.Mpi Schnek.Lemma.Exchange Schnek.Lemma.MpiSchedule Function

variable {n : ℕ} {T : Type}

theorem completes_of_together {S : Setup n} {is : List (Coord S → Instr (Coord S) (GridMap n T) T)}
    {M M' : Coord S → Memory (GridMap n T) T} (h : Together is M M') {result : World S T → Prop} (hr : result (grids M')) :
    Completes (codeOf is) (Config.start M) result := by
  intro buffered
  refine ⟨⟨_, fun k C hC => (any_schedule h buffered hC).2.2.2⟩, fun k C hC => ?_⟩
  obtain ⟨h1, h2, h3, -⟩ := any_schedule h buffered hC
  refine ⟨h1, h2, fun hF => ⟨fun a b => (h3 hF a).2 b, ?_⟩⟩
  have : (fun p => (C.proc p).mem.grid) = grids M' := funext fun p => by rw [(h3 hF p).1]; rfl
  rw [this]
  exact hr

/-- what `Completes` says is not empty: there are schedules that end with all processes finished -/
theorem finishes_of_completes {P G T : Type} [DecidableEq P] {code : P → List (Instr P G T)} {begin : Config P G T}
    {result : (P → G) → Prop} (h : Completes code begin result) (buffered : P → ℕ → Bool) :
    ∃ k C, Steps code buffered k begin C ∧ C.Finished code ∧ result fun p => (C.proc p).mem.grid := by
  obtain ⟨⟨N, hN⟩, h2⟩ := h buffered
  by_contra hc
  push Not at hc
  have : ∀ k, ∃ C, Steps code buffered k begin C := by
    intro k
    induction k with
    | zero => exact ⟨begin, .zero _⟩
    | succ k ih =>
      obtain ⟨C, hC⟩ := ih
      obtain ⟨-, h3, h4⟩ := h2 k C hC
      obtain ⟨C', hC'⟩ := h3 fun hF => hc k C hC hF (h4 hF).2
      exact ⟨C', .succ hC hC'⟩
  obtain ⟨C, hC⟩ := this (N + 1)
  have := hN _ _ hC
  omega

/-- **C105** `exchange(grid)`, called by all processes of any number, ends under every schedule without deadlock and without access outside of a grid
or a buffer, and afterwards every cell of the local domains, ghost cells, edges and corners included, holds the value of the periodically
continued global field (C25). The send and receive buffers may hold anything before. -/
theorem C105_exchange_any_schedule (S : Setup n) (hδ : 1 ≤ S.delta) (hw : ∀ c i, S.delta ≤ innerWidth (bounds S c) i)
    (hfit : ∀ c, S.delta * ∏ i, ((bounds S c).size.hi i - (bounds S c).size.lo i + 1) < 2 ^ 31)
    (M : Coord S → Memory (GridMap n T) T) (hcov : ∀ c, ∀ p ∈ box (bounds S c).size, (M c).grid.range.inside p = true)
    (φ : Idx n → T) (hφ : ∀ c, ∀ p ∈ box (bounds S c).innerDomain, (M c).grid.cell p = φ p) :
    Completes (exchangeCode S) (Config.start M) fun W' =>
      (∀ c, (W' c).range = (M c).grid.range) ∧
      (∀ c, ∀ p ∈ box (bounds S c).size, (W' c).cell p = φ (fun i => p i % (S.globalHi i + 1))) ∧
      ∀ c p, p ∉ box (bounds S c).size → (W' c).cell p = (M c).grid.cell p := by
  obtain ⟨W', h1, h2, h3, h4⟩ := C25_exchange_is_global_periodic S hδ hw hfit (grids M) hcov φ hφ
  obtain ⟨M', t, rfl⟩ := exchange_together M ((h1 W').mpr rfl)
  rw [← codeOf_exchange]
  exact completes_of_together t ⟨h2, h3, h4⟩

/-- **C106** `accumulate(grid)`, called by all processes of any number, ends under every schedule without deadlock and without access outside of a grid
or a buffer, and afterwards a cell of a local domain holds the sum over all cells of the local domains of all processes that stand for
the same cell (C56). -/
theorem C106_accumulate_any_schedule [AddCommMonoid T] (S : Setup n) (hδ : 1 ≤ S.delta)
    (hw : ∀ c i, S.delta ≤ innerWidth (bounds S c) i)
    (hfit : ∀ c, S.delta * ∏ i, ((bounds S c).size.hi i - (bounds S c).size.lo i + 1) < 2 ^ 31)
    (M : Coord S → Memory (GridMap n T) T) (hcov : ∀ c, ∀ p ∈ box (bounds S c).size, (M c).grid.range.inside p = true) :
    Completes (accumulateCode S) (Config.start M) fun W' =>
      (∀ c, (W' c).range = (M c).grid.range) ∧
      (∀ c, ∀ p ∈ box (bounds S c).size,
        (∀ i, (∀ c' : Coord S, 2 * S.delta ≤ innerWidth (bounds S c') i) ∨ (bounds S c).innerDomain.lo i ≤ p i) →
        (W' c).cell p = ∑ c' : Coord S, ∑ q ∈ (Finset.Icc (bounds S c').size.lo (bounds S c').size.hi).filter
          (fun q => ∀ i, (S.globalHi i + 1) ∣ q i - p i), (M c').grid.cell q) ∧
      ∀ c p, p ∉ box (bounds S c).size → (W' c).cell p = (M c).grid.cell p := by
  obtain ⟨W', h1, h2, h3, h4⟩ := C56_accumulate_sums_images S hδ hw hfit (grids M) hcov
  obtain ⟨M', t, rfl⟩ := accumulate_together M ((h1 W').mpr rfl)
  rw [← codeOf_accumulate]
  exact completes_of_together t ⟨h2, h3, h4⟩

/-- A program that exchanges the boundaries of a grid and then, `k` times, computes new values in its grid and exchanges the boundaries again. -/
def simulationCode (S : Setup n) (update : ℕ → Coord S → GridMap n T → GridMap n T) (k : ℕ) (c : Coord S) :
    List (Instr (Coord S) (GridMap n T) T) :=
  exchangeCode S c ++ (List.range k).flatMap fun t =>
    .compute (fun m m' => m' = { m with grid := update t c m.grid }) :: exchangeCode S c

private theorem simulation_together (S : Setup n) (hδ : 1 ≤ S.delta) (hw : ∀ c i, S.delta ≤ innerWidth (bounds S c) i)
    (hfit : ∀ c, S.delta * ∏ i, ((bounds S c).size.hi i - (bounds S c).size.lo i + 1) < 2 ^ 31)
    (F : ℕ → Idx n → (Idx n → T) → T) (hF : Reaches S.delta F)
    (update : ℕ → Coord S → GridMap n T → GridMap n T) (hr : ∀ t c g, (update t c g).range = g.range)
    (hu : ∀ t c g, ∀ p ∈ box (bounds S c).innerDomain, (update t c g).cell p = F t p fun o => g.cell fun i => p i + o i)
    (M : Coord S → Memory (GridMap n T) T) (hcov : ∀ c, ∀ p ∈ box (bounds S c).size, (M c).grid.range.inside p = true)
    (φ : Idx n → T) (hφ : ∀ c, ∀ p ∈ box (bounds S c).innerDomain, (M c).grid.cell p = φ p) :
    ∀ k, ∃ M', Together (exchangeRounds S ++ (List.range k).flatMap fun t =>
        (fun c => .compute (fun m m' => m' = { m with grid := update t c m.grid })) :: exchangeRounds S) M M' ∧
      (∀ c, (M' c).grid.range = (M c).grid.range) ∧
      ∀ c, ∀ p ∈ box (bounds S c).size, (M' c).grid.cell p = evolve (fun i => S.globalHi i + 1) F k φ fun i => p i % (S.globalHi i + 1)
  | 0 => by
    obtain ⟨W', h1, h2, h3, -⟩ := C25_exchange_is_global_periodic S hδ hw hfit (grids M) hcov φ hφ
    obtain ⟨M', t, rfl⟩ := exchange_together M ((h1 W').mpr rfl)
    exact ⟨M', by simpa using t, h2, h3⟩
  | k + 1 => by
    obtain ⟨M₁, t1, r1, c1⟩ := simulation_together S hδ hw hfit F hF update hr hu M hcov φ hφ k
    let M₂ : Coord S → Memory (GridMap n T) T := fun c => { M₁ c with grid := update k c (M₁ c).grid }
    have hcov₂ : ∀ c, ∀ p ∈ box (bounds S c).size, (M₂ c).grid.range.inside p = true := fun c p hp => by
      show (update k c (M₁ c).grid).range.inside p = true
      rw [hr, r1]
      exact hcov c p hp
    have hφ₂ : ∀ c, ∀ p ∈ box (bounds S c).innerDomain,
        (M₂ c).grid.cell p = evolve (fun i => S.globalHi i + 1) F (k + 1) φ p := fun c p hp => by
      show (update k c (M₁ c).grid).cell p = F k p _
      rw [hu k c _ p hp]
      refine hF k p _ _ fun o ho => c1 c _ fun i => ?_
      have h1 := hp i
      have h2 := abs_le.mp (ho i)
      simp only [Boundary.innerDomain, bounds] at h1
      show localLow S c i ≤ p i + o i ∧ p i + o i ≤ localHigh S c i
      omega
    obtain ⟨W', h1, h2, h3, -⟩ := C25_exchange_is_global_periodic S hδ hw hfit (grids M₂) hcov₂ _ hφ₂
    obtain ⟨M', t, rfl⟩ := exchange_together M₂ ((h1 W').mpr rfl)
    refine ⟨M', ?_, fun c => (h2 c).trans ((hr k c _).trans (r1 c)), h3⟩
    rw [List.range_succ, List.flatMap_append, ← List.append_assoc]
    refine t1.append ?_
    rw [List.flatMap_cons, List.flatMap_nil, List.append_nil]
    exact .compute (fun c m => Iff.rfl) t

/-- **C107** A simulation whose new values depend on the values at a distance of at most the ghost width, with an exchange of the
boundaries after each step, computes in every process of any number, under every schedule and for any number of time steps, what the same simulation
computes on the periodically continued global field. -/
theorem C107_simulation (S : Setup n) (hδ : 1 ≤ S.delta) (hw : ∀ c i, S.delta ≤ innerWidth (bounds S c) i)
    (hfit : ∀ c, S.delta * ∏ i, ((bounds S c).size.hi i - (bounds S c).size.lo i + 1) < 2 ^ 31)
    (F : ℕ → Idx n → (Idx n → T) → T) (hF : Reaches S.delta F)
    (update : ℕ → Coord S → GridMap n T → GridMap n T) (hr : ∀ t c g, (update t c g).range = g.range)
    (hu : ∀ t c g, ∀ p ∈ box (bounds S c).innerDomain, (update t c g).cell p = F t p fun o => g.cell fun i => p i + o i)
    (M : Coord S → Memory (GridMap n T) T) (hcov : ∀ c, ∀ p ∈ box (bounds S c).size, (M c).grid.range.inside p = true)
    (φ : Idx n → T) (hφ : ∀ c, ∀ p ∈ box (bounds S c).innerDomain, (M c).grid.cell p = φ p) (k : ℕ) :
    Completes (simulationCode S update k) (Config.start M) fun W' =>
      ∀ c, ∀ p ∈ box (bounds S c).size, (W' c).cell p = evolve (fun i => S.globalHi i + 1) F k φ fun i => p i % (S.globalHi i + 1) := by
  obtain ⟨M', t, -, h⟩ := simulation_together S hδ hw hfit F hF update hr hu M hcov φ hφ k
  have hc : codeOf (exchangeRounds S ++ (List.range k).flatMap fun t =>
      (fun c => Instr.compute (fun m m' => m' = { m with grid := update t c m.grid })) :: exchangeRounds S) =
      simulationCode S update k := by
    funext c
    have : ∀ a b : List (Coord S → Instr (Coord S) (GridMap n T) T), codeOf (a ++ b) c = codeOf a c ++ codeOf b c := fun a b =>
      List.map_append ..
    rw [this, simulationCode, codeOf_exchange]
    congr 1
    refine codeOf_flatMap c _ _ (fun t => ?_) _
    show _ :: codeOf (exchangeRounds S) c = _
    rw [codeOf_exchange]
  rw [← hc]
  exact completes_of_together t h

/-- what is assumed of the processes, the program and the initial values in C107 -/
structure Simulation (S : Setup n) (F : ℕ → Idx n → (Idx n → T) → T) (update : ℕ → Coord S → GridMap n T → GridMap n T)
    (M : Coord S → Memory (GridMap n T) T) (φ : Idx n → T) : Prop where
  delta : 1 ≤ S.delta
  wide : ∀ c i, S.delta ≤ innerWidth (bounds S c) i
  fit : ∀ c, S.delta * ∏ i, ((bounds S c).size.hi i - (bounds S c).size.lo i + 1) < 2 ^ 31
  reaches : Reaches S.delta F
  range : ∀ t c g, (update t c g).range = g.range
  update : ∀ t c g, ∀ p ∈ box (bounds S c).innerDomain, (update t c g).cell p = F t p fun o => g.cell fun i => p i + o i
  covers : ∀ c, ∀ p ∈ box (bounds S c).size, (M c).grid.range.inside p = true
  initial : ∀ c, ∀ p ∈ box (bounds S c).innerDomain, (M c).grid.cell p = φ p

/-- **C107** The result does not depend on the number of processes, on the number of ghost cells or on the schedule. -/
theorem C107_any_number_of_processes (S S' : Setup n) (hS : S'.globalHi = S.globalHi) (F : ℕ → Idx n → (Idx n → T) → T)
    (φ : Idx n → T) (update : ℕ → Coord S → GridMap n T → GridMap n T) (update' : ℕ → Coord S' → GridMap n T → GridMap n T)
    (M : Coord S → Memory (GridMap n T) T) (M' : Coord S' → Memory (GridMap n T) T) (h : Simulation S F update M φ)
    (h' : Simulation S' F update' M' φ) (k : ℕ) (buffered : Coord S → ℕ → Bool) (buffered' : Coord S' → ℕ → Bool) (l l' : ℕ)
    (C : Config (Coord S) (GridMap n T) T) (C' : Config (Coord S') (GridMap n T) T)
    (hC : Steps (simulationCode S update k) buffered l (Config.start M) C) (hF : C.Finished (simulationCode S update k))
    (hC' : Steps (simulationCode S' update' k) buffered' l' (Config.start M') C') (hF' : C'.Finished (simulationCode S' update' k))
    (c : Coord S) (c' : Coord S') (p p' : Idx n) (hp : p ∈ box (bounds S c).size) (hp' : p' ∈ box (bounds S' c').size)
    (hpp : ∀ i, p i % (S.globalHi i + 1) = p' i % (S.globalHi i + 1)) :
    (C.proc c).mem.grid.cell p = (C'.proc c').mem.grid.cell p' := by
  have e1 := ((((C107_simulation S h.delta h.wide h.fit F h.reaches update h.range h.update M h.covers φ h.initial k) buffered).2 l C hC).2.2
    hF).2 c p hp
  have e2 := ((((C107_simulation S' h'.delta h'.wide h'.fit F h'.reaches update' h'.range h'.update M' h'.covers φ h'.initial k)
    buffered').2 l' C' hC').2.2 hF').2 c' p' hp'
  rw [hS] at e2
  simp only [hpp] at e1
  exact e1.trans e2.symm

/-- non-vacuity of C105, C106 and C107: 12×7 cells on 3×2 processes, with a stencil of five values, from arbitrary initial values. The
number of a cell stands for its initial value. -/
example : let S := exampleSetup
    let F : ℕ → Idx 2 → (Idx 2 → ℤ) → ℤ := fun t p v => v ![0, 0] + p 0 * (v ![1, 0] - v ![-1, 0]) + t * (v ![0, 1] - v ![0, -1])
    ∀ φ : Idx 2 → ℤ, Simulation S F (fun t _ g => { g with cell := fun p => F t p fun o => g.cell fun i => p i + o i })
      (fun c => ⟨⟨(bounds S c).size, φ⟩, [], []⟩) φ := by
  intro S F φ
  obtain ⟨h1, h2, h3, -⟩ := exampleSetup_exchange
  refine ⟨h1, h2, h3, fun t p v w h => ?_, fun _ _ _ => rfl, fun _ _ _ _ _ => rfl, fun c p hp => (C01_inside_iff _ _).mpr hp,
    fun _ _ _ => rfl⟩
  have h0 : ∀ o ∈ [(![0, 0] : Idx 2), ![1, 0], ![-1, 0], ![0, 1], ![0, -1]], v o = w o := fun o ho => h o fun i => by
    show |o i| ≤ 1
    simp only [List.mem_cons, List.not_mem_nil, or_false] at ho
    rcases ho with rfl | rfl | rfl | rfl | rfl <;> fin_cases i <;> simp
  simp only [List.forall_mem_cons] at h0
  obtain ⟨e1, e2, e3, e4, e5, -⟩ := h0
  simp only [F, e1, e2, e3, e4, e5]

/-- and these programs really communicate: a process sends and receives four messages in an exchange -/
example (c : Coord exampleSetup) : (exchangeCode (T := ℤ) exampleSetup c).countP (fun i => i matches .sendrecv ..) = 4 := rfl

end Schnek.Props
