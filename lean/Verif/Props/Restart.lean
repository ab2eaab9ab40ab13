import Verif.Props.MpiSchedule
import Verif.Props.Hdf

/-!
# C126: simulations that are stopped and continued from a file
-/

namespace Schnek.Props

open Schnek Schnek.Spec Schnek.Mpi Schnek.Hdf Schnek.Lemma Schnek.Lemma.Mpi

variable {n : ℕ} {T : Type}

/-- What the processes pass to an HDF5 stream, in C order: a grid that contains the inner domain of the process, this inner domain as the local domain and the global
domain of the subdivision. -/
structure Passed (S : Setup (n + 1)) (cont : Coord S → Container T n) : Prop where
  localDomain : ∀ c, (cont c).localMin = (bounds S c).innerDomain.lo ∧ (cont c).localMax = (bounds S c).innerDomain.hi
  globalDomain : ∀ c, (cont c).globalMin = S.globalLo ∧ (cont c).globalMax = S.globalHi
  fits : ∀ c, Fits (cont c)

/-- The grid in `cont` has the same values as the field `g` of process `c`, in the inner domain. -/
def SameInner (S : Setup (n + 1)) (c : Coord S) (cont : Container T n) (g : GridMap (n + 1) T) : Prop :=
  ∀ p ∈ box (bounds S c).innerDomain, cont.grid.get? p = some (g.cell p)

/-- what is assumed of the processes and of the program in C107, without the initial values -/
structure Program (S : Setup n) (F : ℕ → Idx n → (Idx n → T) → T) (update : ℕ → Coord S → GridMap n T → GridMap n T) : Prop where
  delta : 1 ≤ S.delta
  wide : ∀ c i, S.delta ≤ innerWidth (bounds S c) i
  fit : ∀ c, S.delta * ∏ i, ((bounds S c).size.hi i - (bounds S c).size.lo i + 1) < 2 ^ 31
  reaches : Reaches S.delta F
  range : ∀ t c g, (update t c g).range = g.range
  update : ∀ t c g, ∀ p ∈ box (bounds S c).innerDomain, (update t c g).cell p = F t p fun o => g.cell fun i => p i + o i

theorem evolve_add (N : Idx n) (F : ℕ → Idx n → (Idx n → T) → T) (k : ℕ) (φ : Idx n → T) :
    ∀ m, evolve N F (k + m) φ = evolve N (fun t => F (k + t)) m (evolve N F k φ)
  | 0 => rfl
  | m + 1 => by
    funext p
    show F (k + m) p (fun o => evolve N F (k + m) φ _) = F (k + m) p (fun o => evolve N (fun t => F (k + t)) m (evolve N F k φ) _)
    rw [evolve_add N F k φ m]

/-- An inner cell is a cell of the global domain. -/
theorem inner_global {S : Setup (n + 1)} {cont : Coord S → Container T n} (h : Passed S cont) (c : Coord S) {p : Idx (n + 1)}
    (hp : p ∈ box (bounds S c).innerDomain) : ∀ i, S.globalLo i ≤ p i ∧ p i ≤ S.globalHi i := by
  intro i
  have h1 := hp i
  have h2 := (h.fits c).localGlobal i
  rw [(h.globalDomain c).1, (h.globalDomain c).2, (h.localDomain c).1, (h.localDomain c).2] at h2
  omega

/-- The inner domain is part of what a process stores. -/
theorem inner_size (S : Setup n) (hδ : 1 ≤ S.delta) (c : Coord S) {p : Idx n} (hp : p ∈ box (bounds S c).innerDomain) :
    p ∈ box (bounds S c).size := by
  intro i
  have h1 : (bounds S c).size.lo i + S.delta ≤ p i ∧ p i ≤ (bounds S c).size.hi i - S.delta := hp i
  show (bounds S c).size.lo i ≤ p i ∧ p i ≤ (bounds S c).size.hi i
  omega

/-- **C126** What a parallel simulation writes is the field of the simulation, whatever the number of processes, the number of ghost cells, the schedule, and the order in which the
processes write: every process finds in the file the values of the global field after `k` steps. -/
theorem C126_file (S : Setup (n + 1)) (rnd : ℚ → ℚ) (hS : Initialised S rnd) (h0 : ∀ i, S.globalLo i = 0)
    (F : ℕ → Idx (n + 1) → (Idx (n + 1) → T) → T) (φ : Idx (n + 1) → T) (update : ℕ → Coord S → GridMap (n + 1) T → GridMap (n + 1) T)
    (M : Coord S → Memory (GridMap (n + 1) T) T) (h : Simulation S F update M φ) (k : ℕ) (buffered : Coord S → ℕ → Bool) (l : ℕ)
    (C : Config (Coord S) (GridMap (n + 1) T) T) (hC : Steps (simulationCode S update k) buffered l (Config.start M) C)
    (hF : C.Finished (simulationCode S update k))
    (cont : Coord S → Container T n) (hcont : Passed S cont) (hvalues : ∀ c, SameInner S c (cont c) (C.proc c).mem.grid)
    (fill : T) (first : Coord S) (rest : List (Coord S)) (hall : ∀ c, c ∈ first :: rest) :
    ∃ D, writeAll (create (cont first) fill) ((first :: rest).map cont) = .ok D ∧
      DatasetHolds (evolve (fun i => S.globalHi i + 1) F k φ) S.globalLo S.globalHi D := by
  have hr := ((((C107_simulation S h.delta h.wide h.fit F h.reaches update h.range h.update M h.covers φ h.initial k) buffered).2 l C hC).2.2
    hF).2
  refine C68_mpi_partial S rnd hS h0 cont hcont.localDomain hcont.globalDomain hcont.fits _ (fun c p hp => ?_) fill first rest hall
  rw [(hcont.localDomain c).1, (hcont.localDomain c).2] at hp
  have hb : p ∈ box (bounds S c).innerDomain := hp
  have hg := inner_global hcont c hb
  rw [hvalues c p hb, hr c p (inner_size S h.delta c hb)]
  congr 2
  funext i
  have := hg i
  have := h0 i
  exact Int.emod_eq_of_lt (by omega) (by omega)

/-- **C126** A simulation that is stopped after `k` steps, saved, and continued for `m` steps by other processes (any number of them, any number of ghost cells) gives the field
that a simulation of `k + m` steps gives; neither part gets stuck or does anything that is not allowed, whatever the schedule. -/
theorem C126_restart (S S' : Setup (n + 1)) (rnd : ℚ → ℚ) (hS : Initialised S rnd) (h0 : ∀ i, S.globalLo i = 0)
    (hlo : S'.globalLo = S.globalLo) (hhi : S'.globalHi = S.globalHi)
    (F : ℕ → Idx (n + 1) → (Idx (n + 1) → T) → T) (φ : Idx (n + 1) → T) (update : ℕ → Coord S → GridMap (n + 1) T → GridMap (n + 1) T)
    (M : Coord S → Memory (GridMap (n + 1) T) T) (h : Simulation S F update M φ) (k : ℕ) (buffered : Coord S → ℕ → Bool) (l : ℕ)
    (C : Config (Coord S) (GridMap (n + 1) T) T) (hC : Steps (simulationCode S update k) buffered l (Config.start M) C)
    (hF : C.Finished (simulationCode S update k))
    (cont : Coord S → Container T n) (hcont : Passed S cont) (hvalues : ∀ c, SameInner S c (cont c) (C.proc c).mem.grid)
    (fill : T) (first : Coord S) (rest : List (Coord S)) (hall : ∀ c, c ∈ first :: rest)
    (cont' : Coord S' → Container T n) (hcont' : Passed S' cont')
    (update' : ℕ → Coord S' → GridMap (n + 1) T → GridMap (n + 1) T) (h' : Program S' (fun t => F (k + t)) update') :
    ∃ D, writeAll (create (cont first) fill) ((first :: rest).map cont) = .ok D ∧
      ∃ r : Coord S' → Container T n, (∀ c, Hdf.read D (cont' c) = .ok (r c)) ∧
        ∀ M' : Coord S' → Memory (GridMap (n + 1) T) T, (∀ c, ∀ p ∈ box (bounds S' c).size, (M' c).grid.range.inside p = true) →
          (∀ c, SameInner S' c (r c) (M' c).grid) → ∀ m,
          Completes (simulationCode S' update' m) (Config.start M') fun W' => ∀ c, ∀ p ∈ box (bounds S' c).size,
            (W' c).cell p = evolve (fun i => S.globalHi i + 1) F (k + m) φ fun i => p i % (S.globalHi i + 1) := by
  obtain ⟨D, h1, h2⟩ := C126_file S rnd hS h0 F φ update M h k buffered l C hC hF cont hcont hvalues fill first rest hall
  have hread : ∀ c, ∃ r, Hdf.read D (cont' c) = .ok r ∧ ∀ p ∈ box (bounds S' c).innerDomain,
      r.grid.get? p = some (evolve (fun i => S.globalHi i + 1) F k φ p) := by
    intro c
    obtain ⟨r, e1, e2, -, -, e3, -⟩ := C68_read S.globalLo S.globalHi _ D h2 (cont' c)
      ⟨(hcont'.globalDomain c).1.trans hlo, (hcont'.globalDomain c).2.trans hhi⟩ (hcont'.fits c)
    refine ⟨r, e1, fun p hp => e3 p ?_⟩
    rw [e2]
    show InBox (cont' c).localMin (cont' c).localMax p
    rw [(hcont'.localDomain c).1, (hcont'.localDomain c).2]
    exact hp
  choose r hr hr' using hread
  refine ⟨D, h1, r, hr, fun M' hcov hM' m => ?_⟩
  have := C107_simulation S' h'.delta h'.wide h'.fit _ h'.reaches update' h'.range h'.update M' hcov
    (evolve (fun i => S.globalHi i + 1) F k φ) (fun c p hp => by
      have e := hM' c p hp
      rw [hr' c p hp] at e
      exact (Option.some.inj e).symm) m
  rw [hhi] at this
  rw [evolve_add]
  exact this

/-- A grid with given values exists. -/
theorem grid_with (r : Range (n + 1)) (hne : ∀ i, r.lo i ≤ r.hi i) (hs : ∏ i, extent r.lo r.hi i < 2 ^ 64) (v : Idx (n + 1) → T) :
    ∃ g : Grid T n, g.range = r ∧ g.order = .c ∧ Usable g ∧ ∀ p, InBox r.lo r.hi p → g.get? p = some (v p) := by
  classical
  obtain ⟨hb, hsize⟩ := C04_c_order_bijection r hne hs
  have : Nonempty (Idx (n + 1)) := ⟨r.lo⟩
  refine ⟨Grid.create .c r fun k => v (Function.invFunOn (Storage.slot .c r) {p | InBox r.lo r.hi p} k), rfl, rfl, C07_create _ _ _ hne hs,
    fun p hp => ?_⟩
  have h1 : (Storage.slot .c r p : ℤ) < ∏ i, extent r.lo r.hi i := hb.mapsTo hp
  rw [← hsize] at h1
  have h2 : Storage.slot .c r p < (Storage.size r).val := by exact_mod_cast h1
  have h3 := hb.injOn.leftInvOn_invFunOn hp
  simp [Grid.get?, Grid.create, List.getElem?_range, h2, h3]

/-- **C126** The hypotheses on the grids can always be met: whatever the fields of the processes are, there are grids with the same values in the inner domains. -/
theorem C126_grids (S : Setup (n + 1)) (rnd : ℚ → ℚ) (hS : Initialised S rnd) (h0 : ∀ i, S.globalLo i = 0) (hδ : 1 ≤ S.delta)
    (hint : ∀ i, S.globalHi i + S.delta < 2 ^ 31) (hw : ∀ c i, S.delta ≤ innerWidth (bounds S c) i)
    (hfit : ∀ c, S.delta * ∏ i, ((bounds S c).size.hi i - (bounds S c).size.lo i + 1) < 2 ^ 31) (W : World S T) :
    ∃ cont : Coord S → Container T n, Passed S cont ∧ (∀ c, SameInner S c (cont c) (W c)) ∧ ∀ c, (cont c).grid.range = (bounds S c).size := by
  have hsz : ∀ c i, (bounds S c).size.lo i + S.delta + S.delta ≤ (bounds S c).size.hi i - S.delta + 1 := fun c i => by
    have : S.delta ≤ (bounds S c).size.hi i - S.delta - ((bounds S c).size.lo i + S.delta) + 1 := hw c i
    omega
  have hgl : ∀ c i, 0 ≤ (bounds S c).size.lo i + S.delta ∧ (bounds S c).size.hi i - S.delta ≤ S.globalHi i := fun c i => by
    have hsub := (C23_inner_domains_tile_partial S rnd hS h0).2 c
    have ha : (fun j => (bounds S c).size.lo j + S.delta) ∈ box (bounds S c).innerDomain := fun j => by
      have := hsz c j
      show (bounds S c).size.lo j + S.delta ≤ (bounds S c).size.lo j + S.delta ∧ (bounds S c).size.lo j + S.delta ≤ (bounds S c).size.hi j - S.delta
      omega
    have hb : (fun j => (bounds S c).size.hi j - S.delta) ∈ box (bounds S c).innerDomain := fun j => by
      have := hsz c j
      show (bounds S c).size.lo j + S.delta ≤ (bounds S c).size.hi j - S.delta ∧ (bounds S c).size.hi j - S.delta ≤ (bounds S c).size.hi j - S.delta
      omega
    have h1 : S.globalLo i ≤ (bounds S c).size.lo i + S.delta ∧ _ := hsub ha i
    have h2 : _ ∧ (bounds S c).size.hi i - S.delta ≤ S.globalHi i := hsub hb i
    have := h0 i
    exact ⟨by omega, h2.2⟩
  have hex : ∀ c, ∃ g : Grid T n, g.range = (bounds S c).size ∧ g.order = .c ∧ Usable g ∧
      ∀ p, InBox (bounds S c).size.lo (bounds S c).size.hi p → g.get? p = some ((W c).cell p) := fun c => by
    refine grid_with _ (fun i => ?_) ?_ _
    · have := hsz c i
      omega
    · have h1 := hfit c
      have h2 : 0 ≤ ∏ i, ((bounds S c).size.hi i - (bounds S c).size.lo i + 1) := Finset.prod_nonneg fun i _ => by
        have := hsz c i
        omega
      have h3 : ∏ i, extent (bounds S c).size.lo (bounds S c).size.hi i = ∏ i, ((bounds S c).size.hi i - (bounds S c).size.lo i + 1) := rfl
      rw [h3]
      nlinarith
  choose g hg1 hg2 hg3 hg4 using hex
  refine ⟨fun c => ⟨g c, S.globalLo, S.globalHi, (bounds S c).innerDomain.lo, (bounds S c).innerDomain.hi⟩,
    ⟨fun _ => ⟨rfl, rfl⟩, fun _ => ⟨rfl, rfl⟩, fun c => ?_⟩, fun c p hp => hg4 c p (inner_size S hδ c hp), hg1⟩
  refine { usable := hg3 c, localGlobal := fun i => ?_, localGrid := fun i => ?_, int := fun i => ?_, order := hg2 c }
  · have h1 := hgl c i
    have h2 := hsz c i
    have := h0 i
    show S.globalLo i ≤ (bounds S c).size.lo i + S.delta ∧ (bounds S c).size.lo i + S.delta ≤ (bounds S c).size.hi i - S.delta + 1 ∧
      (bounds S c).size.hi i - S.delta ≤ S.globalHi i
    omega
  · have h2 := hsz c i
    show (g c).range.lo i ≤ (bounds S c).size.lo i + S.delta ∧ (bounds S c).size.hi i - S.delta ≤ (g c).range.hi i
    rw [hg1 c]
    omega
  · have h1 := hgl c i
    have h2 := hsz c i
    have h3 := h0 i
    have h4 := hint i
    show IsInt (S.globalLo i) ∧ IsInt (S.globalHi i) ∧ IsInt ((g c).range.lo i) ∧ IsInt ((g c).range.hi i)
    rw [hg1 c]
    simp only [IsInt]
    omega

/-- the same cells as in `exampleSetup`, on one process, with two ghost cells -/
def exampleSerial : Setup 2 where
  globalLo := ![0, 0]
  globalHi := ![11, 6]
  dims := ![1, 1]
  cut i k := cutOf id ((![11, 6] : Idx 2) i) ((![1, 1] : Fin 2 → ℕ) i) k
  delta := 2

/-- a stencil of five values that depends on time and position -/
def exampleStencil (t : ℕ) (p : Idx 2) (v : Idx 2 → ℤ) : ℤ := v ![0, 0] + p 0 * (v ![1, 0] - v ![-1, 0]) + t * (v ![0, 1] - v ![0, -1])

theorem exampleStencil_reaches (δ : ℤ) (hδ : 1 ≤ δ) : Reaches δ exampleStencil := by
  intro t p v w h
  have h0 : ∀ o ∈ [(![0, 0] : Idx 2), ![1, 0], ![-1, 0], ![0, 1], ![0, -1]], v o = w o := fun o ho => h o fun i => by
    refine le_trans ?_ hδ
    simp only [List.mem_cons, List.not_mem_nil, or_false] at ho
    rcases ho with rfl | rfl | rfl | rfl | rfl <;> fin_cases i <;> simp
  simp only [List.forall_mem_cons] at h0
  obtain ⟨e1, e2, e3, e4, e5, -⟩ := h0
  simp only [exampleStencil, e1, e2, e3, e4, e5]

private theorem serial_bounds (c : Coord exampleSerial) (i : Fin 2) : (bounds exampleSerial c).size.lo i = -2 ∧
    (bounds exampleSerial c).size.hi i = ![11, 6] i + 2 := by
  have hc : ∀ j, (c j).1 = 0 := fun j => by
    have : (c j).1 < ![1, 1] j := (c j).2
    fin_cases j <;> simpa using this
  rw [Lemma.Mpi.size_lo, Lemma.Mpi.size_hi, hc i]
  fin_cases i <;> exact ⟨by decide +kernel, by decide +kernel⟩

/-- non-vacuity of `C126_restart`: 12×7 cells, first on 3×2 processes with one ghost cell, then on one process with two -/
example (φ : Idx 2 → ℤ) : let update : (S : Setup 2) → ℕ → ℕ → Coord S → GridMap 2 ℤ → GridMap 2 ℤ := fun _ k t _ g =>
      { g with cell := fun p => exampleStencil (k + t) p fun o => g.cell fun i => p i + o i }
    Initialised exampleSetup id ∧ (∀ i, exampleSetup.globalLo i = 0) ∧ exampleSerial.globalLo = exampleSetup.globalLo ∧
    exampleSerial.globalHi = exampleSetup.globalHi ∧
    Simulation exampleSetup (fun t => exampleStencil (0 + t)) (update _ 0) (fun c => ⟨⟨(bounds exampleSetup c).size, φ⟩, [], []⟩) φ ∧
    (∀ k, Program exampleSerial (fun t => exampleStencil (k + t)) (update _ k)) ∧
    (∀ W : World exampleSetup ℤ, ∃ cont, Passed exampleSetup cont ∧ ∀ c, SameInner exampleSetup c (cont c) (W c)) ∧
    ∃ cont : Coord exampleSerial → Container ℤ 1, Passed exampleSerial cont := by
  intro update
  obtain ⟨h1, h2, h3, -⟩ := exampleSetup_exchange
  have hw : ∀ c i, exampleSerial.delta ≤ innerWidth (bounds exampleSerial c) i := fun c i => by
    obtain ⟨e1, e2⟩ := serial_bounds c i
    show 2 ≤ (bounds exampleSerial c).size.hi i - 2 - ((bounds exampleSerial c).size.lo i + 2) + 1
    rw [e1, e2]
    fin_cases i <;> decide
  have hf : ∀ c, exampleSerial.delta * ∏ i, ((bounds exampleSerial c).size.hi i - (bounds exampleSerial c).size.lo i + 1) < 2 ^ 31 := fun c => by
    simp only [fun i => (serial_bounds c i).1, fun i => (serial_bounds c i).2]
    decide
  have hi : Initialised exampleSerial id := ⟨rounding_id, fun _ _ => rfl, fun i => by fin_cases i <;> decide, fun i => by fin_cases i <;> decide⟩
  have hz : ∀ i, exampleSerial.globalLo i = 0 := fun i => by fin_cases i <;> rfl
  have hz' : ∀ i, exampleSetup.globalLo i = 0 := fun i => by fin_cases i <;> rfl
  refine ⟨exampleSetup_initialised, hz', rfl, rfl, ⟨h1, h2, h3, fun t => exampleStencil_reaches _ h1 _, fun _ _ _ => rfl,
    fun _ _ _ _ _ => rfl, fun c p hp => (C01_inside_iff _ _).mpr hp, fun _ _ _ => rfl⟩, fun k => ⟨by decide, hw, hf,
    fun t => exampleStencil_reaches _ (by decide) _, fun _ _ _ => rfl, fun _ _ _ _ _ => rfl⟩, fun W => ?_, ?_⟩
  · obtain ⟨cont, a, b, -⟩ := C126_grids exampleSetup id exampleSetup_initialised hz' h1 (fun i => by fin_cases i <;> decide) h2 h3 W
    exact ⟨cont, a, b⟩
  · obtain ⟨cont, a, -⟩ := C126_grids exampleSerial id hi hz (by decide) (fun i => by fin_cases i <;> decide) hw hf
      (fun c => ⟨(bounds exampleSerial c).size, fun _ => (0 : ℤ)⟩)
    exact ⟨cont, a⟩

end Schnek.Props
