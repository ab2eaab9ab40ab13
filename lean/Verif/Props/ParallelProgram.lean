import Verif.Lemma.ParallelProgram
import Verif.Props.MpiSchedule

/-!
# C112: parallel programs
-/

namespace Schnek.Props

open Schnek Schnek.Spec Schnek.Mpi Schnek.Buffer Schnek.Lemma.MpiSchedule Schnek.Lemma.ParallelProgram Function

variable {n : ℕ} {X T F : Type}

/-- **C112** Any program that is executed by all processes and consists of computations with the own data and of calls of `exchange`,
`accumulate`, `exchangeData` and the reductions, in any order and number and on any variables, ends under every schedule without deadlock;
no message of one call is taken for that of another; nobody does anything that is not allowed; and the data afterwards are those which result
if the calls, one after the other, do what they are supposed to do with the data of all processes. -/
theorem C112_program_any_schedule [AddCommMonoid T] [LinearOrder F] (S : Setup n) (hS : ∀ i, 1 ≤ S.dims i) (hδ : 1 ≤ S.delta)
    (hw : ∀ c i, S.delta ≤ ownWidth S c i)
    (hfit : ∀ c, S.delta * ∏ i, ((bounds S c).size.hi i - (bounds S c).size.lo i + 1) < 2 ^ 31) (hP : ∏ i, S.dims i < 2 ^ 31)
    (fresh : ℕ → List Byte) (hf : ∀ k, (fresh k).length = k) (rnd : ℚ → ℚ) (hr : SymmetricRounding rnd)
    (program : List (Call S X T F)) (M : Coord S → Memory X (Datum T F)) (h : Safe program fun c => (M c).grid) :
    Completes (programCode S fresh rnd program) (Config.start M) (Runs program fun c => (M c).grid) := by
  obtain ⟨M', t, d⟩ := program_together ⟨hδ, hw, hfit, hP, hf, hr⟩ (fun i => ⟨0, hS i⟩) program M h
  rw [← codeOf_program]
  intro buffered
  refine ⟨⟨_, fun k C hC => (any_schedule t buffered hC).2.2.2⟩, fun k C hC => ?_⟩
  obtain ⟨h1, h2, h3, -⟩ := any_schedule t buffered hC
  refine ⟨h1, h2, fun hF => ⟨fun a b => (h3 hF a).2 b, ?_⟩⟩
  have : (fun p => (C.proc p).mem.grid) = fun c => (M' c).grid := funext fun p => by rw [(h3 hF p).1]
  rw [this]
  exact d

/-- **C112** The data after such a program do not depend on the schedule and on what MPI buffers. -/
theorem C112_schedule_independent [AddCommMonoid T] [LinearOrder F] (S : Setup n) (hS : ∀ i, 1 ≤ S.dims i) (hδ : 1 ≤ S.delta)
    (hw : ∀ c i, S.delta ≤ ownWidth S c i)
    (hfit : ∀ c, S.delta * ∏ i, ((bounds S c).size.hi i - (bounds S c).size.lo i + 1) < 2 ^ 31) (hP : ∏ i, S.dims i < 2 ^ 31)
    (fresh : ℕ → List Byte) (hf : ∀ k, (fresh k).length = k) (rnd : ℚ → ℚ) (hr : SymmetricRounding rnd)
    (program : List (Call S X T F)) (M : Coord S → Memory X (Datum T F)) (h : Safe program fun c => (M c).grid)
    (buffered buffered' : Coord S → ℕ → Bool) (k k' : ℕ) (C C' : Config (Coord S) X (Datum T F))
    (hC : Steps (programCode S fresh rnd program) buffered k (Config.start M) C) (hF : C.Finished (programCode S fresh rnd program))
    (hC' : Steps (programCode S fresh rnd program) buffered' k' (Config.start M) C')
    (hF' : C'.Finished (programCode S fresh rnd program)) (c : Coord S) : (C.proc c).mem.grid = (C'.proc c).mem.grid := by
  obtain ⟨M', t, -⟩ := program_together ⟨hδ, hw, hfit, hP, hf, hr⟩ (fun i => ⟨0, hS i⟩) program M h
  rw [← codeOf_program] at hC hF hC' hF'
  rw [((any_schedule t buffered hC).2.2.1 hF c).1, ((any_schedule t buffered' hC').2.2.1 hF' c).1]

/-! ### an example -/

/-- the data of a process in an example -/
structure ExampleData where
  grid : GridMap 2 ℤ
  input : List Byte
  output : List Byte
  count : ℤ
  extreme : ℚ

namespace ExampleData

def gridPart : Part ExampleData (GridMap 2 ℤ) := ⟨grid, fun a x => { x with grid := a }, fun _ _ => rfl, fun _ => rfl, fun _ _ _ => rfl⟩

def inputPart : Part ExampleData (List Byte) := ⟨input, fun a x => { x with input := a }, fun _ _ => rfl, fun _ => rfl, fun _ _ _ => rfl⟩

def outputPart : Part ExampleData (List Byte) := ⟨output, fun a x => { x with output := a }, fun _ _ => rfl, fun _ => rfl, fun _ _ _ => rfl⟩

def countPart : Part ExampleData ℤ := ⟨count, fun a x => { x with count := a }, fun _ _ => rfl, fun _ => rfl, fun _ _ _ => rfl⟩

def extremePart : Part ExampleData ℚ := ⟨extreme, fun a x => { x with extreme := a }, fun _ _ => rfl, fun _ => rfl, fun _ _ _ => rfl⟩

end ExampleData

open ExampleData in
/-- non-vacuity: on 12×7 cells and 3×2 processes, a program that uses all calls, in which what is sent depends on what was received -/
def exampleCalls : List (Call exampleSetup ExampleData ℤ ℚ) :=
  [.exchange gridPart,
   .compute fun c x => { x with input := List.replicate ((x.grid.cell ![0, 0]).natAbs % 100 + (c 0).1) (7 : UInt8) },
   .exchangeData 0 1 inputPart outputPart,
   .reduceInt .avg (fun x => x.output.length % 1000) countPart,
   .compute fun _ x => { x with grid := { x.grid with cell := fun p => x.grid.cell p + x.count } },
   .accumulate gridPart,
   .exchangeData 1 (-1) outputPart inputPart,
   .reduceDouble .max (fun x => x.grid.cell ![0, 0] / 2) extremePart,
   .reduceInt .min (fun x => x.input.length) countPart,
   .exchange gridPart]

example : let S := exampleSetup
    (∀ i, 1 ≤ S.dims i) ∧ 1 ≤ S.delta ∧ (∀ c i, S.delta ≤ ownWidth S c i) ∧
    (∀ c, S.delta * ∏ i, ((bounds S c).size.hi i - (bounds S c).size.lo i + 1) < 2 ^ 31) ∧ ∏ i, S.dims i < 2 ^ 31 ∧
    (∀ k, (List.replicate k (0 : UInt8)).length = k) ∧ SymmetricRounding id ∧
    ∀ φ : Idx 2 → ℤ, Safe exampleCalls fun c => ⟨⟨(bounds S c).size, φ⟩, [], [], 0, 0⟩ := by
  intro S
  obtain ⟨h1, h2, h3, -⟩ := exampleSetup_exchange
  refine ⟨by decide, h1, h2, h3, by decide, by simp, ⟨rounding_id, fun x _ _ => ?_⟩, fun φ => ?_⟩
  · simp only [id, sub_self, abs_zero]
    positivity
  refine ⟨fun c p hp => (C01_inside_iff _ _).mpr hp, fun x1 d1 => ?_⟩
  have r1 : ∀ c, (x1 c).grid.range = (bounds S c).size := fun c => by
    obtain ⟨a, h, e⟩ := d1 c
    rw [e]
    exact h.1
  refine ⟨trivial, fun x2 d2 => ?_⟩
  have r2 : ∀ c, (x2 c).grid.range = (bounds S c).size ∧ (x2 c).input.length < 200 := fun c => by
    rw [d2 c]
    refine ⟨r1 c, ?_⟩
    have h : (c 0).1 < 3 := (c 0).2
    show (List.replicate _ _).length < 200
    rw [List.length_replicate]
    omega
  refine ⟨⟨fun c => (r2 c).2.trans (by norm_num), fun _ _ => rfl⟩, fun x3 d3 => ?_⟩
  have r3 : ∀ c, (x3 c).grid.range = (bounds S c).size ∧ (x3 c).output.length < 200 := fun c => by
    obtain ⟨a, h, e⟩ := d3 c
    rw [e]
    refine ⟨(r2 c).1, ?_⟩
    have := h (prev S c 0) (by rw [neighbour, if_pos (by norm_num), Lemma.Mpi.next_prev])
    show a.length < 200
    rw [this]
    exact (r2 _).2
  have hsum : ∀ (f : Coord S → ℤ), (∀ c, |f c| ≤ 1000) → ∑ c, |f c| < 2 ^ 31 := fun f hf =>
    (Finset.sum_le_sum fun c _ => hf c).trans_lt (by decide)
  refine ⟨hsum _ fun c => ?_, fun x4 d4 => ?_⟩
  · beta_reduce
    rw [abs_le]
    omega
  have r4 : ∀ c, (x4 c).grid.range = (bounds S c).size ∧ (x4 c).output.length < 200 := fun c => by
    obtain ⟨a, h, e⟩ := d4 c
    rw [e]
    exact r3 c
  refine ⟨trivial, fun x5 d5 => ?_⟩
  have r5 : ∀ c, (x5 c).grid.range = (bounds S c).size ∧ (x5 c).output.length < 200 := fun c => by
    rw [d5 c]
    exact r4 c
  refine ⟨fun c p hp => ?_, fun x6 d6 => ?_⟩
  · show (x5 c).grid.range.inside p = true
    rw [(r5 c).1]
    exact (C01_inside_iff _ _).mpr hp
  have r6 : ∀ c, (x6 c).grid.range = (bounds S c).size ∧ (x6 c).output.length < 200 := fun c => by
    obtain ⟨a, h, e⟩ := d6 c
    rw [e]
    exact ⟨h.1.trans (r5 c).1, (r5 c).2⟩
  refine ⟨⟨fun c => (r6 c).2.trans (by norm_num), fun _ _ => rfl⟩, fun x7 d7 => ⟨trivial, fun x8 d8 => ⟨trivial, fun x9 d9 => ⟨?_, ?_⟩⟩⟩⟩
  · intro c p hp
    show (x9 c).grid.range.inside p = true
    have : (x9 c).grid.range = (bounds S c).size := by
      obtain ⟨a9, h9, e9⟩ := d9 c
      obtain ⟨a8, h8, e8⟩ := d8 c
      obtain ⟨a7, h7, e7⟩ := d7 c
      rw [e9, e8, e7]
      exact (r6 c).1
    rw [this]
    exact (C01_inside_iff _ _).mpr hp
  · exact fun _ _ => trivial

/-- the model of the processes is not one in which nothing can go wrong: if one process calls a reduction and another one does not, the
first waits forever -/
example : ¬ Completes (P := Bool) (G := Unit) (T := ℤ)
    (fun p => if p then [.allreduce fun _ _ => True] else []) (Config.start fun _ => ⟨(), [1], []⟩) fun _ => True := by
  intro h
  obtain ⟨-, h⟩ := h fun _ _ => true
  have hs : Steps (P := Bool) (G := Unit) (T := ℤ) (fun p => if p then [.allreduce fun _ _ => True] else []) (fun _ _ => true) 1
      (Config.start fun _ => ⟨(), [1], []⟩) _ := .succ (.zero _) (.enter (p := true) (op := fun _ _ => True) rfl rfl rfl)
  obtain ⟨-, h2, -⟩ := h 1 _ hs
  obtain ⟨C', hC'⟩ := h2 fun hF => absurd (hF true) (by decide)
  cases hC' with
  | @compute p f m hi hf => cases p <;> cases hi
  | @post p d s sc rc hi => cases p <;> cases hi
  | @receive p d s sc rc m ms hi => cases p <;> cases hi
  | @complete p d s sc rc hi => cases p <;> cases hi
  | @enter p op hi hp => cases p; cases hi; cases hp
  | @leave p op x m hi hp hx ho =>
    have := hx false
    cases this

end Schnek.Props
