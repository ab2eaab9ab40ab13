import Verif.Spec.ParallelProgram
import Verif.Lemma.MpiScheduleExchange
import Verif.Props.MpiAccumulate
import Verif.Props.Subdivision

/-!
# Lemmas about parallel programs
-/

namespace Schnek.Lemma.ParallelProgram

open Schnek Schnek.Spec Schnek.Mpi Schnek.Buffer Schnek.Subdivision Schnek.Lemma.MpiSchedule Schnek.Props Function

variable {P X G T F D : Type} {n : ℕ}

/-- instructions of a part of the data -/
theorem together_on (part : Part X G) {enc : T → D} (he : Injective enc) {is : List (P → Instr P G T)} {W W' : P → Memory G T}
    (h : Together is W W') : ∀ x : P → X, (∀ p, part.get (x p) = (W p).grid) →
      Together (is.map fun i p => (i p).on part enc) (fun p => ⟨x p, (W p).send.map enc, (W p).recv.map enc⟩)
        (fun p => ⟨part.set (W' p).grid (x p), (W' p).send.map enc, (W' p).recv.map enc⟩) := by
  have hinj := List.map_injective_iff.mpr he
  induction h with
  | nil W =>
    intro x hx
    have : (fun p => (⟨part.set (W p).grid (x p), (W p).send.map enc, (W p).recv.map enc⟩ : Memory X D)) =
        fun p => ⟨x p, (W p).send.map enc, (W p).recv.map enc⟩ := by
      funext p
      rw [← hx p, part.set_get]
    rw [this]
    exact .nil _
  | @compute f is W W₁ W' h _ ih =>
    intro x hx
    have := ih (fun p => part.set (W₁ p).grid (x p)) fun p => part.get_set _ _
    simp only [part.set_set] at this
    refine .compute (fun p m => ?_) this
    constructor
    · rintro ⟨s, r, m₁, h1, h2, h3, rfl⟩
      obtain rfl := hinj h1
      obtain rfl := hinj h2
      rw [hx p] at h3
      rw [(h p m₁).mp h3]
    · rintro rfl
      refine ⟨_, _, W₁ p, rfl, rfl, ?_, rfl⟩
      rw [hx p]
      exact (h p _).mpr rfl
  | @sendrecv dest source sc rc is W W' hd hs hl hc _ ih =>
    intro x hx
    refine .sendrecv hd hs (fun p => ?_) (fun p => ?_) (ih x hx)
    · simp only [List.length_map, hx]
      exact hl p
    · simp only [List.length_map, hx]
      exact hc p
  | @allreduce op res is W W' hl h _ ih =>
    intro x hx
    refine .allreduce (res := fun p => (res p).map enc) (fun p => by simpa using hl p) (fun p m => ?_) (ih x hx)
    constructor
    · rintro ⟨y, r, h1, h2, rfl⟩
      have : y = fun q => (W q).send := funext fun q => (hinj (h1 q)).symm
      rw [this] at h2
      rw [(h p r).mp h2]
    · rintro rfl
      exact ⟨_, _, fun q => rfl, (h p _).mpr rfl, rfl⟩

theorem value_injective : Injective (Datum.value : T → Datum T F) := fun _ _ h => by cases h; rfl

theorem byte_injective : Injective (Datum.byte : Byte → Datum T F) := fun _ _ h => by cases h; rfl

variable {S : Setup n}

/-- the instructions of `exchangeData`, process by process -/
def exchangeDataRounds (S : Setup n) (fresh : ℕ → List Byte) (dim : Fin n) (orientation : ℤ) (input output : Part X (List Byte)) :
    List (Coord S → Instr (Coord S) X (Datum T F)) :=
  let sendCoord c := if orientation > 0 then next S c dim else prev S c dim
  let recvCoord c := if orientation > 0 then prev S c dim else next S c dim
  [fun _ => .compute fun m m' => (input.get m.grid).length < 2 ^ 31 ∧ m' = { m with send := [.int (input.get m.grid).length] },
   fun c => .sendrecv (sendCoord c) (recvCoord c) (fun _ => 1) (fun _ => 1),
   fun _ => .compute fun m m' => ∃ k : ℕ, m.recv = [.int k] ∧
     m' = { m with grid := output.set (fresh k) m.grid, send := (input.get m.grid).map .byte },
   fun c => .sendrecv (sendCoord c) (recvCoord c) (fun x => (input.get x).length) (fun x => (output.get x).length),
   fun _ => .compute fun m m' => ∃ bytes : List Byte, m.recv = bytes.map .byte ∧
     m' = { m with grid := output.set (bytes ++ (output.get m.grid).drop bytes.length) m.grid }]

/-- the instructions of a call, process by process -/
def roundsOf [Add T] [LinearOrder F] (S : Setup n) (fresh : ℕ → List Byte) (rnd : ℚ → ℚ) :
    Call S X T F → List (Coord S → Instr (Coord S) X (Datum T F))
  | .compute f => [fun c => .compute fun m m' => m' = { m with grid := f c m.grid }]
  | .exchange grid => (fun _ => newBuffers) :: (exchangeRounds S).map fun i p => (i p).on grid .value
  | .accumulate grid => (fun _ => newBuffers) :: (accumulateRounds S).map fun i p => (i p).on grid .value
  | .exchangeData dim orientation input output => exchangeDataRounds S fresh dim orientation input output
  | .reduceInt kind value result =>
    [fun _ => .compute fun m m' => m' = { m with send := [.int (value m.grid)] },
     fun _ => .allreduce fun x m => ∃ v r, (∀ p, x p = [.int (v p)]) ∧ kind.Op v r ∧ m = [.int r],
     fun _ => .compute fun m m' => ∃ r, m.recv = [.int r] ∧ m' = { m with grid := result.set (kind.post S rnd r) m.grid }]
  | .reduceDouble kind value result =>
    [fun _ => .compute fun m m' => m' = { m with send := [.double (value m.grid)] },
     fun _ => .allreduce fun x m => ∃ v r, (∀ p, x p = [.double (v p)]) ∧ kind.Op v r ∧ m = [.double r],
     fun _ => .compute fun m m' => ∃ r, m.recv = [.double r] ∧ m' = { m with grid := result.set r m.grid }]

theorem codeOf_roundsOf [Add T] [LinearOrder F] (fresh : ℕ → List Byte) (rnd : ℚ → ℚ) (call : Call S X T F) (c : Coord S) :
    codeOf (roundsOf S fresh rnd call) c = call.code S fresh rnd c := by
  cases call with
  | exchange grid =>
    show newBuffers :: ((exchangeRounds S).map _).map _ = _
    rw [Call.code, ← codeOf_exchange, codeOf, List.map_map, List.map_map]
    rfl
  | accumulate grid =>
    show newBuffers :: ((accumulateRounds S).map _).map _ = _
    rw [Call.code, ← codeOf_accumulate, codeOf, List.map_map, List.map_map]
    rfl
  | _ => rfl

theorem codeOf_program [Add T] [LinearOrder F] (fresh : ℕ → List Byte) (rnd : ℚ → ℚ) (program : List (Call S X T F)) :
    codeOf (program.flatMap (roundsOf S fresh rnd)) = programCode S fresh rnd program := by
  funext c
  unfold programCode
  induction program with
  | nil => rfl
  | cons call rest ih =>
    rw [List.flatMap_cons, List.flatMap_cons, ← ih, ← codeOf_roundsOf]
    exact List.map_append ..

/-- what is assumed of the subdivision, the memory and the arithmetic -/
structure Ok (S : Setup n) (fresh : ℕ → List Byte) (rnd : ℚ → ℚ) : Prop where
  delta : 1 ≤ S.delta
  wide : ∀ c i, S.delta ≤ innerWidth (bounds S c) i
  fit : ∀ c, S.delta * ∏ i, ((bounds S c).size.hi i - (bounds S c).size.lo i + 1) < 2 ^ 31
  count : ∏ i, S.dims i < 2 ^ 31
  fresh : ∀ k, (fresh k).length = k
  rnd : SymmetricRounding rnd

/-- the values of the cells that belong to the processes -/
theorem exists_field (hδ : 1 ≤ S.delta) (hw : ∀ c i, S.delta ≤ innerWidth (bounds S c) i) (W : World S T) (c₀ : Coord S) :
    ∃ φ : Idx n → T, ∀ c, ∀ p ∈ box (bounds S c).innerDomain, (W c).cell p = φ p := by
  classical
  obtain ⟨h1, h2⟩ := tile_of_wide S hδ hw c₀
  refine ⟨fun p => if h : ∃ c, p ∈ box (bounds S c).innerDomain then (W h.choose).cell p else (W c₀).cell p, fun c p hp => ?_⟩
  have h : ∃ c, p ∈ box (bounds S c).innerDomain := ⟨c, hp⟩
  show _ = dite _ _ _
  rw [dif_pos h, (h1 p (h2 p c hp)).unique hp h.choose_spec]

theorem exchange_does (hδ : 1 ≤ S.delta) (hw : ∀ c i, S.delta ≤ innerWidth (bounds S c) i)
    (hfit : ∀ c, S.delta * ∏ i, ((bounds S c).size.hi i - (bounds S c).size.lo i + 1) < 2 ^ 31)
    (W : World S T) (hcov : ∀ c, ∀ p ∈ box (bounds S c).size, (W c).range.inside p = true) (c₀ : Coord S) :
    ∃ W', Exchange S W W' ∧ ∀ c, (W' c).range = (W c).range ∧
      (∀ p, Local S c p → ∀ c' q, Owned S c' q → SameCell S p q → (W' c).cell p = (W c').cell q) ∧
      ∀ p, ¬ Local S c p → (W' c).cell p = (W c).cell p := by
  obtain ⟨φ, hφ⟩ := exists_field hδ hw W c₀
  obtain ⟨W', h1, h2, h3, h4⟩ := C25_exchange_is_global_periodic S hδ hw hfit W hcov φ hφ
  refine ⟨W', (h1 W').mpr rfl, fun c => ⟨h2 c, fun p hp c' q hq hpq => ?_, fun p hp => h4 c p hp⟩⟩
  rw [h3 c p hp, hφ c' q hq]
  congr 1
  funext i
  have hq' := (tile_of_wide S hδ hw c₀).2 q c' hq i
  have : p i % (S.globalHi i + 1) = q i % (S.globalHi i + 1) := Int.ModEq.symm (Int.modEq_iff_dvd.mpr (by
    have := hpq i
    rw [← neg_sub]
    exact (dvd_neg.mpr this))) 
  rw [this]
  exact Int.emod_eq_of_lt hq'.1 (by omega)

theorem memory_eta {x : P → X} {M : P → Memory X D} (h : ∀ p, (M p).grid = x p) : M = fun p => ⟨x p, (M p).send, (M p).recv⟩ := by
  funext p
  rw [← h p]

theorem call_together [AddCommMonoid T] [LinearOrder F] {fresh : ℕ → List Byte} {rnd : ℚ → ℚ} (hok : Ok S fresh rnd)
    (c₀ : Coord S) (call : Call S X T F) (M : Coord S → Memory X (Datum T F)) (hr : Ready call fun c => (M c).grid) :
    ∃ M', Together (roundsOf S fresh rnd call) M M' ∧ Does call (fun c => (M c).grid) fun c => (M' c).grid := by
  cases call with
  | compute f => exact ⟨_, .compute (fun c m => Iff.rfl) (.nil _), fun c => rfl⟩
  | exchange grid =>
    let M₀ : Coord S → Memory (GridMap n T) T := fun c => ⟨grid.get (M c).grid, [], []⟩
    obtain ⟨W', h1, h2⟩ := exchange_does hok.delta hok.wide hok.fit (grids M₀) hr c₀
    obtain ⟨M', t, rfl⟩ := exchange_together M₀ h1
    exact ⟨_, .compute (fun c m => Iff.rfl) (together_on grid value_injective t (fun c => (M c).grid) fun c => rfl),
      fun c => ⟨_, h2 c, rfl⟩⟩
  | accumulate grid =>
    let M₀ : Coord S → Memory (GridMap n T) T := fun c => ⟨grid.get (M c).grid, [], []⟩
    obtain ⟨W', h1, h2, h3, h4⟩ := C56_accumulate_sums_images S hok.delta hok.wide hok.fit (grids M₀) hr
    obtain ⟨M', t, rfl⟩ := accumulate_together M₀ ((h1 W').mpr rfl)
    refine ⟨_, .compute (fun c m => Iff.rfl) (together_on grid value_injective t (fun c => (M c).grid) fun c => rfl),
      fun c => ⟨_, ⟨h2 c, fun p hp hi => ?_, fun p hp => h4 c p hp⟩, rfl⟩⟩
    refine (h3 c p hp hi).trans (Finset.sum_congr rfl fun c' _ => Finset.sum_congr ?_ fun _ _ => rfl)
    exact Finset.filter_congr fun q _ => Iff.rfl
  | exchangeData dim orientation input output =>
    obtain ⟨hlen, hsep⟩ := hr
    have hsr : ∀ c : Coord S, (if orientation > 0 then prev S (if orientation > 0 then next S c dim else prev S c dim) dim
        else next S (if orientation > 0 then next S c dim else prev S c dim) dim) = c := fun c => by
      by_cases h : orientation > 0
      · simp only [if_pos h, Lemma.Mpi.prev_next]
      · simp only [if_neg h, Lemma.Mpi.next_prev]
    have hrs : ∀ c : Coord S, (if orientation > 0 then next S (if orientation > 0 then prev S c dim else next S c dim) dim
        else prev S (if orientation > 0 then prev S c dim else next S c dim) dim) = c := fun c => by
      by_cases h : orientation > 0
      · simp only [if_pos h, Lemma.Mpi.next_prev]
      · simp only [if_neg h, Lemma.Mpi.prev_next]
    let recvCoord (c : Coord S) : Coord S := if orientation > 0 then prev S c dim else next S c dim
    let b (c : Coord S) : List Byte := input.get (M c).grid
    let W (c : Coord S) : X := output.set (fresh (b (recvCoord c)).length) (M c).grid
    refine ⟨fun c => ⟨output.set (b (recvCoord c)) (M c).grid, (b c).map .byte, (b (recvCoord c)).map .byte⟩, ?_, ?_⟩
    · refine .compute (W₁ := fun c => { M c with send := [.int (b c).length] }) (fun c m => ?_) (.sendrecv hrs hsr (fun c => rfl)
        (fun c => le_rfl) (.compute (W₁ := fun c => ⟨W c, (b c).map .byte, [.int (b (recvCoord c)).length]⟩) (fun c m => ?_)
        (.sendrecv hrs hsr (fun c => ?_) (fun c => ?_) (.compute (fun c m => ?_) (.nil _)))))
      · exact ⟨fun h => h.2, fun h => ⟨hlen c, h⟩⟩
      · constructor
        · rintro ⟨k, h1, rfl⟩
          have h1 : ([.int (b (recvCoord c)).length] : List (Datum T F)) = [.int k] := h1
          injection h1 with h1
          injection h1 with h1
          have : (b (recvCoord c)).length = k := by exact_mod_cast h1
          subst this
          rfl
        · rintro rfl
          exact ⟨_, rfl, rfl⟩
      · show (((b c).map Datum.byte).length : ℤ) = (input.get (W c)).length
        rw [List.length_map, hsep]
      · show (((b (recvCoord c)).map Datum.byte).length : ℤ) ≤ (output.get (W c)).length
        rw [List.length_map, output.get_set, hok.fresh]
      · have hset : ∀ bytes : List Byte, output.set (bytes ++ (output.get (W c)).drop bytes.length) (W c) =
            output.set (bytes ++ (fresh (b (recvCoord c)).length).drop bytes.length) (M c).grid := fun bytes => by
          rw [output.get_set, output.set_set]
        have hdrop : (fresh (b (recvCoord c)).length).drop (b (recvCoord c)).length = [] := by
          rw [List.drop_eq_nil_iff, hok.fresh]
        constructor
        · rintro ⟨bytes, h1, rfl⟩
          have h1 : (b (recvCoord c)).map Datum.byte = bytes.map (Datum.byte : Byte → Datum T F) := h1
          obtain rfl := List.map_injective_iff.mpr byte_injective h1
          show Memory.mk (output.set _ (W c)) _ _ = _
          rw [hset, hdrop, List.append_nil]
        · rintro rfl
          refine ⟨b (recvCoord c), rfl, ?_⟩
          show _ = Memory.mk (output.set _ (W c)) _ _
          rw [hset, hdrop, List.append_nil]
    · intro c
      refine ⟨b (recvCoord c), fun c' hc' => ?_, rfl⟩
      rw [← hc']
      exact congrArg b (hsr c')
  | reduceInt kind value result =>
    let v (c : Coord S) : ℤ := value (M c).grid
    have key : ∃ r, (∀ r', kind.Op v r' ↔ r' = r) ∧ (match kind with
        | .sum => kind.post S rnd r = ∑ c, v c
        | .avg => kind.post S rnd r = (∑ c, v c).tdiv (Fintype.card (Coord S))
        | .max => IsGreatest (Set.range v) (kind.post S rnd r)
        | .min => IsLeast (Set.range v) (kind.post S rnd r)) := by
      cases kind with
      | sum =>
        obtain ⟨h1, h2⟩ := C83_sum S v c₀
        exact ⟨∑ c, v c, fun r' => ⟨h1 r', fun h => h ▸ h2 hr⟩, rfl⟩
      | avg =>
        obtain ⟨h1, h2⟩ := C83_sum S v c₀
        exact ⟨∑ c, v c, fun r' => ⟨h1 r', fun h => h ▸ h2 hr⟩, (C83_avg hok.rnd S hok.count v c₀ hr _).mp ⟨_, h2 hr, rfl⟩⟩
      | max =>
        obtain ⟨⟨c₁, h1, h2⟩, -⟩ := C83_max_min S v c₀
        exact ⟨v c₁, h2, ⟨c₁, rfl⟩, by rintro _ ⟨c, rfl⟩; exact h1 c⟩
      | min =>
        obtain ⟨-, ⟨c₁, h1, h2⟩⟩ := C83_max_min S v c₀
        exact ⟨v c₁, h2, ⟨c₁, rfl⟩, by rintro _ ⟨c, rfl⟩; exact h1 c⟩
    obtain ⟨r, h1, h2⟩ := key
    refine ⟨fun c => ⟨result.set (kind.post S rnd r) (M c).grid, [.int (v c)], [.int r]⟩, ?_, fun c => ⟨_, ?_, rfl⟩⟩
    · refine .compute (W₁ := fun c => { M c with send := [.int (v c)] }) (fun c m => Iff.rfl) (.allreduce (res := fun _ => [.int r])
        (fun c => rfl) (fun c m => ?_) (.compute (fun c m => ?_) (.nil _)))
      · constructor
        · rintro ⟨w, r', e1, e2, rfl⟩
          have : w = v := funext fun c => by
            have := e1 c
            injection this with this
            injection this with this
            exact this.symm
          rw [this] at e2
          rw [(h1 r').mp e2]
        · rintro rfl
          exact ⟨v, r, fun c => rfl, (h1 r).mpr rfl, rfl⟩
      · constructor
        · rintro ⟨r', e1, rfl⟩
          injection e1 with e1
          injection e1 with e1
          rw [← e1]
        · rintro rfl
          exact ⟨r, rfl, rfl⟩
    · cases kind <;> exact h2
  | reduceDouble kind value result =>
    let v (c : Coord S) : F := value (M c).grid
    have key : ∃ r, (∀ r', kind.Op v r' ↔ r' = r) ∧ (match kind with
        | .max => IsGreatest (Set.range v) r
        | .min => IsLeast (Set.range v) r) := by
      cases kind with
      | max =>
        obtain ⟨⟨c₁, h1, h2⟩, -⟩ := C83_max_min S v c₀
        exact ⟨v c₁, h2, ⟨c₁, rfl⟩, by rintro _ ⟨c, rfl⟩; exact h1 c⟩
      | min =>
        obtain ⟨-, ⟨c₁, h1, h2⟩⟩ := C83_max_min S v c₀
        exact ⟨v c₁, h2, ⟨c₁, rfl⟩, by rintro _ ⟨c, rfl⟩; exact h1 c⟩
    obtain ⟨r, h1, h2⟩ := key
    refine ⟨fun c => ⟨result.set r (M c).grid, [.double (v c)], [.double r]⟩, ?_, fun c => ⟨_, ?_, rfl⟩⟩
    · refine .compute (W₁ := fun c => { M c with send := [.double (v c)] }) (fun c m => Iff.rfl)
        (.allreduce (res := fun _ => [.double r]) (fun c => rfl) (fun c m => ?_) (.compute (fun c m => ?_) (.nil _)))
      · constructor
        · rintro ⟨w, r', e1, e2, rfl⟩
          have : w = v := funext fun c => by
            have := e1 c
            injection this with this
            injection this with this
            exact this.symm
          rw [this] at e2
          rw [(h1 r').mp e2]
        · rintro rfl
          exact ⟨v, r, fun c => rfl, (h1 r).mpr rfl, rfl⟩
      · constructor
        · rintro ⟨r', e1, rfl⟩
          injection e1 with e1
          injection e1 with e1
          rw [← e1]
        · rintro rfl
          exact ⟨r, rfl, rfl⟩
    · cases kind <;> exact h2

theorem program_together [AddCommMonoid T] [LinearOrder F] {fresh : ℕ → List Byte} {rnd : ℚ → ℚ} (hok : Ok S fresh rnd)
    (c₀ : Coord S) : ∀ (program : List (Call S X T F)) (M : Coord S → Memory X (Datum T F)), Safe program (fun c => (M c).grid) →
      ∃ M', Together (program.flatMap (roundsOf S fresh rnd)) M M' ∧ Runs program (fun c => (M c).grid) fun c => (M' c).grid
  | [], M, _ => ⟨M, .nil _, rfl⟩
  | call :: rest, M, h => by
    obtain ⟨M₁, t1, d1⟩ := call_together hok c₀ call M h.1
    obtain ⟨M', t2, d2⟩ := program_together hok c₀ rest M₁ (h.2 _ d1)
    exact ⟨M', t1.append t2, _, d1, d2⟩

end Schnek.Lemma.ParallelProgram
