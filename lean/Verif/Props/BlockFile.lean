import Verif.Lemma.BlockFile
import Verif.Props.TypedSettings
import Verif.Props.AssignedSettings

/-!
# A setup file with blocks made by a program is read again (C156)
-/

namespace Schnek.Props

open Schnek.Scanner Schnek.Spec Schnek.Spec.Lexer Schnek.Spec.SettingsText Schnek.Lemma.SettingsText Schnek.Lemma.Scanner Schnek.NumberText
open Schnek.Deck Schnek.Lemma.Deck

variable {W : Type}

theorem stored_holds {ofInt : ℤ → ℚ} {classes : List (String × ClassDesc ℚ)} {D D' : DeckState ℚ W} (hs : D'.store = D.store)
    (hh : ∀ (i : ℕ) (v : Val ℚ) (id : ℤ), D.heap[i]? = some (.ofValue v true false id) → ∃ x : Variable ℚ W, D'.heap[i]? = some x ∧ x.ty = v.ty ∧ x.value = v)
    (hk : ∀ (i : ℕ) (x : Variable ℚ W), D.heap[i]? = some x → x.fixed = true → D'.heap[i]? = some x) :
    ∀ (it : Items) (b : ℕ), Stored ofInt classes D b it → it.Holds ofInt classes D' b := by
  intro it
  induction it with
  | nil => intro _ _; trivial
  | setting n v rest ih =>
    rintro b ⟨⟨i, id, h1, h2⟩, h3⟩
    obtain ⟨x, hx⟩ := hh i v id h2
    exact ⟨⟨i, x, by rw [hs]; exact h1, hx⟩, ih b h3⟩
  | param n v rest ih =>
    rintro b ⟨⟨i, x, h1, h2, h4, h5, h6⟩, h3⟩
    exact ⟨⟨i, x, by rw [hs]; exact h1, hk i x h2 h4, h5, h6⟩, ih b h3⟩
  | block c n body rest ih1 ih2 =>
    rintro b ⟨⟨b', h1, h2, h3, h5⟩, h4⟩
    exact ⟨⟨b', by rw [hs]; exact h1, by rw [hs]; exact h2, ih1 b' h3, by unfold Items.Only; rw [hs]; exact h5⟩, ih2 b h4⟩

theorem step_class (H : Host ℚ W) {D : DeckState ℚ W} (hD : DInv D) (st : Stmt ℚ) {b : ℕ} {c : String} (h : OfClass D.store b c) :
    OfClass (D.step H st).2.store b c := by
  cases st with
  | decl t ds => exact same_ofClass (same_declare H D t ds hD.store).2.1 h
  | assign n e =>
    show OfClass (D.update H n e).2.store b c
    rw [(same_update H D n e).1]; exact h
  | start c' n =>
    show OfClass (D.createBlock H c' n).2.store b c
    unfold DeckState.createBlock
    split
    · exact h
    · rcases hst : D.store.createBlock n c' with _ | st
      · exact h
      · obtain ⟨A, hA, hAc⟩ := h
        obtain ⟨B, g1, -, -, -, g2, -⟩ := Lemma.Vars.createBlock_old hst hA
        exact same_ofClass (enterBlock_same H { D with store := st } n c') ⟨B, g1, g2.trans hAc⟩
  | stop =>
    show OfClass D.endBlock.2.store b c
    unfold DeckState.endBlock
    split
    · exact h
    · exact h

/-- the root block keeps its class -/
theorem after_class (P : Program ℚ W) (deck : List (Stmt ℚ)) : OfClass (P.after deck).store 0 P.className := by
  have run : ∀ (deck : List (Stmt ℚ)) (D : DeckState ℚ W), DInv D → OfClass D.store 0 P.className → OfClass (D.run P.host deck).2.store 0 P.className := by
    intro deck
    unfold DeckState.run
    induction deck with
    | nil => intro D _ h; exact h
    | cons s ss ih =>
      intro D hD h
      rw [chain_cons]
      split
      · exact ih _ (dinv_step P.host D s hD) (step_class P.host hD s h)
      · exact step_class P.host hD s h
  exact run deck P.begin (dinv_after P []) (begin_ready P).2.1

theorem cursorOf_some {l : List (Option ℕ)} {k : ℕ} (h : some k ∈ l) : cursorOf l ≠ none := by
  induction l with
  | nil => cases h
  | cons a l ih =>
    rcases a with _ | a
    · exact ih (by simpa using h)
    · simp [cursorOf]

/-- C42. If the class of the root block has a factory, then every block made by a factory is the one for the root block or lies below it, however
the blocks of the file are nested, also if some of the blocks between them have none. -/
theorem C42_below_root (P : Program ℚ W) (deck : List (Stmt ℚ)) (hroot : HasFactory P.classes P.className) :
    MadeFor (P.after deck) 0 0 ∧ ∀ k < (P.after deck).tree.blocks.length, Below (P.after deck).tree 0 k := by
  obtain ⟨m, h⟩ := tinv_after P deck
  have hlt := (Lemma.Blocks.ok_after P deck).lt
  have hI := h.inv
  obtain ⟨B0, hB0, hc0⟩ : OfClass (P.after deck).store 0 P.className := after_class P deck
  obtain ⟨k0, hk0⟩ := (h.factory 0 B0 hB0).mpr (by rw [hc0]; exact hroot)
  -- blocks without parent are made for the root block
  have hpar : ∀ (k : ℕ) (B : Block), (P.after deck).tree.blocks[k]? = some B → B.parent = none → k = k0 := by
    intro k B hB hp
    obtain ⟨⟨Bv, hBv, -⟩, l, hl, he⟩ := h.parents k B hB
    have hz : 0 ∈ B.context :: l := (isChain_mem hl 0).mpr (encloses_root hI _ (List.getElem?_eq_some_iff.mp hBv).1)
    rcases List.mem_cons.mp hz with hz | hz
    · have := (h.made 0 k).mpr ⟨B, hB, hz.symm⟩
      rw [hk0] at this
      exact (Option.some.inj this).symm
    · exact absurd (he ▸ hp) (cursorOf_some (List.mem_map.mpr ⟨0, hz, hk0⟩))
  obtain ⟨A, hA, hAc⟩ := (h.made 0 k0).mp hk0
  have h00 : k0 = 0 := by
    have hpos : 0 < (P.after deck).tree.blocks.length := lt_of_le_of_lt (Nat.zero_le _) (List.getElem?_eq_some_iff.mp hA).1
    rcases hp : ((P.after deck).tree.blocks[0]).parent with _ | p
    · exact (hpar 0 _ (List.getElem?_eq_getElem hpos) hp).symm
    · have := hlt p 0 ⟨_, List.getElem?_eq_getElem hpos, hp⟩
      omega
  refine ⟨⟨A, h00 ▸ hA, hAc⟩, fun k => ?_⟩
  induction k using Nat.strong_induction_on with
  | _ k ih =>
    intro hk
    rcases hp : ((P.after deck).tree.blocks[k]).parent with _ | p
    · rw [hpar k _ (List.getElem?_eq_getElem hk) hp, h00]
      exact .refl
    · have hc : ChildOf (P.after deck).tree p k := ⟨_, List.getElem?_eq_getElem hk, hp⟩
      have := hlt p k hc
      exact .tail (ih p this (by omega)) hc

/-- the states after the statements and at the end -/
theorem blocks_run (O : FloatOps ℚ) (P : Program ℚ W) (hO : P.host.ops = withText O) (hneg : ∀ y, P.host.ops.neg y = -y)
    (hnames : DistinctNames P.classes) (it : Items) (hne : it ≠ .nil) (hfit : it.Fit O.ofInt P.classes P.restr P.className)
    (hnew : ∀ n ∈ it.settings, ∀ v, ¬ Declares P.begin.store 0 n v) :
    ∃ D1 D', P.begin.run P.host (itemStmts it) = (true, D1) ∧ D1.finish P.host = some D' ∧ Ready P.classes P.restr D1 ∧
      (it.Complete P.classes → Fills P.begin D1 0 it.params) ∧
      (∀ (v : ℕ) (x : Variable ℚ W), D1.heap[v]? = some x → ∃ val, D'.heap[v]? = some { x with value := val }) ∧ D'.store = D1.store ∧ OfClass D1.store 0 P.className ∧
      (∀ r, Parses P.host P.begin it.text r ↔ r = .ok D') ∧ it.Holds O.ofInt P.classes D' 0 ∧
      (∀ n b, ChildNamed D'.store 0 n b → n ∈ it.blocks) ∧
      (∀ n, n ∉ it.settings → ∀ v, Declares D'.store 0 n v ↔ Declares P.begin.store 0 n v) ∧
      ∀ n, n ∉ it.params → ∀ (v : ℕ) (x : Variable ℚ W), Declares P.begin.store 0 n v → P.begin.heap[v]? = some x → x.fixed = true →
        D'.heap[v]? = some x := by
  obtain ⟨-, hcur⟩ := begin_noRefs P
  obtain ⟨hready, hclass, hchild⟩ := begin_ready P
  have hreads := reads_items it hfit reads_nil
  rw [List.append_nil, List.append_nil] at hreads
  obtain ⟨hbuf, hlex⟩ := hreads
  obtain ⟨toks, hlex, hp⟩ := hlex 1
  obtain ⟨parts, hp1, hp2, hp3⟩ := items_deck O it hfit toks hp
  have h := C94_statements_partial P.host P.begin it.text hbuf toks _ hlex (itemStmts it)
    ⟨items_ne hne, parts, hp1, by rw [hO]; exact hp2, hp3⟩
  obtain ⟨D1, a1, a2, -, a4, a5, a6, a7⟩ := run_items P.host hneg hnames (fun t v val h => by rw [hO]; exact gives_convert O h) it P.className
    P.begin hready (by rw [hcur]; exact hclass) (by rw [hcur]; exact begin_paramsAt P hnames) hfit
    (by rw [hcur]; exact hnew) (fun n _ b => hchild _ n b)
  rw [hcur] at a5 a6 a7
  have hlen : 0 < P.begin.store.blocks.length := by
    obtain ⟨B, hB, -⟩ := hclass
    exact (List.getElem?_eq_some_iff.mp hB).1
  rcases hf : D1.finish P.host with _ | D'
  · exact absurd hf (noRefs_finish P.host a2.inv a2.refs)
  obtain ⟨f1, -, -, -, f5, -⟩ := (finish_spec P.host a2.inv).1 D' hf
  have hkeep : ∀ (v : ℕ) (x : Variable ℚ W), D1.heap[v]? = some x → x.fixed = true → D'.heap[v]? = some x := by
    intro v x hx hfx
    obtain ⟨val, hv, hval⟩ := f5 v x hx
    rcases hval with rfl | ⟨e, -, y, hy, hfy, -⟩
    · exact hv
    · rw [hx] at hy
      cases hy
      rw [hfx] at hfy
      cases hfy
  refine ⟨D1, D', a1, hf, a2, a7, fun v x hx => (f5 v x hx).imp fun _ h => h.1, f1, a4.ofClass _ _ hclass, fun r => ?_, stored_holds f1 ?_ hkeep it 0 a6, ?_, ?_, ?_⟩
  · rw [h r, readAs, a1]
    simp only [hf]
  · intro i v id hx
    exact ⟨_, hkeep i _ hx rfl, rfl, rfl⟩
  · intro n b hb
    rw [f1] at hb
    rcases a5.child 0 n b hb with hb | ⟨-, hb⟩ | hb
    · exact absurd hb (hchild _ _ _)
    · exact hb
    · omega
  · intro n hn v
    rw [f1]
    refine ⟨fun hd => ?_, a4.declares 0 n v⟩
    rcases a5.declares 0 n v hd with hd | ⟨-, hd⟩ | hd
    · exact hd
    · exact absurd hd hn
    · omega
  · intro n hn v x hv hx hfx
    exact hkeep v x (a5.keeps 0 n v x hv (fun h => hn h.2) hx) hfx

/-- C156, partial. A program writes its settings, and values for the parameters of the program that is to read them, to a file, some of them in
blocks, which may again contain blocks, as deeply nested as one likes. The file is accepted. Afterwards the root block and each block has a variable
of the right type with exactly this value for each of its settings, each parameter has its value, converted to its type, and there is a block of the
right class and name for each of the blocks. The blocks have nothing else, apart from the parameters of their classes; the root block has no further
blocks, and no further variables than before, and those that are not mentioned have not changed, unless they depend on others. What is missing is the
same as without blocks. -/
theorem C156_blocks_partial (O : FloatOps ℚ) (P : Program ℚ W) (hO : P.host.ops = withText O) (hneg : ∀ y, P.host.ops.neg y = -y)
    (hnames : DistinctNames P.classes) (it : Items) (hne : it ≠ .nil) (hfit : it.Fit O.ofInt P.classes P.restr P.className)
    (hnew : ∀ n ∈ it.settings, ∀ v, ¬ Declares P.begin.store 0 n v) :
    ∃ D', (∀ r, Parses P.host P.begin it.text r ↔ r = .ok D') ∧ it.Holds O.ofInt P.classes D' 0 ∧
      (∀ n b, ChildNamed D'.store 0 n b → n ∈ it.blocks) ∧
      (∀ n, n ∉ it.settings → ∀ v, Declares D'.store 0 n v ↔ Declares P.begin.store 0 n v) ∧
      ∀ n, n ∉ it.params → ∀ (v : ℕ) (x : Variable ℚ W), Declares P.begin.store 0 n v → P.begin.heap[v]? = some x → x.fixed = true →
        D'.heap[v]? = some x := by
  obtain ⟨D1, D', -, -, -, -, -, -, -, h⟩ := blocks_run O P hO hneg hnames it hne hfit hnew
  exact ⟨D', h⟩

/-- C156, partial. If moreover the file gives a value to all parameters of the root block and of the other blocks that have no default, then the
evaluation of the parameters succeeds, a block has been made for each block of the file whose class has a factory, and the program's variable for a
parameter of this block gets what the file says, which is the value of the variable with the name of the parameter in this block of the file. -/
theorem C156_block_parameters_partial (O : FloatOps ℚ) (P : Program ℚ W) (hO : P.host.ops = withText O) (hneg : ∀ y, P.host.ops.neg y = -y)
    (hnames : DistinctNames P.classes) (it : Items) (hne : it ≠ .nil) (hfit : it.Fit O.ofInt P.classes P.restr P.className)
    (hnew : ∀ n ∈ it.settings, ∀ v, ¬ Declares P.begin.store 0 n v)
    (hroot : HasFactory P.classes P.className) (hcov : it.Covers P.classes P.className) (hcomp : it.Complete P.classes) :
    ∃ D' D'', (∀ r, Parses P.host P.begin it.text r ↔ r = .ok D') ∧ it.Holds O.ofInt P.classes D' 0 ∧ D'.evaluateParameters P.host 0 = some D'' ∧
      ∀ b c d specs, OfClass D'.store b c → P.classes.lookup c = some d → d.factory = some specs → ∃ k, MadeFor D' b k ∧
        ∀ q ∈ specs, q.readOnly = false → q.constant = false →
          ∃ (v : ℕ) (x : Variable ℚ W) (t : ℕ), Declares D'.store b q.name v ∧ D'.heap[v]? = some x ∧ ProgramVariable D' k q.name t ∧ D''.ext t = x.value := by
  obtain ⟨D1, D', a1, hfin, a2, a3, a4, a5, a6, h1, h2, -⟩ := blocks_run O P hO hneg hnames it hne hfit hnew
  have hparse : P.begin.parse P.host (itemStmts it) = some D' := by
    unfold DeckState.parse
    rw [a1]; exact hfin
  have hD1 : P.after (itemStmts it) = D1 := by
    unfold Program.after
    rw [a1]
  have htree : D'.tree = D1.tree := ((finish_spec P.host a2.inv).1 D' hfin).2.1
  obtain ⟨hm0, hbelow⟩ := C42_below_root P (itemStmts it) hroot
  rw [hD1, ← htree] at hbelow
  have hlen : 0 < D'.tree.blocks.length := by
    obtain ⟨A, hA, -⟩ := hm0
    rw [hD1, ← htree] at hA
    exact (List.getElem?_eq_some_iff.mp hA).1
  -- a variable that is declared
  have hvar : ∀ k q v, Asks P.classes D' k q → FileVariable D' k q.name v → ∃ x val, D1.heap[v]? = some x ∧ D'.heap[v]? = some { x with value := val } := by
    rintro k q v - ⟨B, -, hd⟩
    rw [a5] at hd
    have := a2.inv.bound _ _ _ hd
    obtain ⟨val, hval⟩ := a4 v _ (List.getElem?_eq_getElem this)
    exact ⟨_, val, List.getElem?_eq_getElem this, hval⟩
  have hset : ∀ (v : ℕ) (x : Variable ℚ W), D1.heap[v]? = some x → x.initialised = true := by
    intro v x hx
    rcases a3 hcomp v x hx with h | ⟨y, k1, k2, k3⟩
    · exact h
    · obtain ⟨d, specs, q1, q2, q, q3, q4, q5, q6, q7⟩ := begin_unset P hnames k1 k2
      exact absurd q4 (k3 q.name (hcov d specs q1 q2 q q3 q5 q6 q7))
  have hsome : D'.evaluateParameters P.host 0 ≠ none := by
    rw [Ne, C62_errors_partial P hnames _ D' hparse 0 hlen]
    rintro ⟨k, q, v, x, hk, hq, hv, hx, hor⟩
    obtain ⟨y, val, hy, hy'⟩ := hvar k q v hq hv
    rw [hx] at hy'
    cases hy'
    rcases hor with hor | ⟨hqr, e, ⟨-, z, hz, -, hze⟩, -⟩
    · rw [show y.initialised = true from hset v y hy] at hor; cases hor
    · rw [hx] at hz
      cases hz
      have hro : y.readOnly = true := a2.calm y (List.mem_of_getElem? hy) e hze
      obtain ⟨B, Bv, d, specs, c1, c2, c3, c4, c5, c6⟩ := hq
      obtain ⟨B', hB', hd⟩ := hv
      rw [c1] at hB'
      cases hB'
      rw [a5] at c2 hd
      obtain ⟨Bv', d', specs', g1, g2, g3, g4, -⟩ := (Lemma.Blocks.sinv_after P hnames (itemStmts it)).blocks k B (by rw [hD1, ← htree]; exact c1)
      rw [hD1, c2] at g1
      cases g1
      rw [c3] at g2
      cases g2
      rw [c4] at g3
      cases g3
      obtain ⟨p, -, -, k2, w, k3, -, k4⟩ := g4 q c5
      rw [hD1] at k2 k3
      have hpv := (Lemma.Vars.varOf_iff a2.inv.store _ _ _).mpr k2
      rw [(Lemma.Vars.varOf_iff a2.inv.store _ _ _).mpr hd] at hpv
      rw [← Option.some.inj hpv, hy] at k3
      cases k3
      rw [c6, hqr, hro] at k4
      cases k4
  obtain ⟨D'', he⟩ := Option.ne_none_iff_exists'.mp hsome
  obtain ⟨p1, -⟩ := C62_parameters_partial P hnames _ D' hparse 0 hlen D'' he
  refine ⟨D', D'', h1, h2, he, ?_⟩
  rintro b c d specs ⟨Bv, hBv, rfl⟩ hd hf
  obtain ⟨k, B, hB, rfl⟩ := (C42_made P (itemStmts it) b Bv (by rw [hD1, ← a5]; exact hBv)).1.mpr ⟨d, specs, hd, hf⟩
  rw [hD1, ← htree] at hB
  refine ⟨k, ⟨B, hB, rfl⟩, fun q hqm hqr hqc => ?_⟩
  have hq : Asks P.classes D' k q := ⟨B, Bv, d, specs, hB, hBv, hd, hf, hqm, hqc⟩
  obtain ⟨v, t, b1, b2, b3⟩ := p1 k q (hbelow k (List.getElem?_eq_some_iff.mp hB).1) hq
  obtain ⟨x, val, -, hx⟩ := hvar k q v hq b1
  obtain ⟨B', hB', hd⟩ := b1
  rw [hB] at hB'
  cases hB'
  refine ⟨v, _, t, hd, hx, b2, ?_⟩
  rw [(b3 hqr).1]
  show (D'.heap[v]?.map Variable.value).getD (.int 0) = _
  rw [hx]; rfl

/-- a program with blocks of class `Field`, with a parameter `order` of type `double`, that contain blocks of class `Init` -/
def blockFileProgram : Program ℚ Unit :=
  { settingsProgram with
    restr := true
    classes := [("Root", ⟨["Field"], some [⟨"size", .int 0, none, false, false, by simp⟩]⟩),
      ("Field", ⟨["Init"], some [⟨"order", .float 0, none, false, false, by simp⟩]⟩), ("Init", ⟨[], none⟩)] }

/-- a block `E` with a number, a value for the parameter, and a block `left`, and another setting -/
def blockFileItems : Items :=
  .param "size" (.int 7) (.setting "nx" (.int 100) (.block "Field" "E" (.setting "dx" (.int 4) (.param "order" (.int 2) (.block "Init" "left" (.setting "dx" (.int (-1)) .nil) .nil))) .nil))

/-- The hypotheses are met. -/
example : blockFileItems.text = bytes "size = 7;\nint nx = 100;\nField E {\nint dx = 4;\norder = 2;\nInit left {\nint dx = -1;\n}\n}\n" ∧
    DistinctNames blockFileProgram.classes ∧ (∀ y, blockFileProgram.host.ops.neg y = -y) ∧ blockFileItems.Fit ratOps.ofInt blockFileProgram.classes blockFileProgram.restr blockFileProgram.className ∧
    HasFactory blockFileProgram.classes blockFileProgram.className ∧ blockFileItems.Covers blockFileProgram.classes blockFileProgram.className ∧
    blockFileItems.Complete blockFileProgram.classes ∧
    ∀ n ∈ blockFileItems.settings, ∀ v, ¬ Declares blockFileProgram.begin.store 0 n v := by
  have hb : blockFileProgram.begin.store.blocks[0]? = some ⟨"root", "Root", none, [], [("size", 0)], []⟩ := by rfl
  have n1 : IsName "nx" := ⟨⟨110, [120], by decide +kernel, by decide +kernel, by decide +kernel⟩, by decide +kernel, by decide +kernel, by decide +kernel⟩
  have n2 : IsName "dx" := ⟨⟨100, [120], by decide +kernel, by decide +kernel, by decide +kernel⟩, by decide +kernel, by decide +kernel, by decide +kernel⟩
  have n3 : IsName "E" := ⟨⟨69, [], by decide +kernel, by decide +kernel, by decide +kernel⟩, by decide +kernel, by decide +kernel, by decide +kernel⟩
  have n4 : IsName "left" := ⟨⟨108, [101, 102, 116], by decide +kernel, by decide +kernel, by decide +kernel⟩, by decide +kernel, by decide +kernel, by decide +kernel⟩
  have n5 : IsName "Field" := ⟨⟨70, [105, 101, 108, 100], by decide +kernel, by decide +kernel, by decide +kernel⟩, by decide +kernel, by decide +kernel, by decide +kernel⟩
  have n6 : IsName "Init" := ⟨⟨73, [110, 105, 116], by decide +kernel, by decide +kernel, by decide +kernel⟩, by decide +kernel, by decide +kernel, by decide +kernel⟩
  have n7 : IsName "order" := ⟨⟨111, [114, 100, 101, 114], by decide +kernel, by decide +kernel, by decide +kernel⟩, by decide +kernel, by decide +kernel, by decide +kernel⟩
  have n8 : IsName "size" := ⟨⟨115, [105, 122, 101], by decide +kernel, by decide +kernel, by decide +kernel⟩, by decide +kernel, by decide +kernel, by decide +kernel⟩
  refine ⟨by decide +kernel, ?_, fun y => rfl, ?_, ⟨_, _, rfl, rfl⟩, ?_, ⟨?_, ?_, trivial⟩, ?_⟩
  · intro c d specs hd hs
    have := Lemma.Blocks.lookup_mem hd
    simp only [blockFileProgram, List.mem_cons, Prod.mk.injEq, List.not_mem_nil, or_false] at this
    rcases this with ⟨-, rfl⟩ | ⟨-, rfl⟩ | ⟨-, rfl⟩
    · cases hs; simp
    · cases hs; simp
    · cases hs
  · refine ⟨n8, ⟨by norm_num, by norm_num⟩, by decide, ⟨_, _, _, rfl, rfl, List.mem_singleton.mpr rfl, rfl, rfl, rfl, _, .same (.int 7)⟩,
      n1, ⟨by norm_num, by norm_num⟩, by decide, n5, n3, by decide, fun _ => ⟨_, rfl, by decide⟩, ?_, ?_, trivial⟩
    · intro d specs hd hs q hq
      cases hd
      cases hs
      rw [List.mem_singleton.mp hq]
      decide
    · refine ⟨n2, ⟨by norm_num, by norm_num⟩, by decide, n7, ⟨by norm_num, by norm_num⟩, by decide,
        ⟨_, _, _, rfl, rfl, List.mem_singleton.mpr rfl, rfl, rfl, rfl, _, .ofInt 2⟩, n6, n4, by decide, fun _ => ⟨_, rfl, by decide⟩, ?_, ?_, trivial⟩
      · intro d specs hd hs
        cases hd
        cases hs
      · exact ⟨n2, ⟨by norm_num, by norm_num⟩, by decide, trivial⟩
  · intro d specs hd hs q hq _ _ _
    cases hd
    cases hs
    rw [List.mem_singleton.mp hq]
    decide
  · intro d specs hd hs q hq _ _ _
    cases hd
    cases hs
    rw [List.mem_singleton.mp hq]
    decide
  · refine ⟨?_, trivial, trivial⟩
    intro d specs hd hs
    cases hd
    cases hs
  · rintro n hn v ⟨B, hB, hm⟩
    rw [hb] at hB
    cases hB
    have : n = "nx" := by simpa [blockFileItems, Items.settings] using hn
    rw [this] at hm
    simp at hm

end Schnek.Props
