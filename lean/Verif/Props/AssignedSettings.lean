import Verif.Lemma.AssignedSettings
import Verif.Props.SettingsText
import Verif.Props.NumberText

/-!
# A setup file made by a program gives the parameters of another one (C156)
-/

namespace Schnek.Props

open Schnek.Scanner Schnek.Spec Schnek.Spec.Lexer Schnek.Spec.SettingsText Schnek.Lemma.SettingsText Schnek.Lemma.Scanner Schnek.NumberText
open Schnek.Deck Schnek.Lemma.Deck

variable {W : Type}

/-- what the specification says is what the program computes -/
theorem gives_convert (O : FloatOps ℚ) {t : Ty} {v : Val ℚ} {val : Val ℚ} (h : Gives O.ofInt t v val) :
    convert (withText O) t v = some val := by
  cases h with
  | same v => rcases v with v | v | v <;> rfl
  | ofInt v => rfl
  | number v => rfl
  | real v => rfl
  | @digits v h1 h2 =>
    show (readInt (showInt v)).map Val.int = _
    rw [C145_int_again v h1 h2]
    rfl

/-- C156, partial. A program writes one line `name = value;` or `name = "text";` for each setting, and the settings are parameters of a program
that reads this file. The types of the parameters need not be those of the values: an integer can be given to a parameter of type `double` or
`string`, a floating point number to one of type `string`, and the digits of an integer to one of type `int`. The file is accepted, and when the parameters are evaluated the variables of the
program get these values, and the defaults where the file has no value. What is missing: the value -2147483648, floating point numbers
whose text has neither point nor exponent (these can be written as integers), texts with double quotes or
backslashes that are not part of an escape, texts and names that are longer than the buffer of the scanner, and the program without settings. -/
theorem C156_assigned_partial (O : FloatOps ℚ) (P : Program ℚ W) (hO : P.host.ops = withText O) (hneg : ∀ y, P.host.ops.neg y = -y)
    (hnames : DistinctNames P.classes)
    (d : ClassDesc ℚ) (specs : List (ParamSpec ℚ)) (hd : P.classes.lookup P.className = some d) (hf : d.factory = some specs)
    (l : List (String × Val ℚ)) (hne : l ≠ []) (hl : ∀ s ∈ l, IsName s.1 ∧ CanBeStored s.2) (hnd : (l.map Prod.fst).Nodup)
    (hspec : ∀ s ∈ l, ∃ q ∈ specs, q.name = s.1 ∧ q.readOnly = false ∧ q.constant = false ∧ ∃ val, Gives O.ofInt q.current.ty s.2 val)
    (hdef : ∀ q ∈ specs, q.name ∉ l.map Prod.fst → q.default.isSome = true ∨ q.readOnly = true ∨ q.constant = true) :
    ∃ D' D'', (∀ r, Parses P.host P.begin (assignedSettingsText l) r ↔ r = .ok D') ∧ D'.evaluateParameters P.host 0 = some D'' ∧
      (∀ s ∈ l, ∀ q ∈ specs, q.name = s.1 → ∀ val, Gives O.ofInt q.current.ty s.2 val → ∃ t, ProgramVariable D' 0 s.1 t ∧ D''.ext t = val) ∧
      ∀ q ∈ specs, q.name ∉ l.map Prod.fst → q.readOnly = false → q.constant = false → ∀ val, q.default = some val →
        ∃ t, ProgramVariable D' 0 q.name t ∧ D''.ext t = val := by
  obtain ⟨hR, hcur⟩ := begin_noRefs P
  have hnodup := hnames _ _ _ hd hf
  obtain ⟨⟨B, hB, hBc, hBp⟩, ⟨Bv, hBv, hBn⟩, hdecl⟩ := begin_params P hd hf hnodup
  have hI : DInv P.begin := dinv_after P []
  have hone : ∀ n v w, Declares P.begin.store 0 n v → Declares P.begin.store 0 n w → v = w := by
    intro n v w h1 h2
    have := (Lemma.Vars.varOf_iff hI.store _ _ _).mpr h1
    rw [(Lemma.Vars.varOf_iff hI.store _ _ _).mpr h2] at this
    exact (Option.some.inj this).symm
  have hpty : ∀ (q : ParamSpec ℚ) (x : ℕ) (id : ℤ), q.readOnly = false → q.constant = false → (DeckState.paramVariable P.host q x id).ty = q.current.ty := by
    intro q x id hqr hqc
    unfold DeckState.paramVariable
    simp only [hqc, hqr, Bool.false_eq_true, if_false]
    show (q.default.getD (DeckState.zero P.host q.current.ty)).ty = q.current.ty
    rcases hq' : q.default with _ | y
    · rcases q.current with _ | _ | _ <;> rfl
    · exact q.typed y hq'
  obtain ⟨hfit, hlex⟩ := reads_assignedSettings hl
  obtain ⟨toks, hlex, hp⟩ := hlex 1
  obtain ⟨parts, hp1, hp2, hp3⟩ := assigned_deck O l hl toks hp
  have h := C94_statements_partial P.host P.begin (assignedSettingsText l) hfit toks _ hlex (l.map assignedStmt)
    ⟨by simpa using hne, parts, hp1, by rw [hO]; exact hp2, hp3⟩
  obtain ⟨D1, a1, a2, a3, -, a5, a6, a7, a8⟩ := run_assigned P.host hneg l P.begin hI hR (begin_onlyRead P) hcur hl hnd (by
    intro s hs
    obtain ⟨q, hq, hqn, hqr, hqc, val, hval⟩ := hspec s hs
    obtain ⟨v, x, id, hv, hx⟩ := hdecl q hq
    refine ⟨v, _, hqn ▸ hv, hx, ?_, val, ?_⟩
    · unfold DeckState.paramVariable
      simp only [hqc, hqr, Bool.false_eq_true, if_false]
      rfl
    · rw [hpty q x id hqr hqc, hO]
      exact gives_convert O hval)
  rcases hfin : D1.finish P.host with _ | D'
  · exact absurd hfin (noRefs_finish P.host a2 a3)
  have hparse : P.begin.parse P.host (l.map assignedStmt) = some D' := by
    unfold DeckState.parse
    rw [a1]; exact hfin
  obtain ⟨f1, f2, -, -, f5, -⟩ := (finish_spec P.host a2).1 D' hfin
  -- a variable with a value keeps it
  have hkeep : ∀ (v : ℕ) (x : Variable ℚ W), D1.heap[v]? = some x → x.fixed = true → D'.heap[v]? = some x := by
    intro v x hx hfx
    obtain ⟨val, hv, hval⟩ := f5 v x hx
    rcases hval with rfl | ⟨e, -, y, hy, hfy, -⟩
    · exact hv
    · rw [hx] at hy
      cases hy
      rw [hfx] at hfy
      cases hfy
  have hset : ∀ s ∈ l, ∀ v, Declares P.begin.store 0 s.1 v → ∀ q ∈ specs, q.name = s.1 → q.readOnly = false → q.constant = false →
      ∀ val, Gives O.ofInt q.current.ty s.2 val →
        ∃ x : Variable ℚ W, D'.heap[v]? = some x ∧ x.value = val ∧ x.fixed = true ∧ x.initialised = true := by
    intro s hs v hv q hq hqn hqr hqc val hval
    obtain ⟨w, x, id, hw, hx⟩ := hdecl q hq
    rw [hqn] at hw
    rw [← hone _ _ _ hv hw] at hx
    obtain ⟨y, hy, b1, b2, b3⟩ := a7 s hs v _ hv hx val (by rw [hpty q x id hqr hqc, hO]; exact gives_convert O hval)
    exact ⟨y, hkeep v y hy b2, b1, b2, b3⟩
  have hrest : ∀ q ∈ specs, q.name ∉ l.map Prod.fst → ∀ v, Declares P.begin.store 0 q.name v →
      ∃ x id, D1.heap[v]? = some (DeckState.paramVariable P.host q x id) := by
    intro q hq hqn v hv
    obtain ⟨w, x, id, hw, hx⟩ := hdecl q hq
    rw [hone _ _ _ hv hw]
    refine ⟨x, id, ?_⟩
    rw [a8 w fun s hs hsd => hqn ((hI.once _ _ _ _ _ hw hsd).2 ▸ List.mem_map_of_mem hs), hx]
  have htree : D'.tree.blocks = [B] := by rw [f2, a6]; exact hB
  have hstore : D'.store = P.begin.store := f1.trans a5
  have hask : ∀ k q, Below D'.tree 0 k → Asks P.classes D' k q → k = 0 ∧ q ∈ specs ∧ q.constant = false := by
    rintro k q hk ⟨B', Bv', d', specs', c1, c2, c3, c4, c5, c6⟩
    have hk0 : k = 0 := by
      rcases k with _ | k
      · rfl
      · rw [htree] at c1; simp at c1
    subst hk0
    rw [htree] at c1
    cases c1
    rw [hBc, hstore, hBv] at c2
    cases c2
    rw [hBn, hd] at c3
    cases c3
    rw [hf] at c4
    cases c4
    exact ⟨rfl, c5, c6⟩
  have hasks : ∀ q ∈ specs, q.constant = false → Asks P.classes D' 0 q := fun q hq hc =>
    ⟨B, Bv, d, specs, by rw [htree]; rfl, by rw [hBc, hstore]; exact hBv, by rw [hBn]; exact hd, hf, hq, hc⟩
  have hfile : ∀ n v, FileVariable D' 0 n v → Declares P.begin.store 0 n v := by
    rintro n v ⟨B', c1, c2⟩
    rw [htree] at c1
    cases c1
    rw [hBc, hstore] at c2
    exact c2
  have hlen : 0 < D'.tree.blocks.length := by rw [htree]; exact Nat.one_pos
  have hsome : D'.evaluateParameters P.host 0 ≠ none := by
    rw [Ne, C62_errors_partial P hnames _ D' hparse 0 hlen]
    rintro ⟨k, q, v, x, hk, hq, hv, hx, hor⟩
    obtain ⟨rfl, hqs, hqc⟩ := hask k q hk hq
    have hv := hfile _ _ hv
    by_cases hn : q.name ∈ l.map Prod.fst
    · obtain ⟨s, hs, hsn⟩ := List.mem_map.mp hn
      obtain ⟨q', hq', hqn', hqr', hqc', val', hval'⟩ := hspec s hs
      obtain ⟨y, hy, -, b2, b3⟩ := hset s hs v (hsn ▸ hv) q' hq' hqn' hqr' hqc' val' hval'
      rw [hx] at hy
      cases hy
      rcases hor with hor | ⟨-, e, ⟨-, z, hz, hfz, -⟩, -⟩
      · rw [b3] at hor; cases hor
      · rw [hx] at hz
        cases hz
        rw [b2] at hfz; cases hfz
    · obtain ⟨j, id, hj⟩ := hrest q hqs hn v hv
      obtain ⟨val, hval, -⟩ := f5 v _ hj
      rw [hx] at hval
      cases hval
      unfold DeckState.paramVariable at hor hx
      simp only [hqc, Bool.false_eq_true, if_false] at hor hx
      by_cases hqr : q.readOnly = true
      · simp only [hqr, if_true] at hor
        rcases hor with hor | ⟨hor, -⟩ <;> cases hor
      · simp only [hqr, Bool.false_eq_true, if_false] at hor hx
        rcases hor with hor | ⟨-, e, ⟨-, z, hz, hfz, -⟩, -⟩
        · have := hdef q hqs hn
          simp only [hqr, hqc, Bool.false_eq_true, or_false] at this
          change q.default.isSome = false at hor
          rw [this] at hor; cases hor
        · rw [hx] at hz
          cases hz
          cases hfz
  obtain ⟨D'', he⟩ := Option.ne_none_iff_exists'.mp hsome
  obtain ⟨p1, -⟩ := C62_parameters_partial P hnames _ D' hparse 0 hlen D'' he
  have hval : ∀ (v : ℕ) (x : Variable ℚ W), D'.heap[v]? = some x → D'.state.value v = x.value := by
    intro v x hx
    show (D'.heap[v]?.map Variable.value).getD (.int 0) = _
    rw [hx]; rfl
  refine ⟨D', D'', fun r => ?_, he, ?_, ?_⟩
  · rw [h r, readAs, a1]
    simp only [hfin]
  · intro s hs q hq hqn val hv'
    obtain ⟨q', hq', hqn', hqr, hqc, -⟩ := hspec s hs
    have : q' = q := List.inj_on_of_nodup_map hnodup hq' hq (hqn'.trans hqn.symm)
    subst this
    obtain ⟨v, t, b1, b2, b3⟩ := p1 0 q' .refl (hasks q' hq' hqc)
    obtain ⟨x, hx, hxv, -⟩ := hset s hs v (hqn ▸ hfile _ _ b1) q' hq' hqn' hqr hqc val hv'
    exact ⟨t, hqn ▸ b2, by rw [(b3 hqr).1, hval v x hx, hxv]⟩
  · intro q hq hqn hqr hqc val hqd
    obtain ⟨v, t, b1, b2, b3⟩ := p1 0 q .refl (hasks q hq hqc)
    obtain ⟨j, id, hj⟩ := hrest q hq hqn v (hfile _ _ b1)
    have hpv : DeckState.paramVariable P.host q j id = .ofValue val true false id := by
      unfold DeckState.paramVariable
      simp only [hqc, hqr, hqd, Bool.false_eq_true, if_false]
      rfl
    rw [hpv] at hj
    exact ⟨t, b2, by rw [(b3 hqr).1, hval v _ (hkeep v _ hj rfl)]; rfl⟩

/-- a program whose root block has the parameters `dx`, of type `double`, `output`, of type `string`, and `order`, with default 2 -/
def typedProgram : Program ℚ Unit :=
  { settingsProgram with
    classes := [("Root", ⟨[], some [⟨"dx", .float 0, none, false, false, by simp⟩, ⟨"output", .str "", none, false, false, by simp⟩,
      ⟨"order", .int 0, some (.int 2), false, false, by simp [Val.ty]⟩]⟩)] }

/-- The hypotheses are met: a file that gives a whole number to a parameter of type `double`, and a text. -/
example : assignedSettingsText [("dx", .int 3), ("output", .str "out #p.h5")] = bytes "dx = 3;\noutput = \"out #p.h5\";\n" ∧
    ∃ D' D'', Parses typedProgram.host typedProgram.begin (assignedSettingsText [("dx", .int 3), ("output", .str "out #p.h5")]) (.ok D') ∧
      D'.evaluateParameters typedProgram.host 0 = some D'' ∧ (∃ t, ProgramVariable D' 0 "dx" t ∧ D''.ext t = .float 3) ∧
      (∃ t, ProgramVariable D' 0 "output" t ∧ D''.ext t = .str "out #p.h5") ∧ ∃ t, ProgramVariable D' 0 "order" t ∧ D''.ext t = .int 2 := by
  refine ⟨by decide +kernel, ?_⟩
  have hs' : Gives ratOps.ofInt .str (.str "out #p.h5") (.str "out #p.h5") := .same (.str "out #p.h5")
  have hg : Gives ratOps.ofInt .float (.int 3) (.float 3) := .ofInt 3
  obtain ⟨D', D'', h1, h2, h3, h4⟩ := C156_assigned_partial ratOps typedProgram rfl (fun y => rfl) (by
      intro c d specs hc hf
      obtain ⟨-, rfl⟩ := Prod.mk.inj (List.mem_singleton.mp (Lemma.Blocks.lookup_mem hc))
      cases hf
      decide +kernel) _ _ rfl rfl [("dx", .int 3), ("output", .str "out #p.h5")] (by simp) (by
      intro s hs
      rcases List.mem_cons.mp hs with rfl | hs
      · exact ⟨⟨⟨100, [120], by decide +kernel, by decide +kernel, by decide +kernel⟩, by decide +kernel, by decide +kernel, by decide +kernel⟩, by norm_num, by norm_num⟩
      · rw [List.mem_singleton.mp hs]
        refine ⟨⟨⟨111, [117, 116, 112, 117, 116], by decide +kernel, by decide +kernel, by decide +kernel⟩, by decide +kernel, by decide +kernel, by decide +kernel⟩, ?_, by decide +kernel, by decide +kernel⟩
        rw [show bytes "out #p.h5" = [111, 117, 116, 32, 35, 112, 46, 104, 53] by decide +kernel]
        repeat first | exact .nil | refine .plain (by decide) (by decide) ?_) (by decide) (by
      intro s hs
      rcases List.mem_cons.mp hs with rfl | hs
      · exact ⟨_, List.mem_cons_self, rfl, rfl, rfl, _, hg⟩
      · rw [List.mem_singleton.mp hs]
        exact ⟨_, List.mem_cons_of_mem _ List.mem_cons_self, rfl, rfl, rfl, _, hs'⟩) (by
      intro q hq
      simp only [List.mem_cons, List.not_mem_nil, or_false] at hq
      rcases hq with rfl | rfl | rfl <;> simp)
  exact ⟨D', D'', (h1 _).mpr rfl, h2, h3 _ List.mem_cons_self _ List.mem_cons_self rfl _ hg,
    h3 _ (List.mem_cons_of_mem _ List.mem_cons_self) _ (List.mem_cons_of_mem _ List.mem_cons_self) rfl _ hs',
    h4 _ (List.mem_cons_of_mem _ (List.mem_cons_of_mem _ List.mem_cons_self)) (by decide) rfl rfl _ rfl⟩

end Schnek.Props
