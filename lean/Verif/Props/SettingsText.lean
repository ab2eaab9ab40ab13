import Verif.Lemma.SettingsText
import Verif.Lemma.SettingsParams

/-!
# A setup file made by a program is read again (C156)
-/

namespace Schnek.Props

open Schnek.Scanner Schnek.Spec Schnek.Spec.Lexer Schnek.Spec.SettingsText Schnek.Lemma.SettingsText Schnek.Lemma.Scanner Schnek.NumberText
open Schnek.Deck Schnek.Lemma.Deck

variable {W : Type}

/-- C156, partial. A program writes one line `int name = value;` for each of its settings, and another one reads this file: the file is
accepted, and afterwards the root block has a variable of type integer with this value for each name, and no other variables than before
for other names. What is missing: the value -2147483648, and the program without settings. -/
theorem C156_settings_partial (O : FloatOps ℚ) (P : Program ℚ W) (hO : P.host.ops = withText O) (l : List (String × ℤ)) (hne : l ≠ [])
    (hl : ∀ s ∈ l, IsName s.1 ∧ -2 ^ 31 < s.2 ∧ s.2 < 2 ^ 31) (hnd : (l.map Prod.fst).Nodup)
    (hnew : ∀ s ∈ l, ∀ v, ¬ Declares P.begin.store 0 s.1 v) :
    ∃ D', (∀ r, Parses P.host P.begin (settingsText l) r ↔ r = .ok D') ∧
      (∀ s ∈ l, ∃ v x, Declares D'.store 0 s.1 v ∧ D'.heap[v]? = some x ∧ x.ty = .int ∧ x.value = .int s.2) ∧
      ∀ n, n ∉ l.map Prod.fst → ∀ v, Declares D'.store 0 n v ↔ Declares P.begin.store 0 n v := by
  obtain ⟨hR, hcur⟩ := begin_noRefs P
  obtain ⟨hfit, hlex⟩ := reads_settings fun s hs => ⟨(hl s hs).1, (hl s hs).2.1.le, (hl s hs).2.2⟩
  obtain ⟨toks, hlex, hp⟩ := hlex 1
  obtain ⟨parts, hp1, hp2, hp3⟩ := settings_deck O l hl toks hp
  have h := C94_statements_partial P.host P.begin (settingsText l) hfit toks _ hlex (l.map settingStmt)
    ⟨by simpa using hne, parts, hp1, by rw [hO]; exact hp2, hp3⟩
  obtain ⟨D1, a1, a2, a3, -, -, a6, a7, a8⟩ := run_settings P.host l P.begin (dinv_after P []) hR (fun s hs => (hl s hs).2) hnd
    (by rw [hcur]; exact hnew)
  rcases hf : D1.finish P.host with _ | D'
  · exact absurd hf (noRefs_finish P.host a2 a3)
  obtain ⟨f1, -, -, -, f5, -⟩ := (finish_spec P.host a2).1 D' hf
  refine ⟨D', fun r => ?_, ?_, ?_⟩
  · rw [h r, readAs, a1]
    simp only [hf]
  · intro s hs
    obtain ⟨v, id, hd, hx⟩ := a7 s hs
    obtain ⟨val, hv, hval⟩ := f5 v _ hx
    refine ⟨v, _, by rw [f1, ← hcur]; exact hd, hv, rfl, ?_⟩
    rcases hval with rfl | ⟨e, -, x, hx', hfix, -⟩
    · rfl
    · rw [hx] at hx'
      cases hx'
      cases hfix
  · intro n hn v
    rw [f1]
    refine ⟨fun hd => ?_, a6 0 n v⟩
    rcases a8 0 n v hd with hd | ⟨-, hd⟩
    · exact hd
    · exact absurd hd hn

/-- C156, partial. A program writes one line `name = value;` for each setting, and the settings are parameters of type integer of a program that
reads this file. The file is accepted, and when the parameters are evaluated the variables of the program get these values, and the defaults
where the file has no value. What is missing: the value -2147483648, and the program without settings. -/
theorem C156_parameters_partial (O : FloatOps ℚ) (P : Program ℚ W) (hO : P.host.ops = withText O) (hnames : DistinctNames P.classes)
    (d : ClassDesc ℚ) (specs : List (ParamSpec ℚ)) (hd : P.classes.lookup P.className = some d) (hf : d.factory = some specs)
    (l : List (String × ℤ)) (hne : l ≠ []) (hl : ∀ s ∈ l, IsName s.1 ∧ -2 ^ 31 < s.2 ∧ s.2 < 2 ^ 31) (hnd : (l.map Prod.fst).Nodup)
    (hspec : ∀ s ∈ l, ∃ q ∈ specs, q.name = s.1 ∧ q.current.ty = .int ∧ q.readOnly = false ∧ q.constant = false)
    (hdef : ∀ q ∈ specs, q.name ∉ l.map Prod.fst → q.default.isSome = true ∨ q.readOnly = true ∨ q.constant = true) :
    ∃ D' D'', (∀ r, Parses P.host P.begin (parametersText l) r ↔ r = .ok D') ∧ D'.evaluateParameters P.host 0 = some D'' ∧
      (∀ s ∈ l, ∃ t, ProgramVariable D' 0 s.1 t ∧ D''.ext t = .int s.2) ∧
      ∀ q ∈ specs, q.name ∉ l.map Prod.fst → q.readOnly = false → q.constant = false → ∀ val, q.default = some val →
        ∃ t, ProgramVariable D' 0 q.name t ∧ D''.ext t = val := by
  obtain ⟨hR, hcur⟩ := begin_noRefs P
  have hnodup := hnames _ _ _ hd hf
  obtain ⟨⟨B, hB, hBc, hBp⟩, ⟨Bv, hBv, hBn⟩, hdecl⟩ := begin_params P hd hf hnodup
  have hI : DInv P.begin := dinv_after P []
  have hone : ∀ n v w, Declares P.begin.store 0 n v → Declares P.begin.store 0 n w → v = w := by
    intro n v w h1 h2
    have := (Lemma.Vars.varOf_iff hI.store _ _ _).mpr h1
    rw [(Lemma.Vars.varOf_iff hI.store _ _ _).mpr h2] at this
    exact (Option.some.inj this).symm
  obtain ⟨hfit, hlex⟩ := reads_parameters fun s hs => ⟨(hl s hs).1, (hl s hs).2.1.le, (hl s hs).2.2⟩
  obtain ⟨toks, hlex, hp⟩ := hlex 1
  obtain ⟨parts, hp1, hp2, hp3⟩ := parameters_deck O l hl toks hp
  have h := C94_statements_partial P.host P.begin (parametersText l) hfit toks _ hlex (l.map parameterStmt)
    ⟨by simpa using hne, parts, hp1, by rw [hO]; exact hp2, hp3⟩
  obtain ⟨D1, a1, a2, a3, -, a5, a6, a7, a8⟩ := run_parameters P.host l P.begin hI hR (begin_onlyRead P) hcur hl hnd (by
    intro s hs
    obtain ⟨q, hq, hqn, hqt, hqr, hqc⟩ := hspec s hs
    obtain ⟨v, x, id, hv, hx⟩ := hdecl q hq
    refine ⟨v, _, hqn ▸ hv, hx, ?_⟩
    unfold DeckState.paramVariable
    simp only [hqc, hqr, Bool.false_eq_true, if_false]
    refine ⟨?_, rfl⟩
    show (q.default.getD (DeckState.zero P.host q.current.ty)).ty = .int
    rcases hq' : q.default with _ | y
    · rw [hqt]; rfl
    · exact (q.typed y hq').trans hqt)
  rcases hfin : D1.finish P.host with _ | D'
  · exact absurd hfin (noRefs_finish P.host a2 a3)
  have hparse : P.begin.parse P.host (l.map parameterStmt) = some D' := by
    unfold DeckState.parse
    rw [a1]; exact hfin
  obtain ⟨f1, f2, -, -, f5, -⟩ := (finish_spec P.host a2).1 D' hfin
  -- a variable with a value keeps it
  have hkeep : ∀ (v : ℕ) (x : Variable ℚ W), D1.heap[v]? = some x → x.fixed = true → D'.heap[v]? = some x := by
    intro v x hx hfx
    obtain ⟨val, hv, hval⟩ := f5 v x hx
    rcases hval with rfl | ⟨e, -, y, hy, hfy, -⟩
    · exact hv
    · rw [hx] at hy
      cases hy
      rw [hfx] at hfy
      cases hfy
  have hset : ∀ s ∈ l, ∀ v, Declares P.begin.store 0 s.1 v → ∃ x : Variable ℚ W, D'.heap[v]? = some x ∧ x.value = .int s.2 ∧ x.fixed = true ∧ x.initialised = true := by
    intro s hs v hv
    obtain ⟨x, hx, b1, b2, b3⟩ := a7 s hs v hv
    exact ⟨x, hkeep v x hx b2, b1, b2, b3⟩
  have hrest : ∀ q ∈ specs, q.name ∉ l.map Prod.fst → ∀ v, Declares P.begin.store 0 q.name v →
      ∃ x id, D1.heap[v]? = some (DeckState.paramVariable P.host q x id) := by
    intro q hq hqn v hv
    obtain ⟨w, x, id, hw, hx⟩ := hdecl q hq
    rw [hone _ _ _ hv hw]
    refine ⟨x, id, ?_⟩
    rw [a8 w fun s hs hsd => hqn ((hI.once _ _ _ _ _ hw hsd).2 ▸ List.mem_map_of_mem hs), hx]
  have htree : D'.tree.blocks = [B] := by rw [f2, a6]; exact hB
  have hstore : D'.store = P.begin.store := f1.trans a5
  have hask : ∀ k q, Below D'.tree 0 k → Asks P.classes D' k q → k = 0 ∧ q ∈ specs ∧ q.constant = false := by
    rintro k q hk ⟨B', Bv', d', specs', c1, c2, c3, c4, c5, c6⟩
    have hk0 : k = 0 := by
      rcases k with _ | k
      · rfl
      · rw [htree] at c1; simp at c1
    subst hk0
    rw [htree] at c1
    cases c1
    rw [hBc, hstore, hBv] at c2
    cases c2
    rw [hBn, hd] at c3
    cases c3
    rw [hf] at c4
    cases c4
    exact ⟨rfl, c5, c6⟩
  have hasks : ∀ q ∈ specs, q.constant = false → Asks P.classes D' 0 q := fun q hq hc =>
    ⟨B, Bv, d, specs, by rw [htree]; rfl, by rw [hBc, hstore]; exact hBv, by rw [hBn]; exact hd, hf, hq, hc⟩
  have hfile : ∀ n v, FileVariable D' 0 n v → Declares P.begin.store 0 n v := by
    rintro n v ⟨B', c1, c2⟩
    rw [htree] at c1
    cases c1
    rw [hBc, hstore] at c2
    exact c2
  have hlen : 0 < D'.tree.blocks.length := by rw [htree]; exact Nat.one_pos
  have hsome : D'.evaluateParameters P.host 0 ≠ none := by
    rw [Ne, C62_errors_partial P hnames _ D' hparse 0 hlen]
    rintro ⟨k, q, v, x, hk, hq, hv, hx, hor⟩
    obtain ⟨rfl, hqs, hqc⟩ := hask k q hk hq
    have hv := hfile _ _ hv
    by_cases hn : q.name ∈ l.map Prod.fst
    · obtain ⟨s, hs, hsn⟩ := List.mem_map.mp hn
      obtain ⟨y, hy, -, b2, b3⟩ := hset s hs v (hsn ▸ hv)
      rw [hx] at hy
      cases hy
      rcases hor with hor | ⟨-, e, ⟨-, z, hz, hfz, -⟩, -⟩
      · rw [b3] at hor; cases hor
      · rw [hx] at hz
        cases hz
        rw [b2] at hfz; cases hfz
    · obtain ⟨j, id, hj⟩ := hrest q hqs hn v hv
      obtain ⟨val, hval, -⟩ := f5 v _ hj
      rw [hx] at hval
      cases hval
      unfold DeckState.paramVariable at hor hx
      simp only [hqc, Bool.false_eq_true, if_false] at hor hx
      by_cases hqr : q.readOnly = true
      · simp only [hqr, if_true] at hor
        rcases hor with hor | ⟨hor, -⟩ <;> cases hor
      · simp only [hqr, Bool.false_eq_true, if_false] at hor hx
        rcases hor with hor | ⟨-, e, ⟨-, z, hz, hfz, -⟩, -⟩
        · have := hdef q hqs hn
          simp only [hqr, hqc, Bool.false_eq_true, or_false] at this
          change q.default.isSome = false at hor
          rw [this] at hor; cases hor
        · rw [hx] at hz
          cases hz
          cases hfz
  obtain ⟨D'', he⟩ := Option.ne_none_iff_exists'.mp hsome
  obtain ⟨p1, -⟩ := C62_parameters_partial P hnames _ D' hparse 0 hlen D'' he
  have hval : ∀ (v : ℕ) (x : Variable ℚ W), D'.heap[v]? = some x → D'.state.value v = x.value := by
    intro v x hx
    show (D'.heap[v]?.map Variable.value).getD (.int 0) = _
    rw [hx]; rfl
  refine ⟨D', D'', fun r => ?_, he, ?_, ?_⟩
  · rw [h r, readAs, a1]
    simp only [hfin]
  · intro s hs
    obtain ⟨q, hq, hqn, hqt, hqr, hqc⟩ := hspec s hs
    obtain ⟨v, t, b1, b2, b3⟩ := p1 0 q .refl (hasks q hq hqc)
    obtain ⟨x, hx, hxv, -⟩ := hset s hs v (hqn ▸ hfile _ _ b1)
    exact ⟨t, hqn ▸ b2, by rw [(b3 hqr).1, hval v x hx, hxv]⟩
  · intro q hq hqn hqr hqc val hqd
    obtain ⟨v, t, b1, b2, b3⟩ := p1 0 q .refl (hasks q hq hqc)
    obtain ⟨j, id, hj⟩ := hrest q hq hqn v (hfile _ _ b1)
    have hpv : DeckState.paramVariable P.host q j id = .ofValue val true false id := by
      unfold DeckState.paramVariable
      simp only [hqc, hqr, hqd, Bool.false_eq_true, if_false]
      rfl
    rw [hpv] at hj
    exact ⟨t, b2, by rw [(b3 hqr).1, hval v _ (hkeep v _ hj rfl)]; rfl⟩

/-- C156 is violated: the smallest number of type `int` cannot be read, because its digits without the sign are too large a number. -/
theorem C156_violated_least (O : FloatOps ℚ) (P : Program ℚ W) (hO : P.host.ops = withText O) (n : String) (hn : IsName n)
    (D' : DeckState ℚ W) : ¬ Parses P.host P.begin (settingsText [(n, -2 ^ 31)]) (.ok D') := by
  obtain ⟨hfit, hlex⟩ := reads_settings (l := [(n, -2 ^ 31)]) (by simpa using hn)
  obtain ⟨toks, hlex, hp⟩ := hlex 1
  have hlen : toks.length = 6 := by
    have := congrArg List.length hp
    rw [plainToks, List.length_map] at this
    rw [this]; rfl
  rw [C95_accepted_iff_partial P.host P.begin D' _ hfit toks _ hlex (Or.inl (by omega))]
  rintro ⟨deck, ⟨-, parts, ht, hP⟩, -⟩
  have hall : ∀ t ∈ toks, meaning P.host.ops t ≠ none := by
    intro t htm
    rw [ht] at htm
    obtain ⟨part, hpart, htp⟩ := List.mem_flatten.mp htm
    obtain ⟨st, ts, hts, -⟩ : ∃ st, IsStatement P.host.ops part st := by
      clear * - hP hpart
      induction hP with
      | nil => cases hpart
      | cons h1 h2 ih =>
        rcases List.mem_cons.mp hpart with rfl | hpart
        · exact ⟨_, h1⟩
        · exact ih hpart
    have := List.mem_map_of_mem (f := meaning P.host.ops) htp
    rw [hts] at this
    obtain ⟨d, -, hd⟩ := List.mem_map.mp this
    rw [← hd]; simp
  have hm : (Kind.integer, bytes "2147483648") ∈ plainToks toks := by
    rw [hp]
    have : (Kind.integer, bytes "2147483648") ∈ numberTokens (-2 ^ 31) := by decide +kernel
    rw [List.flatMap_singleton, settingTokens]
    exact List.mem_cons_of_mem _ (List.mem_cons_of_mem _ (List.mem_cons_of_mem _ (List.mem_append_left _ this)))
  obtain ⟨t, htm, he⟩ := List.mem_map.mp hm
  refine hall t htm ?_
  obtain ⟨he1, he2⟩ := Prod.mk.inj he
  have hr : readInt (textOf (bytes "2147483648")) = none := by decide +kernel
  unfold meaning
  rw [he1, he2, hO]
  simp only [show (withText O).readInt = readInt from rfl, hr, Option.map_none]

/-- C156 is violated: the file of a program without settings is rejected. -/
theorem C156_violated_none (H : Host ℚ W) (D : DeckState ℚ W) (r : ParseResult ℚ W) : Parses H D (settingsText []) r ↔ r = .internalError := by
  obtain ⟨hfit, hlex⟩ := reads_nil
  obtain ⟨toks, hlex, hp⟩ := hlex 1
  have : toks = [] := by simpa [plainToks] using hp
  subst this
  exact C94_violated_no_statements H D _ hfit _ hlex r

/-- `exampleProgram`, with the texts of numbers -/
def settingsProgram : Program ℚ Unit := { exampleProgram with host := ⟨withText ratOps, fun _ => none⟩ }

/-- The hypotheses of C156 are met: two settings, for a program with parameters `size` and `t`. -/
example : settingsProgram.host.ops = withText ratOps ∧
    (∀ s ∈ [("nx", (100 : ℤ)), ("offset", -3)], IsName s.1 ∧ -2 ^ 31 < s.2 ∧ s.2 < 2 ^ 31) ∧
    ([("nx", (100 : ℤ)), ("offset", -3)].map Prod.fst).Nodup ∧
    (∀ s ∈ [("nx", (100 : ℤ)), ("offset", -3)], ∀ v, ¬ Declares settingsProgram.begin.store 0 s.1 v) ∧
    (∃ v, Declares settingsProgram.begin.store 0 "size" v) := by
  have hb : settingsProgram.begin.store.blocks[0]? = some ⟨"root", "Root", none, [], [("size", 0), ("t", 1)], []⟩ := by rfl
  refine ⟨rfl, ?_, by decide, ?_, ⟨0, _, hb, by simp⟩⟩
  · intro s hs
    rcases List.mem_cons.mp hs with rfl | hs
    · exact ⟨⟨⟨110, [120], by decide +kernel, by decide +kernel, by decide +kernel⟩, by decide +kernel, by decide +kernel, by decide +kernel⟩, by norm_num, by norm_num⟩
    · rw [List.mem_singleton.mp hs]
      exact ⟨⟨⟨111, [102, 102, 115, 101, 116], by decide +kernel, by decide +kernel, by decide +kernel⟩, by decide +kernel, by decide +kernel, by decide +kernel⟩, by norm_num, by norm_num⟩
  · rintro s hs v ⟨B, hB, hm⟩
    rw [hb] at hB
    cases hB
    rcases List.mem_cons.mp hs with rfl | hs
    · simp at hm
    · rw [List.mem_singleton.mp hs] at hm
      simp at hm

/-- a program whose root block has the parameters `size`, without default, `order`, with default 2, and `t`, which can only be read -/
def parametersProgram : Program ℚ Unit :=
  { settingsProgram with
    classes := [("Root", ⟨[], some [⟨"size", .int 7, none, false, false, by simp⟩, ⟨"order", .int 0, some (.int 2), false, false, by simp [Val.ty]⟩,
      ⟨"t", .int 5, none, true, false, by simp⟩]⟩)] }

/-- The hypotheses of C156 for parameters are met: the file `size = -12;` sets `size`, and `order` has its default. -/
example : parametersText [("size", -12)] = bytes "size = -12;\n" ∧
    ∃ D' D'', Parses parametersProgram.host parametersProgram.begin (parametersText [("size", -12)]) (.ok D') ∧
      D'.evaluateParameters parametersProgram.host 0 = some D'' ∧ (∃ t, ProgramVariable D' 0 "size" t ∧ D''.ext t = .int (-12)) ∧
      ∃ t, ProgramVariable D' 0 "order" t ∧ D''.ext t = .int 2 := by
  refine ⟨by decide +kernel, ?_⟩
  obtain ⟨D', D'', h1, h2, h3, h4⟩ := C156_parameters_partial ratOps parametersProgram rfl (by
      intro c d specs hc hf
      obtain ⟨-, rfl⟩ := Prod.mk.inj (List.mem_singleton.mp (Lemma.Blocks.lookup_mem hc))
      cases hf
      decide +kernel) _ _ rfl rfl [("size", -12)] (by simp) (by
      intro s hs
      rw [List.mem_singleton.mp hs]
      exact ⟨⟨⟨115, [105, 122, 101], by decide +kernel, by decide +kernel, by decide +kernel⟩, by decide +kernel, by decide +kernel, by decide +kernel⟩,
        by norm_num, by norm_num⟩) (by simp) (by
      intro s hs
      rw [List.mem_singleton.mp hs]
      exact ⟨_, List.mem_cons_self, rfl, rfl, rfl, rfl⟩) (by
      intro q hq
      simp only [List.mem_cons, List.not_mem_nil, or_false] at hq
      rcases hq with rfl | rfl | rfl <;> simp)
  exact ⟨D', D'', (h1 _).mpr rfl, h2, h3 _ List.mem_cons_self,
    h4 _ (List.mem_cons_of_mem _ List.mem_cons_self) (by simp) rfl rfl _ rfl⟩

end Schnek.Props
