import Verif.Props.Overflow
import Verif.Props.Blocks
import Verif.Lemma.ParamDefault

/-!
# C111: from the text of a setup file to the variables of the program
-/

namespace Schnek.Props

open Schnek.Deck Schnek.Deck.DeckState Schnek.Spec Schnek.Spec.Lexer Schnek.Lemma.Deck Schnek.Lemma.Blocks Schnek.Lemma.DeckText Schnek.Lemma.Scanner
open Scanner (Kind Tok Byte bytes bufSize)

variable {F W : Type}

theorem parse_of_text (P : Program F W) (text : List Byte) (toks : List Tok) (ending : Ending)
    (hlex : Lex text 1 toks ending) (deck : List (Stmt F)) (hdeck : IsDeck P.host.ops toks deck) (D' : DeckState F W)
    (hread : Parses P.host P.begin text (.ok D')) : P.begin.parse P.host deck = some D' :=
  C149_nothing_lost P.host P.begin D' text toks ending hlex deck hdeck hread

/-- the program's variable for the variable `v` that the file has for a parameter -/
theorem parameter_variable (P : Program F W) (hnames : DistinctNames P.classes) (deck : List (Stmt F)) (D' : DeckState F W)
    (h : P.begin.parse P.host deck = some D') (b : ℕ) (hb : b < D'.tree.blocks.length) (D'' : DeckState F W)
    (he : D'.evaluateParameters P.host b = some D'') (k : ℕ) (q : ParamSpec F) (hk : Below D'.tree b k) (hq : Asks P.classes D' k q)
    (hro : q.readOnly = false) (v : ℕ) (hv : FileVariable D' k q.name v) (x : Variable F W) (hx : D'.heap[v]? = some x) :
    ∃ t, ProgramVariable D' k q.name t ∧ D''.ext t = x.value ∧ x.ty = q.current.ty ∧ x.initialised = true ∧
      (x.fixed = false → ∀ e, x.expression = some e → e.eval P.host.ops D'.state ≠ none) := by
  obtain ⟨v', t', f1, -, f3⟩ := (C62_parameters_partial P hnames deck D' h b hb D'' he).1 k q hk hq
  obtain ⟨hmem, heq, hinj⟩ := params_below h b hb
  have hgood : ∀ p ∈ paramsOf D' (D'.tree.visit D'.tree.blocks.length b), Good P.host D' p := by
    intro p hp
    obtain ⟨k, n, -, B, hB, hm⟩ := (hmem p).mp hp
    obtain ⟨_, _, _, -, -, -, -, i5⟩ := param_info hnames h k B hB
    obtain ⟨q, -, -, hq⟩ := i5 n p hm
    exact hq.2.2.1
  obtain ⟨e1, e2⟩ := evalParams_spec P.host D' _ hgood D'.ext
  have hnb : ∀ p ∈ paramsOf D' (D'.tree.visit D'.tree.blocks.length b), ¬ Bad P.host D' p := by
    intro p hp hbad
    have := e1 ⟨p, hp, hbad⟩
    rw [show ({ D' with ext := D'.ext } : DeckState F W) = D' from rfl, ← heq, he] at this
    simp at this
  obtain ⟨B, Bv, d, specs, hB, hBv, hd, hf, hqs, hc⟩ := hq
  obtain ⟨Bv', d', specs', i1, i2, i3, i4, -⟩ := param_info hnames h k B hB
  rw [hBv, Option.some.injEq] at i1
  subst i1
  rw [hd, Option.some.injEq] at i2
  subst i2
  rw [hf, Option.some.injEq] at i3
  subst i3
  obtain ⟨p, hp, h1, h2, h3, y, hy, hty, hyro, htyp, hval⟩ := i4 q hqs
  rw [hc, Bool.not_false, Option.isSome_iff_exists] at h1
  obtain ⟨t, ht⟩ := h1
  have hin : p ∈ paramsOf D' (D'.tree.visit D'.tree.blocks.length b) := (hmem p).mpr ⟨k, q.name, hk, B, hB, hp⟩
  have hxr : y.readOnly = false := by rw [hyro, hc, hro]; rfl
  obtain ⟨B', hB', Bw, hBw, hvm⟩ := hv
  rw [hB, Option.some.injEq] at hB'
  subst hB'
  obtain ⟨Bw', hBw', hpm⟩ := h2
  rw [hBw, Option.some.injEq] at hBw'
  subst hBw'
  obtain ⟨-, -, c3, -⟩ := C59_values_current P deck D' h
  have hvp : v = p.var :=
    congrArg Prod.snd (List.inj_on_of_nodup_map ((dinv_after P deck).store.vars _ _ (c3 ▸ hBw)) hvm hpm rfl)
  subst hvp
  rw [hx, Option.some.injEq] at hy
  subst hy
  have hres := (foldl_act D' (paramsOf D' (D'.tree.visit D'.tree.blocks.length b)) D'.ext t).2 p hin x ht hx hxr (by
    intro p' hp' ht'
    obtain ⟨k', n', -, hp'⟩ := (hmem p').mp hp'
    exact (hinj k' n' p' k q.name p t hp' ⟨B, hB, hp⟩ ht' ht).2.2)
  have hD := e2 hnb
  rw [show ({ D' with ext := D'.ext } : DeckState F W) = D' from rfl, ← heq, he, Option.some.injEq] at hD
  subst hD
  refine ⟨t, ⟨B, p, hB, hp, ht⟩, hres, hty, ?_, ?_⟩
  · by_contra hini
    exact hnb p hin ⟨t, x, ht, hx, Or.inl (by simpa using hini)⟩
  intro hfx e hee hev
  refine hnb p hin ⟨t, x, ht, hx, Or.inr ⟨hxr, hfx, ?_⟩⟩
  rw [hee, Option.bind_some, hev]

/-- **C111** A text whose tokens are statements, among them `n = g;`, has been read, and then the parameters of
the blocks have been evaluated. `n` means a parameter `q` of some block, and no later statement assigns to it. Then the program's variable for `q` has,
converted to its type, the value of `g`: the value at that point of the file, if `g` is constant there, or else the value that `g` has with the final values of
the variables. -/
theorem C111_assignment (P : Program F W) (hnames : DistinctNames P.classes) (text : List Byte) (toks : List Tok) (ending : Ending) (hlex : Lex text 1 toks ending) (before rest : List (Stmt F)) (n : String)
    (g : Grammar.Expression F) (hdeck : IsDeck P.host.ops toks (before ++ .assign n g :: rest)) (D' D'' : DeckState F W)
    (hread : Parses P.host P.begin text (.ok D')) (b : ℕ) (hb : b < D'.tree.blocks.length)
    (heval : D'.evaluateParameters P.host b = some D'') (path : List String)
    (hw : Written ':' path n) (v : ℕ) (hv : Resolves (P.after before).store (P.after before).store.cursor path v) (k : ℕ) (q : ParamSpec F)
    (hk : Below D'.tree b k) (hq : Asks P.classes D' k q) (hro : q.readOnly = false) (hfile : FileVariable D' k q.name v)
    (hno : ∀ pre s post, rest = pre ++ s :: post → ¬ Assigns (P.after (before ++ .assign n g :: pre)) s v) :
    ∃ t e, ProgramVariable D' k q.name t ∧ g.build ((P.after before).env P.host) = some e ∧
      (e.isConstant (P.after before).state = true → ∃ val, e.eval P.host.ops (P.after before).state = some val ∧
        convert P.host.ops q.current.ty val = some (D''.ext t)) ∧
      (e.isConstant (P.after before).state = false →
        (if e.ty = q.current.ty then e else .cast q.current.ty e).eval P.host.ops D'.state = some (D''.ext t)) := by
  have hparse := parse_of_text P text toks ending hlex _ hdeck D' hread
  obtain ⟨hacc, -⟩ := parse_some hparse
  have hacc' : P.Accepts ((before ++ [.assign n g]) ++ rest) := by simpa using hacc
  have h1 := (accepts_append P _ rest).mp hacc'
  have h2 := (accepts_append P before _).mp h1.1
  have hok : ((P.after before).step P.host (.assign n g)).1 = true := by
    have := h2.2; rw [run_one] at this; exact this
  have h3 : P.after (before ++ [.assign n g]) = ((P.after before).step P.host (.assign n g)).2 := by
    rw [after_append P before _ h2.1, run_one]
  obtain ⟨v', e, x, x', a1, a2, a3, a4, a5, a6, a7, a8, a9, a10⟩ := C41_accepted P before n path hw g hok
  have hi := dinv_after P before
  obtain rfl : v = v' := by
    have := (Lemma.Vars.getVariable_iff hi.store _ hi.store.cursor path n hw v).mpr hv
    rw [(Lemma.Vars.getVariable_iff hi.store _ hi.store.cursor path n hw v').mpr a1, Option.some.injEq] at this
    exact this.symm
  have hdk : before ++ .assign n g :: rest = (before ++ [.assign n g]) ++ rest := by simp
  have hfin : (P.after (before ++ .assign n g :: rest)).heap[v]? = some x' := by
    rw [hdk, after_append P _ rest h1.1, h3]
    apply run_frame P.host _ (dinv_step P.host _ _ hi) rest v x' a5
    intro pre s post hr' hpre
    have hd : before ++ .assign n g :: pre = (before ++ [.assign n g]) ++ pre := by simp
    have := hno pre s post hr'
    rw [hd, after_append P _ pre h1.1, h3] at this
    exact this
  obtain ⟨c1, c2, c3, c4, -⟩ := C59_values_current P _ D' hparse
  obtain ⟨w, hw', hor⟩ := c2 v x' hfin
  obtain ⟨t, ht, hval, htyq, -, hgood⟩ := parameter_variable P hnames _ D' hparse b hb D'' heval k q hk hq hro v hfile _ hw'
  have hty : x.ty = q.current.ty := a6.symm.trans htyq
  have hdef : x'.fixed = false → ∀ e', x'.expression = some e' → DefinedBy (P.after (before ++ .assign n g :: rest)) v e' := by
    intro hf e' he'
    obtain ⟨B, -, hd⟩ := hfile
    rw [c3] at hd
    exact ⟨⟨_, _, hd⟩, x', hfin, hf, he'⟩
  refine ⟨t, e, ht, a2, ?_, ?_⟩
  · intro hc
    obtain ⟨f1, val, f2, f3⟩ := a9 hc
    refine ⟨val, f2, ?_⟩
    rw [hval, ← hty, f3]
    rcases hor with hor | ⟨e', -, y, hy, hfy, -⟩
    · exact congrArg some hor.symm
    · rw [hfin, Option.some.injEq] at hy
      rw [← hy, f1] at hfy
      cases hfy
  · intro hc
    obtain ⟨f1, f2⟩ := a10 hc
    rw [← hty]
    have hv' : D'.state.value v = w := by
      show (D'.heap[v]?.map Variable.value).getD (.int 0) = w
      rw [hw']; rfl
    rcases c1 v _ (hdef f1 _ f2) with h | ⟨h, -⟩
    · rw [h, hv', hval]
    · exact absurd h (hgood f1 _ f2)

/-- **C111** A parameter to which no statement of the text assigns: if the parameters can be evaluated, then it has a default value, and that
is what the program's variable has. -/
theorem C111_default (P : Program F W) (hnames : DistinctNames P.classes) (text : List Byte) (toks : List Tok) (ending : Ending) (hlex : Lex text 1 toks ending) (deck : List (Stmt F))
    (hdeck : IsDeck P.host.ops toks deck) (D' D'' : DeckState F W) (hread : Parses P.host P.begin text (.ok D')) (b : ℕ)
    (hb : b < D'.tree.blocks.length) (heval : D'.evaluateParameters P.host b = some D'') (k : ℕ) (q : ParamSpec F)
    (hk : Below D'.tree b k) (hq : Asks P.classes D' k q) (hro : q.readOnly = false) (v : ℕ) (hfile : FileVariable D' k q.name v)
    (hno : ∀ pre s post, deck = pre ++ s :: post → ¬ Assigns (P.after pre) s v) :
    ∃ t d, ProgramVariable D' k q.name t ∧ q.default = some d ∧ D''.ext t = d := by
  have hparse := parse_of_text P text toks ending hlex _ hdeck D' hread
  obtain ⟨-, c2, c3, c4, -⟩ := C59_values_current P _ D' hparse
  have hfinv := finv_after P hnames deck v (fun pre s post hp _ => hno pre s post hp)
  obtain ⟨B, Bv, d, specs, hB, hBv, hd, hf, hqs, hc⟩ := hq
  obtain ⟨Bv', d', specs', i1, i2, i3, i4, -⟩ := param_info hnames hparse k B hB
  rw [hBv, Option.some.injEq] at i1
  subst i1
  rw [hd, Option.some.injEq] at i2
  subst i2
  rw [hf, Option.some.injEq] at i3
  subst i3
  obtain ⟨p, hp, -, ⟨Bw', hBw', hpm⟩, -⟩ := i4 q hqs
  have hfile' := hfile
  obtain ⟨B', hB', Bw, hBw, hvm⟩ := hfile
  rw [hB, Option.some.injEq] at hB'
  subst hB'
  rw [hBw, Option.some.injEq] at hBw'
  subst hBw'
  have hvp : p.var = v :=
    congrArg Prod.snd (List.inj_on_of_nodup_map ((dinv_after P deck).store.vars _ _ (c3 ▸ hBw)) hpm hvm rfl)
  obtain ⟨i, j, hfresh⟩ := hfinv k B Bv d specs (c4 ▸ hB) (c3 ▸ hBv) hd hf q hqs p hp hvp
  have hpv : paramVariable P.host q i j =
      (.ofValue (q.default.getD (zero P.host q.current.ty)) q.default.isSome false j : Variable F W) := by
    unfold paramVariable
    rw [hc, hro]
    rfl
  rw [hpv] at hfresh
  obtain ⟨w, hw, hor⟩ := c2 v _ hfresh
  obtain ⟨t, ht, hval, -, hini, -⟩ := parameter_variable P hnames deck D' hparse b hb D'' heval k q hk
    ⟨B, Bv, d, specs, hB, hBv, hd, hf, hqs, hc⟩ hro v hfile' _ hw
  have hw' : w = q.default.getD (zero P.host q.current.ty) := by
    rcases hor with hor | ⟨e', -, y, hy, hfy, -⟩
    · exact hor
    · rw [hfresh, Option.some.injEq] at hy
      rw [← hy] at hfy
      cases hfy
  rcases hq : q.default with _ | d
  · rw [hq] at hini
    cases hini
  · refine ⟨t, d, ht, rfl, ?_⟩
    rw [hval]
    show w = d
    rw [hw', hq]
    rfl

theorem textProgram_names : DistinctNames textProgram.classes := by
  intro c d specs h hf
  simp only [textProgram, exampleProgram, List.lookup_cons] at h
  split at h
  · rw [Option.some.injEq] at h
    subst h
    rw [Option.some.injEq] at hf
    subst hf
    decide
  · split at h
    · rw [Option.some.injEq] at h
      subst h
      rw [Option.some.injEq] at hf
      subst hf
      decide
    · simp at h

/-- the parameter `n` of the blocks `A` -/
def paramN : ParamSpec ℚ := ⟨"n", .int 0, some (.int 1), false, false, by simp [Val.ty]⟩

/-- The hypotheses of `C111_assignment` are met by `int a = 3; /* … */ A c { n = a*a - 2; }` and the parameter `n` of the block `c`, whose
variable in the program gets the value 7. -/
example : ∃ e D' D'', Lex textExample 1 tokensExample.flatten e ∧
    IsDeck textProgram.host.ops tokensExample.flatten
      ([.decl .int [("a", some (lit 3))], .start "A" "c"] ++ .assign "n" exprExample :: [.stop]) ∧
    Parses textProgram.host textProgram.begin textExample (.ok D') ∧ 1 < D'.tree.blocks.length ∧
    D'.evaluateParameters textProgram.host 1 = some D'' ∧ Written ':' ["n"] "n" ∧
    Resolves (textProgram.after [.decl .int [("a", some (lit 3))], .start "A" "c"]).store
      (textProgram.after [.decl .int [("a", some (lit 3))], .start "A" "c"]).store.cursor ["n"] 3 ∧
    Below D'.tree 1 1 ∧ Asks textProgram.classes D' 1 paramN ∧ FileVariable D' 1 "n" 3 ∧
    (∀ pre s post, [Stmt.stop] = pre ++ s :: post →
      ¬ Assigns (textProgram.after ([.decl .int [("a", some (lit 3))], .start "A" "c"] ++ .assign "n" exprExample :: pre)) s 3) ∧
    ProgramVariable D' 1 "n" 2 ∧ D''.ext 2 = .int 7 := by
  obtain ⟨hfit, e, hlex⟩ := lex_of_run (line := 1) (.inl scan_example)
  have hs : (textProgram.begin.parse textProgram.host statementsExample).bind (fun D => (D.evaluateParameters textProgram.host 1).bind
      fun E => D.tree.blocks[1]?.bind fun B => D.store.blocks[B.context]?.bind fun Bv =>
        some (decide (E.ext 2 = .int 7) && (decide (Bv.className = "A") && (decide (Bv.vars = [("n", 3)]) &&
          decide (B.params.map (fun p => (p.1, p.2.var, p.2.target)) = [("n", 3, some 2)]))))) =
      some true := by decide +kernel
  obtain ⟨D', hp, hs⟩ := Option.bind_eq_some_iff.mp hs
  obtain ⟨D'', he, hs⟩ := Option.bind_eq_some_iff.mp hs
  obtain ⟨B, hB, hs⟩ := Option.bind_eq_some_iff.mp hs
  obtain ⟨Bv, hBv, hs⟩ := Option.bind_eq_some_iff.mp hs
  rw [Option.some.injEq, Bool.and_eq_true, Bool.and_eq_true, Bool.and_eq_true, decide_eq_true_iff, decide_eq_true_iff,
    decide_eq_true_iff, decide_eq_true_iff] at hs
  obtain ⟨s1, s2, s3, s4⟩ := hs
  obtain ⟨h1, h2, h3⟩ := deck_example
  have hd : IsDeck textProgram.host.ops tokensExample.flatten statementsExample := ⟨h1, h2, h3.1, h3.2.1⟩
  have hpar : ∃ p, ("n", p) ∈ B.params ∧ p.target = some 2 := by
    have : ("n", 3, some 2) ∈ B.params.map fun p => (p.1, p.2.var, p.2.target) := by rw [s4]; simp
    obtain ⟨⟨m, p⟩, hm, hpe⟩ := List.mem_map.mp this
    simp only [Prod.mk.injEq] at hpe
    exact ⟨p, hpe.1 ▸ hm, hpe.2.2⟩
  obtain ⟨p, hpm, hpt⟩ := hpar
  refine ⟨e, D', D'', hlex, hd, (C95_accepted_iff_partial _ _ _ _ hfit _ e hlex (.inl (by decide))).2
      ⟨_, hd, hp⟩, (List.getElem?_eq_some_iff.mp hB).1, he, ?_, ?_, Relation.ReflTransGen.refl, ?_, ?_, ?_, ?_, s1⟩
  · exact ⟨rfl, by simp, by decide⟩
  · have hi := (dinv_after textProgram [.decl .int [("a", some (lit 3))], .start "A" "c"]).store
    refine (Lemma.Vars.getVariable_iff hi _ hi.cursor ["n"] "n" ⟨rfl, by simp, by decide⟩ 3).mp ?_
    decide +kernel
  · exact ⟨B, Bv, ⟨[], some [paramN]⟩, [paramN], hB, hBv, by rw [s2]; rfl, rfl, by simp, rfl⟩
  · exact ⟨B, hB, Bv, hBv, by rw [s3]; simp⟩
  · rintro pre s post hr ⟨n, g, path, rfl, -⟩
    rcases pre with _ | ⟨a, pre⟩
    · simp at hr
    · simp at hr
  · exact ⟨B, p, hB, hpm, hpt⟩

/-- The hypotheses of `C111_default` are met by `A c { }` and the parameter `n` of the block `c`, whose variable in the program gets the
value 1. -/
example : ∃ toks e D' D'', Lex (bytes "A c { }") 1 toks e ∧
    IsDeck textProgram.host.ops toks [.start "A" "c", .stop] ∧
    Parses textProgram.host textProgram.begin (bytes "A c { }") (.ok D') ∧ 1 < D'.tree.blocks.length ∧
    D'.evaluateParameters textProgram.host 1 = some D'' ∧ Below D'.tree 1 1 ∧ Asks textProgram.classes D' 1 paramN ∧
    FileVariable D' 1 "n" 2 ∧
    (∀ pre s post, [Stmt.start "A" "c", .stop] = pre ++ s :: post → ¬ Assigns (textProgram.after pre) s 2) ∧
    ProgramVariable D' 1 "n" 2 ∧ D''.ext 2 = .int 1 := by
  have hscan : Scanner.Returns bufSize (bytes "A c { }") (.ok [⟨1, .identifier, bytes "A"⟩, ⟨1, .identifier, bytes "c"⟩, ⟨1, .lbrace, []⟩,
      ⟨1, .rbrace, []⟩]) := ⟨(by intro c h; cases h), 400, by decide +kernel⟩
  have hdeck : IsDeck textProgram.host.ops [⟨1, .identifier, bytes "A"⟩, ⟨1, .identifier, bytes "c"⟩, ⟨1, .lbrace, []⟩,
      ⟨1, .rbrace, []⟩] [.start "A" "c", .stop] := by
    refine ⟨by simp, [[⟨1, .identifier, bytes "A"⟩, ⟨1, .identifier, bytes "c"⟩, ⟨1, .lbrace, []⟩], [⟨1, .rbrace, []⟩]], rfl,
      .cons ⟨_, ?_, .start "A" "c"⟩ (.cons ⟨_, ?_, .stop⟩ .nil)⟩
    all_goals rfl
  obtain ⟨hfit, e, hlex⟩ := lex_of_run (line := 1) (.inl hscan)
  have hs : (textProgram.begin.parse textProgram.host [.start "A" "c", .stop]).bind
      (fun D => (D.evaluateParameters textProgram.host 1).bind
      fun E => D.tree.blocks[1]?.bind fun B => D.store.blocks[B.context]?.bind fun Bv =>
        some (decide (E.ext 2 = .int 1) && (decide (Bv.className = "A") && (decide (Bv.vars = [("n", 2)]) &&
          decide (B.params.map (fun p => (p.1, p.2.var, p.2.target)) = [("n", 2, some 2)]))))) =
      some true := by decide +kernel
  obtain ⟨D', hp, hs⟩ := Option.bind_eq_some_iff.mp hs
  obtain ⟨D'', he, hs⟩ := Option.bind_eq_some_iff.mp hs
  obtain ⟨B, hB, hs⟩ := Option.bind_eq_some_iff.mp hs
  obtain ⟨Bv, hBv, hs⟩ := Option.bind_eq_some_iff.mp hs
  rw [Option.some.injEq, Bool.and_eq_true, Bool.and_eq_true, Bool.and_eq_true, decide_eq_true_iff, decide_eq_true_iff,
    decide_eq_true_iff, decide_eq_true_iff] at hs
  obtain ⟨s1, s2, s3, s4⟩ := hs
  obtain ⟨p, hpm, hpt⟩ : ∃ p, ("n", p) ∈ B.params ∧ p.target = some 2 := by
    have : ("n", 2, some 2) ∈ B.params.map fun p => (p.1, p.2.var, p.2.target) := by rw [s4]; simp
    obtain ⟨⟨m, p⟩, hm, hpe⟩ := List.mem_map.mp this
    simp only [Prod.mk.injEq] at hpe
    exact ⟨p, hpe.1 ▸ hm, hpe.2.2⟩
  refine ⟨_, e, D', D'', hlex, hdeck, (C95_accepted_iff_partial _ _ _ _ hfit _ e hlex (.inl (by decide))).2
      ⟨_, hdeck, hp⟩, (List.getElem?_eq_some_iff.mp hB).1, he, Relation.ReflTransGen.refl, ?_, ?_, ?_, ?_, s1⟩
  · exact ⟨B, Bv, ⟨[], some [paramN]⟩, [paramN], hB, hBv, by rw [s2]; rfl, rfl, by simp, rfl⟩
  · exact ⟨B, hB, Bv, hBv, by rw [s3]; simp⟩
  · rintro pre s post hr ⟨n, g, path, rfl, -⟩
    rcases pre with _ | ⟨a, _ | ⟨b, _ | ⟨c, pre⟩⟩⟩ <;> simp at hr
  · exact ⟨B, p, hB, hpm, hpt⟩

end Schnek.Props
