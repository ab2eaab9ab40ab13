import Verif.Props.EndToEnd
import Verif.Spec.DiagnosticDeck

/-!
# Members of blocks after the parameters have been evaluated
-/

namespace Schnek.Lemma.DiagDeck

open Schnek.Deck Schnek.Deck.DeckState Schnek.Spec Schnek.Spec.Lexer Schnek.Lemma.Deck Schnek.Lemma.Blocks Schnek.Lemma.DeckText Schnek.Lemma.Scanner
open Schnek.Props
open Schnek.Scanner (Kind Tok Byte bytes bufSize)

variable {F W : Type}

theorem asks_of {classes : List (String × ClassDesc F)} {D : DeckState F W} {k : ℕ} {params : List (ParamSpec F)}
    (h : HasParameters classes D k params) {q : ParamSpec F} (hq : q ∈ params) (hc : q.constant = false) : Asks classes D k q := by
  obtain ⟨B, Bv, d, specs, h1, h2, h3, h4, h5⟩ := h
  exact ⟨B, Bv, d, specs, h1, h2, h3, h4, h5 hq, hc⟩

/-- all entries with the same name have the same value -/
theorem same_value (P : Program F W) (hnames : DistinctNames P.classes) (deck : List (Stmt F)) (D' : DeckState F W)
    (h : P.begin.parse P.host deck = some D') (b : ℕ) (hb : b < D'.tree.blocks.length) (D'' : DeckState F W)
    (he : D'.evaluateParameters P.host b = some D'') (k : ℕ) (q : ParamSpec F) (hk : Below D'.tree b k) (hq : Asks P.classes D' k q)
    (hro : q.readOnly = false) : ∃ val, ∀ B p, D'.tree.blocks[k]? = some B → (q.name, p) ∈ B.params → p.target.map D''.ext = some val := by
  obtain ⟨hmem, heq, hinj⟩ := params_below h b hb
  have hgood : ∀ p ∈ paramsOf D' (D'.tree.visit D'.tree.blocks.length b), Good P.host D' p := by
    intro p hp
    obtain ⟨k, n, -, B, hB, hm⟩ := (hmem p).mp hp
    obtain ⟨_, _, _, -, -, -, -, i5⟩ := param_info hnames h k B hB
    obtain ⟨q, -, -, hq⟩ := i5 n p hm
    exact hq.2.2.1
  obtain ⟨e1, e2⟩ := evalParams_spec P.host D' _ hgood D'.ext
  have hnb : ∀ p ∈ paramsOf D' (D'.tree.visit D'.tree.blocks.length b), ¬ Bad P.host D' p := by
    intro p hp hbad
    have := e1 ⟨p, hp, hbad⟩
    rw [show ({ D' with ext := D'.ext } : DeckState F W) = D' from rfl, ← heq, he] at this
    simp at this
  have hD := e2 hnb
  rw [show ({ D' with ext := D'.ext } : DeckState F W) = D' from rfl, ← heq, he, Option.some.injEq] at hD
  obtain ⟨B, Bv, d, specs, hB, hBv, hd, hf, hqs, hc⟩ := hq
  obtain ⟨Bv', d', specs', i1, i2, i3, i4, i5⟩ := param_info hnames h k B hB
  rw [hBv, Option.some.injEq] at i1
  subst i1
  rw [hd, Option.some.injEq] at i2
  subst i2
  rw [hf, Option.some.injEq] at i3
  subst i3
  obtain ⟨-, -, c3, -⟩ := C59_values_current P deck D' h
  obtain ⟨p0, hp0, -, ⟨Bw, hBw, hpm0⟩, -, x, hx, -, hxro, -⟩ := i4 q hqs
  refine ⟨x.value, ?_⟩
  intro B' p hB' hp
  rw [hB, Option.some.injEq] at hB'
  subst hB'
  obtain ⟨q', hq', hn, h1, h2, -⟩ := i5 q.name p hp
  obtain rfl : q' = q := List.inj_on_of_nodup_map (hnames _ d specs hd hf) hq' hqs hn
  rw [hc, Bool.not_false, Option.isSome_iff_exists] at h1
  obtain ⟨t, ht⟩ := h1
  obtain ⟨Bw', hBw', hpm⟩ := h2
  rw [hBw, Option.some.injEq] at hBw'
  subst hBw'
  have hvp : p.var = p0.var :=
    congrArg Prod.snd (List.inj_on_of_nodup_map ((dinv_after P deck).store.vars _ _ (c3 ▸ hBw)) hpm hpm0 rfl)
  rw [← hvp] at hx
  have hin : p ∈ paramsOf D' (D'.tree.visit D'.tree.blocks.length b) := (hmem p).mpr ⟨k, q'.name, hk, B, hB, hp⟩
  have hres := (foldl_act D' (paramsOf D' (D'.tree.visit D'.tree.blocks.length b)) D'.ext t).2 p hin x ht hx
    (by rw [hxro, hc, hro]; rfl) (by
    intro p' hp' ht'
    obtain ⟨k', n', -, hp'⟩ := (hmem p').mp hp'
    exact (hinj k' n' p' k q'.name p t hp' ⟨B, hB, hp⟩ ht' ht).2.2)
  rw [ht, hD]
  exact congrArg some hres

theorem member_of (P : Program F W) (hnames : DistinctNames P.classes) (deck : List (Stmt F)) (D' : DeckState F W)
    (h : P.begin.parse P.host deck = some D') (b : ℕ) (hb : b < D'.tree.blocks.length) (D'' : DeckState F W)
    (he : D'.evaluateParameters P.host b = some D'') (k : ℕ) (q : ParamSpec F) (hk : Below D'.tree b k) (hq : Asks P.classes D' k q)
    (hro : q.readOnly = false) (t : ℕ) (ht : ProgramVariable D' k q.name t) : member D'' k q.name = some (D''.ext t) := by
  obtain ⟨val, hval⟩ := same_value P hnames deck D' h b hb D'' he k q hk hq hro
  obtain ⟨-, -, -, -, htree, -⟩ := C62_parameters_partial P hnames deck D' h b hb D'' he
  obtain ⟨B, p, hB, hp, hpt⟩ := ht
  have h1 := hval B p hB hp
  rw [hpt, Option.map_some, Option.some.injEq] at h1
  rw [member, htree, hB, Option.bind_some, h1]
  unfold find
  rcases hl : B.params.lookup q.name with _ | p'
  · rw [List.lookup_eq_none_iff] at hl
    exact absurd (hl _ hp) (by simp)
  · rw [Option.bind_some]
    apply hval B p' hB
    obtain ⟨l₁, l₂, hB', -⟩ := List.lookup_eq_some_iff.mp hl
    rw [hB']
    simp

/-- the member has the value that the file gives -/
theorem member_given (P : Program F W) (hnames : DistinctNames P.classes) (text : List Byte) (toks : List Tok) (ending : Ending) (hlex : Lex text 1 toks ending) (deck : List (Stmt F))
    (hdeck : IsDeck P.host.ops toks deck) (D' D'' : DeckState F W) (hread : Parses P.host P.begin text (.ok D')) (b : ℕ)
    (hb : b < D'.tree.blocks.length) (heval : D'.evaluateParameters P.host b = some D'') (k : ℕ) (q : ParamSpec F)
    (hk : Below D'.tree b k) (hq : Asks P.classes D' k q) (hro : q.readOnly = false) (val : Val F) (hg : Gives P deck D' k q.name q.current.ty q.default val) :
    member D'' k q.name = some val := by
  have hparse := parse_of_text P text toks ending hlex _ hdeck D' hread
  obtain ⟨v, hfile, ⟨before, n, g, rest, path, e, x, rfl, hw, hv, hno, hbuild, hconst, hev, hconv⟩ | ⟨hno, hdef⟩⟩ := hg
  · obtain ⟨t, e', ht, hb', h1, -⟩ := C111_assignment P hnames text toks ending hlex before rest n g hdeck D' D'' hread b hb heval path hw v
      hv k q hk hq hro hfile hno
    rw [hbuild, Option.some.injEq] at hb'
    subst hb'
    obtain ⟨x', hx', hc'⟩ := h1 hconst
    rw [hev, Option.some.injEq] at hx'
    subst hx'
    rw [hconv, Option.some.injEq] at hc'
    rw [member_of P hnames _ D' hparse b hb D'' heval k q hk hq hro t ht, hc']
  · obtain ⟨t, d, ht, hd, hd'⟩ := C111_default P hnames text toks ending hlex deck hdeck D' D'' hread b hb heval k q hk hq hro v hfile hno
    rw [hdef, Option.some.injEq] at hd
    rw [member_of P hnames _ D' hparse b hb D'' heval k q hk hq hro t ht, hd', hd]

/-! ## checking examples -/

/-- whether a statement assigns to `v` -/
def assignsTo (D : DeckState F W) (v : ℕ) : Stmt F → Bool
  | .assign n _ => D.store.getVariable D.store.cursor n == some v
  | _ => false

theorem assigns_of_not (P : Program F W) (pre : List (Stmt F)) (s : Stmt F) (v : ℕ) (h : assignsTo (P.after pre) v s = false) :
    ¬ Assigns (P.after pre) s v := by
  rintro ⟨n, e, path, rfl, hw, hr⟩
  have hi := dinv_after P pre
  have := (Lemma.Vars.getVariable_iff hi.store _ hi.store.cursor path n hw v).mpr hr
  simp [assignsTo, this] at h

/-- whether none of the statements `rest`, which follow `before`, assigns to `v` -/
def noneAssigns (P : Program F W) (before rest : List (Stmt F)) (v : ℕ) : Bool :=
  (List.range rest.length).all fun i => match rest[i]? with
    | none => true
    | some s => !assignsTo (P.after (before ++ rest.take i)) v s

theorem none_assigns (P : Program F W) (before rest : List (Stmt F)) (v : ℕ) (h : noneAssigns P before rest v = true) :
    ∀ pre s post, rest = pre ++ s :: post → ¬ Assigns (P.after (before ++ pre)) s v := by
  rintro pre s post rfl
  apply assigns_of_not
  unfold noneAssigns at h
  have := List.all_eq_true.mp h pre.length (List.mem_range.mpr (by simp))
  simpa using this

theorem lastGives_of (P : Program F W) (before : List (Stmt F)) (n : String) (g : Grammar.Expression F) (rest : List (Stmt F)) (v : ℕ) (t : Ty)
    (val : Val F) (hn : Written ':' [n] n) (hv : (P.after before).store.getVariable (P.after before).store.cursor n = some v)
    (hr : noneAssigns P (before ++ [.assign n g]) rest v = true)
    (hval : ((g.build ((P.after before).env P.host)).bind fun e => if e.isConstant (P.after before).state then
      (e.eval P.host.ops (P.after before).state).bind (convert P.host.ops t) else none) = some val) :
    LastGives P (before ++ .assign n g :: rest) v t val := by
  obtain ⟨e, he, hval⟩ := Option.bind_eq_some_iff.mp hval
  split at hval
  · rename_i hc
    obtain ⟨x, hx, hval⟩ := Option.bind_eq_some_iff.mp hval
    have hi := dinv_after P before
    refine ⟨before, n, g, rest, [n], e, x, rfl, hn, (Lemma.Vars.getVariable_iff hi.store _ hi.store.cursor [n] n hn v).mp hv, ?_, he, hc, hx, hval⟩
    intro pre s post hpre
    rw [show before ++ .assign n g :: pre = (before ++ [.assign n g]) ++ pre by simp]
    exact none_assigns P _ rest v hr pre s post hpre
  · cases hval

end Schnek.Lemma.DiagDeck
