import Verif.Lemma.DiagnosticDeck
import Verif.Props.FileDiagnostic

/-!
# C148: the setup file decides what a diagnostic writes, and when
-/

namespace Schnek.Props

open Schnek.Deck Schnek.Deck.DeckState Schnek.Spec Schnek.Spec.Lexer Schnek.Lemma.DiagDeck Schnek.Diagnostic
open Schnek.Scanner (Kind Tok Byte bytes bufSize)

variable {F W : Type}

theorem member_configured {P : Program F W} (hnames : DistinctNames P.classes) {text : List Byte} {deck : List (Stmt F)} {b : ℕ}
    {D D' : DeckState F W} (hc : Configured P text deck b D D') {k : ℕ} (hk : Below D.tree b k) {params : List (ParamSpec F)}
    (hp : HasParameters P.classes D k params) (q : ParamSpec F) (hq : q ∈ params) (hcq : q.constant = false) (hro : q.readOnly = false)
    {val : Val F} (hg : Gives P deck D k q.name q.current.ty q.default val) : member D' k q.name = some val := by
  obtain ⟨toks, ending, hlex, hdeck⟩ := hc.statements
  exact member_given P hnames text toks ending hlex deck hdeck D D' hc.read b hc.block hc.evaluated k q hk (asks_of hp hq hcq) hro val hg

/-- C148. An interval diagnostic that is a block of the setup file has the file name, the interval and the choice to append that the
file gives. -/
theorem C148_interval (P : Program F W) (hnames : DistinctNames P.classes) (text : List Byte) (deck : List (Stmt F)) (b : ℕ)
    (D D' : DeckState F W) (hc : Configured P text deck b D D') (k : ℕ) (hk : Below D.tree b k)
    (hp : HasParameters P.classes D k intervalParams) (name : String) (a i : ℤ) (hf : Gives P deck D k "file" .str none (.str name))
    (ha : Gives P deck D k "append" .int (some (.int 0)) (.int a)) (hi : Gives P deck D k "interval" .int (some (.int 100)) (.int i)) (single : Bool) :
    intervalOf single D' k = some ⟨⟨name.toList, a ≠ 0, single, true⟩, i⟩ := by
  have h1 := member_configured hnames hc hk hp fileParam (by simp [intervalParams, interfaceParams]) rfl rfl hf
  have h2 := member_configured hnames hc hk hp appendParam (by simp [intervalParams, interfaceParams]) rfl rfl ha
  have h3 := member_configured hnames hc hk hp intervalParam (by simp [intervalParams, interfaceParams]) rfl rfl hi
  unfold intervalOf
  rw [show member D' k "file" = _ from h1, show member D' k "append" = _ from h2, show member D' k "interval" = _ from h3]

/-- C148. A physical time diagnostic that is a block of the setup file has the file name, the choice to append, the time between outputs and the time of
the first output that the file gives; its files are counted from 0. -/
theorem C148_delta (P : Program F W) (hnames : DistinctNames P.classes) (text : List Byte) (deck : List (Stmt F)) (b : ℕ)
    (D D' : DeckState F W) (hc : Configured P text deck b D D') (k : ℕ) (hk : Below D.tree b k)
    (hp : HasParameters P.classes D k (deltaParams P.host.ops)) (name : String) (a : ℤ) (dt delay : F)
    (hf : Gives P deck D k "file" .str none (.str name)) (ha : Gives P deck D k "append" .int (some (.int 0)) (.int a))
    (ht : Gives P deck D k "deltaTime" .float (some (.float (P.host.ops.ofInt 1))) (.float dt)) (hd : Gives P deck D k "delay" .float (some (.float (P.host.ops.ofInt 0))) (.float delay))
    (single : Bool) : deltaOf single D' k = some ⟨⟨name.toList, a ≠ 0, single, true⟩, dt, delay, 0⟩ := by
  have h1 := member_configured hnames hc hk hp fileParam (by simp [deltaParams, interfaceParams]) rfl rfl hf
  have h2 := member_configured hnames hc hk hp appendParam (by simp [deltaParams, interfaceParams]) rfl rfl ha
  have h3 := member_configured hnames hc hk hp (deltaTimeParam P.host.ops) (by simp [deltaParams, interfaceParams]) rfl rfl ht
  have h4 := member_configured hnames hc hk hp (delayParam P.host.ops) (by simp [deltaParams, interfaceParams]) rfl rfl hd
  unfold deltaOf
  rw [show member D' k "file" = _ from h1, show member D' k "append" = _ from h2, show member D' k "deltaTime" = _ from h3,
    show member D' k "delay" = _ from h4]

/-- C148. A setup file that gives a file name and an interval other than 0 to an interval diagnostic: at each step that is a multiple of the interval, and at
the final step, the diagnostic writes the text of the field to the file with this name, in which the placeholders are replaced; it writes nothing else. -/
theorem C148_separate (P : Program F W) (hnames : DistinctNames P.classes) (text : List Byte) (deck : List (Stmt F)) (b : ℕ)
    (D D' : DeckState F W) (hc : Configured P text deck b D D') (k : ℕ) (hk : Below D.tree b k)
    (hp : HasParameters P.classes D k intervalParams) (name : String) (i : ℤ) (hf : Gives P deck D k "file" .str none (.str name))
    (ha : Gives P deck D k "append" .int (some (.int 0)) (.int 0)) (hi : Gives P deck D k "interval" .int (some (.int 100)) (.int i)) (hi0 : i ≠ 0) (single master : Bool)
    (hs : single = true → master = true) (rank : ℤ) (steps : List (ℤ × List Char)) (disk : Disk) :
    ∃ d calls, intervalOf single D' k = some d ∧ intervalCalls d master rank steps = some calls ∧ ∀ l, IsRunOf l calls →
      (runActions l .new disk).1.file = none ∧ (runActions l .new disk).2 = written disk
        ((steps.filter fun p => p.1 < 0 ∨ i ∣ p.1).map fun p => (parsedFileName name.toList rank p.1, p.2)) := by
  have h1 := C148_interval P hnames text deck b D D' hc k hk hp name 0 i hf ha hi single
  obtain ⟨calls, h2, h3⟩ := C115_separate ⟨⟨name.toList, (0 : ℤ) ≠ 0, single, true⟩, i⟩ master rank steps hi0 (by simp) hs .new disk rfl
  exact ⟨_, calls, h1, h2, h3⟩

/-- C148, partial. If the file also tells the diagnostic to append, and the run begins at step 0, which is not repeated, then the texts of all these steps are in one file.
What is missing: other runs, see `C115_violated_again`, `C115_violated_restart` and `C115_violated_parallel`. -/
theorem C148_append_partial (P : Program F W) (hnames : DistinctNames P.classes) (text : List Byte) (deck : List (Stmt F)) (b : ℕ)
    (D D' : DeckState F W) (hc : Configured P text deck b D D') (k : ℕ) (hk : Below D.tree b k)
    (hp : HasParameters P.classes D k intervalParams) (name : String) (a i : ℤ) (hf : Gives P deck D k "file" .str none (.str name))
    (ha : Gives P deck D k "append" .int (some (.int 0)) (.int a)) (ha0 : a ≠ 0) (hi : Gives P deck D k "interval" .int (some (.int 100)) (.int i)) (hi0 : i ≠ 0)
    (single master : Bool) (hs : single = true → master = true) (rank : ℤ) (text0 : List Char) (steps : List (ℤ × List Char))
    (h0 : ∀ p ∈ steps, p.1 ≠ 0) (disk : Disk) :
    ∃ d calls, intervalOf single D' k = some d ∧ intervalCalls d master rank ((0, text0) :: steps) = some calls ∧ ∀ l, IsRunOf l calls →
      (runActions l .new disk).1.destroy (runActions l .new disk).2 =
        Function.update disk name.toList (some (text0 ++ ((steps.filter fun p => p.1 < 0 ∨ i ∣ p.1).map Prod.snd).flatten)) := by
  have h1 := C148_interval P hnames text deck b D D' hc k hk hp name a i hf ha hi single
  obtain ⟨calls, h2, h3⟩ := C115_append_partial ⟨⟨name.toList, a ≠ 0, single, true⟩, i⟩ master rank text0 steps hi0 (by simp [ha0]) hs h0
    .new disk rfl
  exact ⟨_, calls, h1, h2, h3⟩

/-- C148. A diagnostic that is given no file name by the setup file: evaluating the parameters fails. -/
theorem C148_no_name (P : Program F W) (hnames : DistinctNames P.classes) (text : List Byte) (deck : List (Stmt F)) (b : ℕ)
    (D D' : DeckState F W) (k : ℕ) (hk : Below D.tree b k)
    (hp : HasParameters P.classes D k interfaceParams) (v : ℕ) (hv : FileVariable D k "file" v)
    (hno : ∀ pre s post, deck = pre ++ s :: post → ¬ Assigns (P.after pre) s v) : ¬ Configured P text deck b D D' := by
  intro hc
  obtain ⟨toks, ending, hlex, hdeck⟩ := hc.statements
  obtain ⟨t, d, -, hd, -⟩ := C111_default P hnames text toks ending hlex deck hdeck D D' hc.read b hc.block hc.evaluated k fileParam hk
    (asks_of hp (by simp [interfaceParams]) rfl) rfl v hv hno
  cases hd

/-- C148. A diagnostic holds the field with the name that the setup file gives: the one that its block sees under this name, when it sees exactly
one. Otherwise an exception is thrown. -/
theorem C148_field (P : Program F W) (hnames : DistinctNames P.classes) (text : List Byte) (deck : List (Stmt F)) (b : ℕ)
    (D D' : DeckState F W) (hc : Configured P text deck b D D') (k : ℕ) (hk : Below D.tree b k) (base : List (ParamSpec F))
    (hp : HasParameters P.classes D k (simpleParams base)) (name : String) (hf : Gives P deck D k "field" .str none (.str name))
    (path : List String) (hw : Written '.' path name) {α : Type} (data : ℕ → List String → Option α) (d : α) :
    fieldOf data D' k = some d ↔ ∃ l : Place, (∀ l', Sees D.tree data path k l' ↔ l' = l) ∧ data l.1 l.2 = some d := by
  obtain ⟨toks, ending, hlex, hdeck⟩ := hc.statements
  have hparse := parse_of_text P text toks ending hlex deck hdeck D hc.read
  obtain ⟨-, -, -, -, htree, -⟩ := C62_parameters_partial P hnames deck D hparse b hc.block D' hc.evaluated
  obtain ⟨-, -, -, c4, -⟩ := C59_values_current P deck D hparse
  have h1 := member_configured hnames hc hk hp fieldParam (by simp [simpleParams]) rfl rfl hf
  have hkb : k < (P.after deck).tree.blocks.length := by
    obtain ⟨B, _, _, _, hB, -⟩ := hp
    rw [← c4]
    exact (List.getElem?_eq_some_iff.mp hB).1
  unfold fieldOf
  rw [show member D' k "field" = _ from h1]
  simp only
  rw [htree, c4, Lemma.Vars.splitName_written '.' path name hw]
  exact C44_retrieve P deck data k hkb path d

/-- C148 is violated for the interval 0, which is not rejected: at every step that is not negative the remainder of a division by 0 is taken, which is
undefined behaviour. -/
theorem C148_violated_zero (P : Program F W) (hnames : DistinctNames P.classes) (text : List Byte) (deck : List (Stmt F)) (b : ℕ)
    (D D' : DeckState F W) (hc : Configured P text deck b D D') (k : ℕ) (hk : Below D.tree b k)
    (hp : HasParameters P.classes D k intervalParams) (name : String) (a : ℤ) (hf : Gives P deck D k "file" .str none (.str name))
    (ha : Gives P deck D k "append" .int (some (.int 0)) (.int a)) (hi : Gives P deck D k "interval" .int (some (.int 100)) (.int 0)) (rank t : ℤ) (ht : 0 ≤ t) :
    ∃ d, intervalOf false D' k = some d ∧ ∀ master, d.execute master rank t = none := by
  refine ⟨_, C148_interval P hnames text deck b D D' hc k hk hp name a 0 hf ha hi false, ?_⟩
  intro master
  unfold Interval.execute
  rw [if_neg (by simp), if_neg (by omega), if_pos rfl]

/-! ## all diagnostics of a simulation -/

section simulation

variable [Field F] [LinearOrder F] [IsStrictOrderedRing F]

/-- C148. In a simulation all interval diagnostics of the setup file are executed at each step, with what the file gives to them. -/
theorem C148_simulation (P : Program F W) (hnames : DistinctNames P.classes) (text : List Byte) (deck : List (Stmt F)) (b : ℕ)
    (D D' : DeckState F W) (hc : Configured P text deck b D D') (k : ℕ) (hk : Below D.tree b k)
    (hp : HasParameters P.classes D k intervalParams) (name : String) (a i : ℤ) (hf : Gives P deck D k "file" .str none (.str name))
    (ha : Gives P deck D k "append" .int (some (.int 0)) (.int a)) (hi : Gives P deck D k "interval" .int (some (.int 100)) (.int i)) (kind : String → Option Bool)
    (single : ℕ → Bool) (hkind : (classOf D' k).bind kind = some true) (M : Manager F) (t : ℤ) (now : F) (dts : List F)
    (log : List (Entry F)) (hlog : simulate (managerOf kind single M D') t now dts = some log) :
    ∃ j : ℕ, log.map Entry.step = (List.range dts.length).map (fun n : ℕ => t + n) ∧
      callsFor ⟨⟨name.toList, a ≠ 0, single k, true⟩, i⟩ M.master M.rank (log.map Entry.step) =
        some (log.flatMap fun e => e.intervals[j]?.getD []) := by
  have h1 := C148_interval P hnames text deck b D D' hc k hk hp name a i hf ha hi (single k)
  have hlt : k < D'.tree.blocks.length := by
    unfold classOf at hkind
    rcases hB : D'.tree.blocks[k]? with _ | B
    · rw [hB] at hkind; cases hkind
    · exact (List.getElem?_eq_some_iff.mp hB).1
  have hmem : (⟨⟨name.toList, a ≠ 0, single k, true⟩, i⟩ : Interval) ∈ (managerOf kind single M D').intervals :=
    List.mem_filterMap.mpr ⟨k, List.mem_range.mpr hlt, by rw [if_pos hkind]; exact h1⟩
  obtain ⟨j, hj⟩ := List.mem_iff_getElem?.mp hmem
  obtain ⟨h2, h3⟩ := C46_simulation (managerOf kind single M D') t now dts log hlog j _ hj
  exact ⟨j, h2, h3⟩

/-- C148, partial. In a simulation that follows `adjustDeltaT` the physical time diagnostics of the setup file write at the times that the file gives:
`delay`, `delay + deltaTime`, and so on. What is missing: rounding (C122), and simulations that start after `delay` (`C47_violated_restart`). -/
theorem C148_simulation_delta_partial (P : Program F W) (hnames : DistinctNames P.classes) (text : List Byte) (deck : List (Stmt F)) (b : ℕ)
    (D D' : DeckState F W) (hc : Configured P text deck b D D') (k : ℕ) (hk : Below D.tree b k)
    (hp : HasParameters P.classes D k (deltaParams P.host.ops)) (name : String) (a : ℤ) (dt delay : F)
    (hf : Gives P deck D k "file" .str none (.str name)) (ha : Gives P deck D k "append" .int (some (.int 0)) (.int a))
    (ht : Gives P deck D k "deltaTime" .float (some (.float (P.host.ops.ofInt 1))) (.float dt)) (hd : Gives P deck D k "delay" .float (some (.float (P.host.ops.ofInt 0))) (.float delay))
    (hdt : 0 < dt) (kind : String → Option Bool) (single : ℕ → Bool) (hkind : (classOf D' k).bind kind = some false) (M : Manager F)
    (hs : single k = true → M.master = true) (t : ℤ) (now : F) (hnow : 0 ≤ now) (hdelay : now ≤ delay) (dts : List F)
    (hpos : ∀ x ∈ dts, 0 < x) (log : List (Entry F)) (hlog : simulate (managerOf kind single M D') t now dts = some log) :
    ∃ j m : ℕ, writeTimes j log = (List.range m).map (fun n : ℕ => delay + (n : F) * dt) ∧
      ∀ n : ℕ, n < m ↔ ∃ e ∈ log, delay + (n : F) * dt ≤ e.now := by
  have h1 := C148_delta P hnames text deck b D D' hc k hk hp name a dt delay hf ha ht hd (single k)
  have hlt : k < D'.tree.blocks.length := by
    unfold classOf at hkind
    rcases hB : D'.tree.blocks[k]? with _ | B
    · rw [hB] at hkind; cases hkind
    · exact (List.getElem?_eq_some_iff.mp hB).1
  have hmem : (⟨⟨name.toList, a ≠ 0, single k, true⟩, dt, delay, 0⟩ : Delta F) ∈ (managerOf kind single M D').deltas :=
    List.mem_filterMap.mpr ⟨k, List.mem_range.mpr hlt, by rw [if_pos hkind]; exact h1⟩
  obtain ⟨j, hj⟩ := List.mem_iff_getElem?.mp hmem
  obtain ⟨m, h2, h3⟩ := C47_times_partial (managerOf kind single M D') t now dts log hlog j _ hj hdt hnow hdelay hs hpos
  exact ⟨j, m, h2, h3⟩

end simulation

/-! ## an example -/

/-- a program with an interval diagnostic and a physical time diagnostic -/
def diagProgram : Program ℚ Unit :=
  { textProgram with
    classes := [("Root", ⟨[], some []⟩), ("D", ⟨[], some (simpleParams intervalParams)⟩),
      ("T", ⟨[], some (simpleParams (deltaParams textProgram.host.ops))⟩)] }

theorem diagProgram_names : DistinctNames diagProgram.classes := by
  intro c d specs h hf
  simp only [diagProgram, List.lookup_cons] at h
  split at h
  · rw [Option.some.injEq] at h; subst h; rw [Option.some.injEq] at hf; subst hf; decide
  · split at h
    · rw [Option.some.injEq] at h; subst h; rw [Option.some.injEq] at hf; subst hf
      simp [simpleParams, fieldParam, intervalParams, interfaceParams, fileParam, appendParam, intervalParam]
    · split at h
      · rw [Option.some.injEq] at h; subst h; rw [Option.some.injEq] at hf; subst hf
        simp [simpleParams, fieldParam, deltaParams, interfaceParams, fileParam, appendParam, deltaTimeParam, delayParam]
      · simp at h

/-- a setup file with both -/
def diagText : List Byte :=
  bytes "int n = 2;\nD a { file = \"o#t\"; field = \"f\"; interval = n; }\nT { file = \"p#t\"; field = \"g\"; deltaTime = 3; }\n"

/-- its tokens -/
def diagTokens : List (List Tok) :=
  [[⟨1, .intDecl, []⟩, ⟨1, .identifier, bytes "n"⟩, ⟨1, .equal, []⟩, ⟨1, .integer, bytes "2"⟩, ⟨1, .semicolon, []⟩],
   [⟨2, .identifier, bytes "D"⟩, ⟨2, .identifier, bytes "a"⟩, ⟨2, .lbrace, []⟩],
   [⟨2, .identifier, bytes "file"⟩, ⟨2, .equal, []⟩, ⟨2, .string, bytes "o#t"⟩, ⟨2, .semicolon, []⟩],
   [⟨2, .identifier, bytes "field"⟩, ⟨2, .equal, []⟩, ⟨2, .string, bytes "f"⟩, ⟨2, .semicolon, []⟩],
   [⟨2, .identifier, bytes "interval"⟩, ⟨2, .equal, []⟩, ⟨2, .identifier, bytes "n"⟩, ⟨2, .semicolon, []⟩],
   [⟨2, .rbrace, []⟩],
   [⟨3, .identifier, bytes "T"⟩, ⟨3, .lbrace, []⟩],
   [⟨3, .identifier, bytes "file"⟩, ⟨3, .equal, []⟩, ⟨3, .string, bytes "p#t"⟩, ⟨3, .semicolon, []⟩],
   [⟨3, .identifier, bytes "field"⟩, ⟨3, .equal, []⟩, ⟨3, .string, bytes "g"⟩, ⟨3, .semicolon, []⟩],
   [⟨3, .identifier, bytes "deltaTime"⟩, ⟨3, .equal, []⟩, ⟨3, .integer, bytes "3"⟩, ⟨3, .semicolon, []⟩],
   [⟨3, .rbrace, []⟩]]

/-- a string literal -/
def strLit (s : String) : Grammar.Expression ℚ := .one (.one (.one (.one (.lit (.str s)))))

/-- its statements -/
def diagDeck : List (Stmt ℚ) :=
  [.decl .int [("n", some (lit 2))], .start "D" "a", .assign "file" (strLit "o#t"), .assign "field" (strLit "f"), .assign "interval" (ident "n"),
    .stop, .start "T" "T", .assign "file" (strLit "p#t"), .assign "field" (strLit "g"), .assign "deltaTime" (lit 3), .stop]

theorem diag_scan : Scanner.Returns bufSize diagText (.ok diagTokens.flatten) := ⟨(by intro c h; cases h), 4000, by decide +kernel⟩

theorem diag_deck : IsDeck diagProgram.host.ops diagTokens.flatten diagDeck := by
  refine ⟨by simp [diagDeck], diagTokens, rfl, ?_⟩
  refine .cons ⟨_, ?_, .decl .int _ (by simp)⟩ (.cons ⟨_, ?_, .start "D" "a"⟩ (.cons ⟨_, ?_, .assign _ _⟩ (.cons ⟨_, ?_, .assign _ _⟩
    (.cons ⟨_, ?_, .assign _ _⟩ (.cons ⟨_, ?_, .stop⟩ (.cons ⟨_, ?_, .startClass "T"⟩ (.cons ⟨_, ?_, .assign _ _⟩ (.cons ⟨_, ?_, .assign _ _⟩
    (.cons ⟨_, ?_, .assign _ _⟩ (.cons ⟨_, ?_, .stop⟩ .nil))))))))))
  all_goals rfl

/-- The hypotheses of `C148_separate`, `C148_simulation` (block 1) and `C148_simulation_delta_partial` (block 2) are met by this file. -/
example : ∃ D D', Configured diagProgram diagText diagDeck 0 D D' ∧ Below D.tree 0 1 ∧ HasParameters diagProgram.classes D 1 intervalParams ∧
    Gives diagProgram diagDeck D 1 "file" .str none (.str "o#t") ∧ Gives diagProgram diagDeck D 1 "append" .int (some (.int 0)) (.int 0) ∧
    Gives diagProgram diagDeck D 1 "interval" .int (some (.int 100)) (.int 2) ∧
    Below D.tree 0 2 ∧ HasParameters diagProgram.classes D 2 (deltaParams diagProgram.host.ops) ∧
    Gives diagProgram diagDeck D 2 "file" .str none (.str "p#t") ∧ Gives diagProgram diagDeck D 2 "append" .int (some (.int 0)) (.int 0) ∧
    Gives diagProgram diagDeck D 2 "deltaTime" .float (some (.float 1)) (.float 3) ∧
    Gives diagProgram diagDeck D 2 "delay" .float (some (.float 0)) (.float 0) ∧
    classOf D' 1 = some "D" ∧ classOf D' 2 = some "T" := by
  obtain ⟨hfit, e, hlex⟩ := lex_of_run (line := 1) (.inl diag_scan)
  have hs : (diagProgram.begin.parse diagProgram.host diagDeck).bind (fun D => (D.evaluateParameters diagProgram.host 0).bind
      fun E => D.tree.blocks[1]?.bind fun B => D.store.blocks[B.context]?.bind fun Bv =>
        D.tree.blocks[2]?.bind fun C => D.store.blocks[C.context]?.bind fun Cv =>
        some (decide (classOf E 1 = some "D") && (decide (classOf E 2 = some "T") && (decide (Bv.className = "D") &&
          (decide (Cv.className = "T") && (decide (Bv.vars = [("file", 1), ("append", 2), ("interval", 3), ("field", 4)]) &&
          (decide (Cv.vars = [("file", 5), ("append", 6), ("deltaTime", 7), ("delay", 8), ("field", 9)]) &&
          (decide (B.parent = some 0) && decide (C.parent = some 0))))))))) = some true := by decide +kernel
  obtain ⟨D, hp, hs⟩ := Option.bind_eq_some_iff.mp hs
  obtain ⟨D', he, hs⟩ := Option.bind_eq_some_iff.mp hs
  obtain ⟨B, hB, hs⟩ := Option.bind_eq_some_iff.mp hs
  obtain ⟨Bv, hBv, hs⟩ := Option.bind_eq_some_iff.mp hs
  obtain ⟨C, hC, hs⟩ := Option.bind_eq_some_iff.mp hs
  obtain ⟨Cv, hCv, hs⟩ := Option.bind_eq_some_iff.mp hs
  simp only [Option.some.injEq, Bool.and_eq_true, decide_eq_true_iff] at hs
  obtain ⟨s1, s2, s3, s4, s5, s6, s7, s8⟩ := hs
  have hfileB : ∀ n v, (n, v) ∈ [("file", 1), ("append", 2), ("interval", 3), ("field", 4)] → FileVariable D 1 n v :=
    fun n v hm => ⟨B, hB, Bv, hBv, by rw [s5]; exact hm⟩
  have hfileC : ∀ n v, (n, v) ∈ [("file", 5), ("append", 6), ("deltaTime", 7), ("delay", 8), ("field", 9)] → FileVariable D 2 n v :=
    fun n v hm => ⟨C, hC, Cv, hCv, by rw [s6]; exact hm⟩
  refine ⟨D, D', ⟨⟨_, e, hlex, diag_deck⟩, (C95_accepted_iff_partial _ _ _ _ hfit _ e hlex (.inl (by decide))).2
      ⟨_, diag_deck, hp⟩, ?_, he⟩, .single ⟨B, hB, s7⟩,
      ⟨B, Bv, _, _, hB, hBv, by rw [s3]; rfl, rfl, List.subset_append_left _ _⟩, ?_, ?_, ?_, .single ⟨C, hC, s8⟩,
      ⟨C, Cv, _, _, hC, hCv, by rw [s4]; rfl, rfl, List.subset_append_left _ _⟩, ?_, ?_, ?_, ?_, s1, s2⟩
  · exact lt_trans Nat.zero_lt_one (List.getElem?_eq_some_iff.mp hB).1
  · exact ⟨1, hfileB _ _ (by decide), .inl (lastGives_of diagProgram (diagDeck.take 2) "file" (strLit "o#t") (diagDeck.drop 3) 1 .str _
      ⟨rfl, by simp, by decide⟩ (by decide +kernel) (by decide +kernel) (by decide +kernel))⟩
  · exact ⟨2, hfileB _ _ (by decide), .inr ⟨none_assigns diagProgram [] diagDeck 2 (by decide +kernel), rfl⟩⟩
  · exact ⟨3, hfileB _ _ (by decide), .inl (lastGives_of diagProgram (diagDeck.take 4) "interval" (ident "n") (diagDeck.drop 5) 3 .int _
      ⟨rfl, by simp, by decide⟩ (by decide +kernel) (by decide +kernel) (by decide +kernel))⟩
  · exact ⟨5, hfileC _ _ (by decide), .inl (lastGives_of diagProgram (diagDeck.take 7) "file" (strLit "p#t") (diagDeck.drop 8) 5 .str _
      ⟨rfl, by simp, by decide⟩ (by decide +kernel) (by decide +kernel) (by decide +kernel))⟩
  · exact ⟨6, hfileC _ _ (by decide), .inr ⟨none_assigns diagProgram [] diagDeck 6 (by decide +kernel), rfl⟩⟩
  · exact ⟨7, hfileC _ _ (by decide), .inl (lastGives_of diagProgram (diagDeck.take 9) "deltaTime" (lit 3) (diagDeck.drop 10) 7 .float _
      ⟨rfl, by simp, by decide⟩ (by decide +kernel) (by decide +kernel) (by decide +kernel))⟩
  · exact ⟨8, hfileC _ _ (by decide), .inr ⟨none_assigns diagProgram [] diagDeck 8 (by decide +kernel), by decide +kernel⟩⟩

/-- The hypotheses of `C148_field` are met by the same file and block 1, with the data `'f'` that the outermost block has registered as `f`; this is what is
found. -/
example : ∃ D D', Configured diagProgram diagText diagDeck 0 D D' ∧ Below D.tree 0 1 ∧
    HasParameters diagProgram.classes D 1 (simpleParams intervalParams) ∧ Gives diagProgram diagDeck D 1 "field" .str none (.str "f") ∧
    Written '.' ["f"] "f" ∧ fieldOf (addData (fun _ _ => none) 0 ["f"] 'f') D' 1 = some 'f' := by
  obtain ⟨hfit, e, hlex⟩ := lex_of_run (line := 1) (.inl diag_scan)
  have hs : (diagProgram.begin.parse diagProgram.host diagDeck).bind (fun D => (D.evaluateParameters diagProgram.host 0).bind
      fun E => D.tree.blocks[1]?.bind fun B => D.store.blocks[B.context]?.bind fun Bv =>
        some (decide (fieldOf (addData (fun _ _ => none) 0 ["f"] 'f') E 1 = some 'f') && (decide (Bv.className = "D") &&
          (decide (Bv.vars = [("file", 1), ("append", 2), ("interval", 3), ("field", 4)]) && decide (B.parent = some 0))))) = some true := by
    decide +kernel
  obtain ⟨D, hp, hs⟩ := Option.bind_eq_some_iff.mp hs
  obtain ⟨D', he, hs⟩ := Option.bind_eq_some_iff.mp hs
  obtain ⟨B, hB, hs⟩ := Option.bind_eq_some_iff.mp hs
  obtain ⟨Bv, hBv, hs⟩ := Option.bind_eq_some_iff.mp hs
  simp only [Option.some.injEq, Bool.and_eq_true, decide_eq_true_iff] at hs
  obtain ⟨s1, s2, s3, s4⟩ := hs
  refine ⟨D, D', ⟨⟨_, e, hlex, diag_deck⟩, (C95_accepted_iff_partial _ _ _ _ hfit _ e hlex (.inl (by decide))).2
      ⟨_, diag_deck, hp⟩, ?_, he⟩, .single ⟨B, hB, s4⟩, ⟨B, Bv, _, _, hB, hBv, by rw [s2]; rfl, rfl, fun _ h => h⟩, ?_,
      ⟨rfl, by simp, by decide⟩, s1⟩
  · exact lt_trans Nat.zero_lt_one (List.getElem?_eq_some_iff.mp hB).1
  · exact ⟨4, ⟨B, hB, Bv, hBv, by rw [s3]; decide⟩, .inl (lastGives_of diagProgram (diagDeck.take 3) "field" (strLit "f") (diagDeck.drop 4) 4 .str _
      ⟨rfl, by simp, by decide⟩ (by decide +kernel) (by decide +kernel) (by decide +kernel))⟩

/-- The conclusion for these diagnostics, steps 0, 1, 2: the files `o0` and `o2` are written. -/
example : (([(0, ['a']), (1, ['b']), (2, ['c'])] : List (ℤ × List Char)).filter fun p => p.1 < 0 ∨ (2 : ℤ) ∣ p.1).map
    (fun p => (parsedFileName "o#t".toList 0 p.1, p.2)) = [("o0".toList, ['a']), ("o2".toList, ['c'])] := by decide +kernel

end Schnek.Props
