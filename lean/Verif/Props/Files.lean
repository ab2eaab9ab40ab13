import Verif.Lemma.Files
import Verif.Lemma.ParamDefault
import Verif.Props.Blocks

/-!
# C130, C131: the program's variables while files are read, and several files read with one parser
-/

namespace Schnek.Props

open Schnek.Deck Schnek.Spec Schnek.Lemma.Deck Schnek.Lemma.Files Schnek.Lemma.Blocks Relation DeckState

variable {F W : Type}

/-! ## the program's variables -/

/-- **C130** At any point while a file is read, and after an error: the members of blocks that are registered as parameters have the values they
had when the block was made, except that read-only parameters have been set to their default if they have one. -/
theorem C130_reading (P : Program F W) (hnames : DistinctNames P.classes) (deck : List (Stmt F)) (k : ℕ) (q : ParamSpec F) (t : ℕ)
    (hq : Asks P.classes (P.after deck) k q) (ht : ProgramVariable (P.after deck) k q.name t) :
    (P.after deck).ext t = if q.readOnly = true then q.default.getD q.current else q.current := by
  obtain ⟨B, Bv, d, specs, hB, hBv, hd, hf, hqs, -⟩ := hq
  obtain ⟨B', p, hB', hp, hpt⟩ := ht
  rw [hB, Option.some.injEq] at hB'
  subst hB'
  obtain ⟨Bv', d', specs', h1, h2, h3, h4⟩ := (einv_after P deck).2 k B hB
  rw [hBv, Option.some.injEq] at h1
  subst h1
  rw [hd, Option.some.injEq] at h2
  subst h2
  rw [hf, Option.some.injEq] at h3
  subst h3
  obtain ⟨q', f1, f2, -, f4⟩ := h4 _ p t hp hpt
  obtain rfl : q' = q := List.inj_on_of_nodup_map (hnames _ d specs hd hf) f1 hqs f2
  exact f4

/-- **C130** The same after the file has been read. (C62 describes what `evaluateParameters` does then.) -/
theorem C130_read (P : Program F W) (hnames : DistinctNames P.classes) (deck : List (Stmt F)) (D' : DeckState F W)
    (h : P.begin.parse P.host deck = some D') (k : ℕ) (q : ParamSpec F) (t : ℕ) (hq : Asks P.classes D' k q)
    (ht : ProgramVariable D' k q.name t) : D'.ext t = if q.readOnly = true then q.default.getD q.current else q.current := by
  obtain ⟨-, -, h3, h4, -, h6⟩ := C59_values_current P deck D' h
  have hq' : Asks P.classes (P.after deck) k q := by
    unfold Asks at hq ⊢
    rw [h3, h4] at hq
    exact hq
  have ht' : ProgramVariable (P.after deck) k q.name t := by
    unfold ProgramVariable at ht ⊢
    rw [h4] at ht
    exact ht
  rw [h6 t, C130_reading P hnames deck k q t hq' ht']
  obtain ⟨B, p, hB, hp, hpt⟩ := ht'
  obtain ⟨_, _, _, -, -, -, g⟩ := (einv_after P deck).2 k B hB
  obtain ⟨-, -, -, g, -⟩ := g _ p t hp hpt
  exact g

/-- The hypotheses of C130 are met: `size = 2; A a { n = 3; } b = 4;` is rejected in the last statement; the members `size` and `n` of the
program have their old values. -/
example : ¬ exampleProgram.Accepts [.assign "size" (lit 2), .start "A" "a", .assign "n" (lit 3), .stop, .assign "b" (lit 4)] ∧
    (let D := exampleProgram.after [.assign "size" (lit 2), .start "A" "a", .assign "n" (lit 3), .stop, .assign "b" (lit 4)]
     D.tree.blocks.map (fun B => B.params.map fun p => (p.1, p.2.target)) = [[("size", some 0), ("t", some 1)], [("n", some 2)]] ∧
     (D.ext 0, D.ext 1, D.ext 2) = (.int 7, .int 5, .int 0) ∧
     D.heap.map Variable.value = [.int 2, .int 0, .int 3]) := by
  constructor
  · show ¬ (_ = true)
    decide +kernel
  · decide +kernel

/-! ## several files -/

/-- **C131** A file is reported as accepted exactly if its statements are executed without error and the variables can be evaluated at its end; what
is then in the parser is the result of `parse`. Otherwise the parser is left where the first error occurred. -/
theorem C131_result (P : Program F W) (previous : List (List (Stmt F))) (file : List (Stmt F)) (D : DeckState F W) :
    ((P.beginNext previous).readFile P.host file = (true, D) ↔ (P.beginNext previous).parse P.host file = some D) ∧
    ((P.beginNext previous).parse P.host file = none → (P.beginNext previous).readFile P.host file = (false, P.afterNext previous file)) := by
  unfold readFile DeckState.parse Program.afterNext
  rcases (P.beginNext previous).run P.host file with ⟨_ | _, D'⟩
  · simp
  · rcases h : D'.finish P.host with _ | D'' <;> simp [h]

/-- **C131** What an earlier file has declared stays declared when further files are read, in the same block, with the same name and type. If it
is read-only it keeps its definition, and its value if that is a constant. -/
theorem C131_kept (P : Program F W) (previous : List (List (Stmt F))) (file : List (Stmt F)) (more : List (List (Stmt F)))
    (deck : List (Stmt F)) (b : ℕ) (n : String) (v : ℕ) (hv : Declares (P.afterNext previous file).store b n v) (x : Variable F W)
    (hx : (P.afterNext previous file).heap[v]? = some x) :
    Declares (P.afterNext (previous ++ file :: more) deck).store b n v ∧
    ∃ x', (P.afterNext (previous ++ file :: more) deck).heap[v]? = some x' ∧ x'.ty = x.ty ∧ x'.readOnly = x.readOnly ∧
      (x.readOnly = true → x'.expression = x.expression ∧ x'.fixed = x.fixed ∧ (x.fixed = true → x'.value = x.value)) := by
  have h := later_files P previous file more deck
  exact ⟨h.grows.declares hv, h.persist v x hx⟩

/-- **C131** The members of blocks made for an earlier file are not changed by further files. -/
theorem C131_members (P : Program F W) (previous : List (List (Stmt F))) (file : List (Stmt F)) (more : List (List (Stmt F)))
    (deck : List (Stmt F)) (t : ℕ) (ht : t < (P.afterNext previous file).nextExt) :
    (P.afterNext (previous ++ file :: more) deck).ext t = (P.afterNext previous file).ext t :=
  (later_files P previous file more deck).ext t ht

/-- **C131** A name that an earlier file has declared in the current block cannot be declared again. -/
theorem C131_duplicate (P : Program F W) (previous : List (List (Stmt F))) (deck : List (Stmt F)) (n : String) (v : ℕ)
    (hv : Declares (P.afterNext previous deck).store (P.afterNext previous deck).store.cursor n v) (t : Ty)
    (ds : List (String × Option (Grammar.Expression F))) (hn : n ∈ ds.map Prod.fst) :
    ((P.afterNext previous deck).step P.host (.decl t ds)).1 = false := by
  have hi := dinv_run P.host _ deck (dinv_beginNext P previous)
  have hi : DInv (P.afterNext previous deck) := hi
  generalize P.afterNext previous deck = D at hv hi ⊢
  show (D.declare P.host t ds).1 = false
  unfold declare
  rcases hb : buildAll (D.env P.host) ds with _ | l
  · rfl
  · have hnames : ∀ (ds : List (String × Option (Grammar.Expression F))) (l : List (String × Option (Expr F W))),
        buildAll (D.env P.host) ds = some l → l.map Prod.fst = ds.map Prod.fst := by
      intro ds
      induction ds with
      | nil => intro l h; cases h; rfl
      | cons d ds ih =>
        obtain ⟨m, _ | e⟩ := d
        · intro l h
          obtain ⟨l', h1, rfl⟩ := Option.map_eq_some_iff.mp h
          simp [ih l' h1]
        · intro l h
          obtain ⟨y, -, h⟩ := Option.bind_eq_some_iff.mp h
          obtain ⟨l', h1, rfl⟩ := Option.map_eq_some_iff.mp h
          simp [ih l' h1]
    have hmem : n ∈ l.reverse.map Prod.fst := by
      rw [List.map_reverse, List.mem_reverse, hnames ds l hb]
      exact hn
    show (chain (storeOne P.host t) l.reverse D).1 = false
    generalize l.reverse = l' at hmem ⊢
    clear hb hnames
    induction l' generalizing D with
    | nil => cases hmem
    | cons d l' ih =>
      rw [chain_cons]
      rw [List.map_cons, List.mem_cons] at hmem
      by_cases hok : (storeOne P.host t D d).1 = true
      · rw [if_pos hok]
        obtain ⟨e, x, st, -, -, -, hst, heq⟩ := storeOne_true hok
        have hne : n ≠ d.1 := by
          rintro rfl
          unfold Storage.addVariable Storage.addVariableTo at hst
          rw [(Lemma.Vars.varOf_iff hi.store _ _ v).mpr hv] at hst
          simp at hst
        obtain ⟨m, -, -, hcur⟩ := storeOne_false_heap P.host t D d
        refine ih _ ?_ (dinv_storeOne P.host t D d hi) (hmem.resolve_left hne)
        rw [hcur]
        exact (later_storeOne P.host t D d).grows.declares hv
      · rw [if_neg hok]
        simpa using hok

/-- C131 is violated: the parameters of the root block are not those of the second file. The root block has a parameter without default (and a
factory). Whatever files have been read before, as long as they were left at the outermost level, and whatever the next file contains:
evaluating the parameters of its root block fails, because this parameter "has no value", even if the file sets it. -/
theorem C131_violated_root_parameter (P : Program F W) (hnames : DistinctNames P.classes) (d : ClassDesc F) (specs : List (ParamSpec F))
    (hd : P.classes.lookup P.className = some d) (hf : d.factory = some specs) (q : ParamSpec F) (hq : q ∈ specs)
    (hneeded : q.default = none ∧ q.readOnly = false ∧ q.constant = false) (previous : List (List (Stmt F))) (file : List (Stmt F))
    (hroot : ((P.beginNext previous).readFile P.host file).2.store.cursor = 0) (deck : List (Stmt F)) (D' : DeckState F W)
    (h : (P.beginNext (previous ++ [file])).parse P.host deck = some D') : D'.evaluateParameters P.host 0 = none := by
  obtain ⟨hq1, hq2, hq3⟩ := hneeded
  have hrunF := (readFile_spec P.host _ (dinv_beginNext P previous) file)
  -- the state between the files
  have hlater : Later P.begin ((P.beginNext previous).readFile P.host file).2 :=
    ((later_next P previous P.begin (dinv_after P [])).trans (later_run P.host _ file)).trans hrunF.2
  have hbegin : P.beginNext (previous ++ [file]) = ((P.beginNext previous).readFile P.host file).2.again P.host := beginNext_append P previous file []
  have hdi := hrunF.1
  generalize ((P.beginNext previous).readFile P.host file).2 = D at hroot hlater hbegin hdi
  -- at the very beginning
  have hcl : ∀ (l : List (String × ClassDesc F)), find (P.classes ++ l) P.className = some d := by
    intro l
    unfold find
    rw [List.lookup_append, hd, Option.some_or]
  let I := DeckState.initial P.name P.className P.classes P.restr P.ext P.world P.nextId
  have hI : Later I P.begin := later_enterBlock P.host I P.name P.className
  have hIf : (I.getClass P.className).1 = d := by
    obtain ⟨l, -, -, c, h1, h2⟩ := getClass_snd I P.className
    rw [h2]
    have := hcl l
    rw [show I.classes = P.classes from rfl, this, Option.some.injEq] at h1
    exact h1.symm
  have hdecl : ∃ v, Declares P.begin.store 0 q.name v := by
    have hbe : P.begin = enterBlock P.host I P.name P.className := rfl
    rw [hbe, enterBlock_some P.host I P.name P.className specs (by rw [hIf]; exact hf)]
    obtain ⟨l, hl, -⟩ := getClass_snd I P.className
    have hcur : (I.getClass P.className).2.store.cursor = 0 := by rw [hl]; rfl
    have := params_declares P.host 0 specs ((I.getClass P.className).2, []) (by rw [hl]; exact Nat.zero_lt_one) q hq
    simp only [hcur]
    exact this
  obtain ⟨v0, hv0⟩ := hdecl
  have hv0 := hlater.grows.declares hv0
  obtain ⟨B0, hB0, hB0c, -⟩ := (hI.trans hlater).grows 0 _ (show I.store.blocks[0]? = some _ from rfl)
  obtain ⟨lc, hlc⟩ := (hI.trans hlater).cls
  -- the root block of the new file
  let E : DeckState F W := { D with tree := BlockTree.empty }
  have hE : DInv E := hdi.congr rfl rfl (Int.le_refl _)
  obtain ⟨l, hl, -, c, h1, h2⟩ := getClass_snd E P.className
  have hcd : c = d := by
    have e : E.classes = P.classes ++ lc := hlc
    rw [e, List.append_assoc, hcl, Option.some.injEq] at h1
    exact h1.symm
  have hEf : (E.getClass P.className).1.factory = some specs := by rw [h2, hcd]; exact hf
  have hcur : (E.getClass P.className).2.store.cursor = 0 := by rw [hl]; exact hroot
  have hgd : DInv (E.getClass P.className).2 := by rw [hl]; exact hE.congr rfl rfl (Int.le_refl _)
  obtain ⟨v, t, hmem, hvlen, hund⟩ := params_orphan P.host 0 specs q hq hq3 ((E.getClass P.className).2, []) hgd (hnames _ d specs hd hf)
    ⟨v0, by rw [hl]; exact hv0⟩
  obtain ⟨-, -, hfresh⟩ := params_fresh P.host 0 specs ((E.getClass P.className).2, []) (hnames _ d specs hd hf)
  obtain ⟨i, j, hheap⟩ := hfresh q hq _ hmem
  have hnb : P.beginNext (previous ++ [file]) = enterBlock P.host E B0.name P.className := by
    rw [hbegin]
    unfold again
    rw [hB0]
    show enterBlock P.host E B0.name B0.className = _
    rw [hB0c]
  have heb := enterBlock_some P.host E B0.name P.className specs hEf
  simp only [hcur] at heb
  have hdinv := dinv_beginNext P (previous ++ [file])
  rw [hnb] at h hdinv
  have hx : (enterBlock P.host E B0.name P.className).heap[v]? = some (paramVariable P.host q i j) := by
    rw [heb]; exact hheap
  have hu : ∀ b n, ¬ Declares (enterBlock P.host E B0.name P.className).store b n v := by
    rw [heb]; exact hund
  have hr : ∃ B : Block, (enterBlock P.host E B0.name P.className).tree.blocks[0]? = some B ∧
      B.params = (specs.foldl (addParameter P.host 0) ((E.getClass P.className).2, [])).2 := by
    rw [heb]
    have ht : (specs.foldl (addParameter P.host 0) ((E.getClass P.className).2, [])).1.tree = BlockTree.empty := by
      rw [params_tree, hl]
    simp only [ht]
    exact ⟨_, rfl, rfl⟩
  generalize enterBlock P.host E B0.name P.className = G at h hdinv hx hu hr
  have hx' := run_orphan P.host G hdinv v _ hx hu deck
  obtain ⟨B, hB, hBp⟩ := run_root P.host G hdinv _ hr deck
  unfold DeckState.parse at h
  have hdr := dinv_run P.host G deck hdinv
  rcases hrun : G.run P.host deck with ⟨b, R⟩
  rw [hrun] at h hx' hB hdr
  cases b with
  | false => cases h
  | true =>
    obtain ⟨-, g2, -, -, g5, -⟩ := (finish_spec P.host hdr).1 D' h
    obtain ⟨val, hval, -⟩ := g5 v _ hx'
    simp only at hB hval
    rw [← g2] at hB
    unfold evaluateParameters
    have hlen : ∃ n, D'.tree.blocks.length = n + 1 := ⟨D'.tree.blocks.length - 1, by have := (List.getElem?_eq_some_iff.mp hB).1; omega⟩
    obtain ⟨n, hn⟩ := hlen
    rw [hn, BlockTree.visit, List.foldlM_cons]
    have : D'.evalBlock P.host 0 = none := by
      unfold evalBlock
      rw [hB]
      refine evalParams_none P.host v _ D' ⟨q.name, t, ?_⟩ ⟨_, hval, ?_⟩
      · unfold paramOrder
        rw [List.mem_insertionSort, hBp]
        exact hmem
      · simp [paramVariable, hq1, hq2, hq3, Variable.ofValue]
    rw [this]
    rfl

/-- The hypotheses of `C131_violated_root_parameter` are met: `size = 2;`, then, with the same parser, `size = 3;`. Both files are accepted, the
parameters of the first can be evaluated. -/
example : ((exampleProgram.begin.readFile exampleProgram.host [.assign "size" (lit 2)]).1 = true ∧
    ((exampleProgram.begin.parse exampleProgram.host [.assign "size" (lit 2)]).bind fun D => D.evaluateParameters exampleProgram.host 0).isSome = true) ∧
    (exampleProgram.begin.readFile exampleProgram.host [.assign "size" (lit 2)]).2.store.cursor = 0 ∧
    ((exampleProgram.beginNext [[.assign "size" (lit 2)]]).parse exampleProgram.host [.assign "size" (lit 3)]).isSome = true := by
  refine ⟨⟨?_, ?_⟩, ?_, ?_⟩ <;> decide +kernel

/-- C131 is violated: a file that ends inside a block is accepted (C43). The next file read with the same parser is then read inside this block:
`A a {` followed by a file `int x = 1;` declares `x` in `a`, and not at the outermost level. -/
theorem C131_violated_inside : ∃ first second : List (Stmt ℚ), second = [.decl .int [("x", some (lit 1))]] ∧
    (exampleProgram.begin.readFile exampleProgram.host first).1 = true ∧
    ((exampleProgram.beginNext [first]).readFile exampleProgram.host second).1 = true ∧
    (let S := ((exampleProgram.beginNext [first]).readFile exampleProgram.host second).2.store
     S.varOf 0 "x" = none ∧ (S.varOf 1 "x").isSome = true ∧ S.parentOf 1 = some 0) :=
  ⟨[.start "A" "a"], _, rfl, by decide +kernel, by decide +kernel, by decide +kernel⟩

/-- C131 is violated: after an error, the parser cannot be used for the corrected file, because the declarations before the error remain: a file
that is accepted if it is the first, is rejected. -/
theorem C131_violated_after_error : ∃ wrong right : List (Stmt ℚ), wrong = [.decl .int [("a", some (lit 1))], .assign "b" (lit 2)] ∧
    right = [.decl .int [("a", some (lit 1))], .decl .int [("b", some (lit 2))]] ∧
    (exampleProgram.begin.readFile exampleProgram.host wrong).1 = false ∧
    (exampleProgram.begin.readFile exampleProgram.host right).1 = true ∧
    ((exampleProgram.beginNext [wrong]).readFile exampleProgram.host right).1 = false :=
  ⟨_, _, rfl, rfl, by decide +kernel, by decide +kernel, by decide +kernel⟩

/-- The hypotheses of `C131_kept` and `C131_duplicate` are met: `a` is declared by the first file, and is known in the second. -/
example : (exampleProgram.begin.readFile exampleProgram.host [.decl .int [("a", some (lit 1))]]).1 = true ∧
    ((exampleProgram.beginNext [[.decl .int [("a", some (lit 1))]]]).readFile exampleProgram.host [.decl .int [("b", some (ident "a"))]]).1 = true ∧
    ((exampleProgram.beginNext [[.decl .int [("a", some (lit 1))]]]).readFile exampleProgram.host [.decl .int [("a", some (lit 2))]]).1 = false := by
  refine ⟨?_, ?_, ?_⟩ <;> decide +kernel

end Schnek.Props
