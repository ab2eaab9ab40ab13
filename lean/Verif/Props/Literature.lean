import Verif.Lemma.Literature

/-!
# Properties of the literature references: C99, C100, C101

The statements use the readers of BibTeX and LaTeX files in `Verif.Spec.Literature`.
-/

namespace Schnek.Props

open Schnek.Literature Schnek.Spec.Literature Schnek.Lemma.Literature

/-- what can be said of all calls of a run can be said of the reference of the library as well -/
theorem forall_added {P : String → Reference → Prop} (calls : List (String × Reference))
    (h0 : P "Parallel simulation framework based on the Schnek Library" schnekReference) (h : ∀ c ∈ calls, P c.1 c.2) :
    ∀ c ∈ added calls, P c.1 c.2 := by
  intro c hc
  rcases List.mem_cons.mp hc with rfl | hc
  · exact h0
  · exact h c hc

theorem plain_schnek : PlainLine "Parallel simulation framework based on the Schnek Library" ∧ PlainKey schnekReference.bibKey := by
  unfold PlainLine PlainKey
  decide +kernel

theorem balanced_schnek (f : Field) : Balanced (schnekReference.get f).toList := by
  unfold Balanced
  cases f <;> decide +kernel

/-! ## C99: everything that has been used is cited -/

/-- **C99**: after any calls of `addReference`, with any title and subtitle, the document cites every key once; together with a key it
shows every description that has been given for it, once, and no other. -/
theorem C99_citations (calls : List (String × Reference)) (title subtitle bibfile : String) (ht : PlainLine title)
    (hs : PlainLine subtitle) (hb : PlainLine bibfile) (hd : ∀ c ∈ calls, PlainLine c.1) (hk : ∀ c ∈ calls, PlainKey c.2.bibKey) :
    let its := items (Manager.writeInformation { Manager.run calls with title := title, subtitle := subtitle } bibfile)
    (its.map Prod.snd).Nodup ∧
    (∀ c ∈ added calls, ∃ ls, (ls, c.2.bibKey.toList) ∈ its ∧ c.1.toList ∈ ls) ∧
    (∀ ls k, (ls, k) ∈ its → ls.Nodup ∧ ls ≠ [] ∧ ∀ l ∈ ls, ∃ c ∈ added calls, c.1.toList = l ∧ c.2.bibKey.toList = k) := by
  have inv := inv_run calls
  have hplain := forall_added (P := fun d r => PlainLine d ∧ PlainKey r.bibKey) calls plain_schnek fun c hc => ⟨hd c hc, hk c hc⟩
  have hd' : ∀ r ∈ (Manager.run calls).records, ∀ d ∈ r.descriptions, PlainLine d := by
    intro r hr d hdd
    obtain ⟨c, hc, _, rfl⟩ := (inv.desc r hr d).mp hdd
    exact (hplain c hc).1
  have hk' : ∀ r ∈ (Manager.run calls).records, PlainKey r.key := by
    intro r hr
    obtain ⟨h1, c, hc, h2⟩ := inv.key r hr
    rw [← h1, ← h2]
    exact (hplain c hc).2
  intro its
  have hits : its = (Manager.run calls).records.map fun r => (r.descriptions.map String.toList, r.key.toList) :=
    items_information { Manager.run calls with title := title, subtitle := subtitle } bibfile ht hs hb hd' hk'
  have hinj : Function.Injective String.toList := fun a b h => String.toList_inj.mp h
  refine ⟨?_, ?_, ?_⟩
  · rw [hits, List.map_map]
    unfold List.Nodup
    rw [List.pairwise_map]
    exact inv.sorted.imp fun {a b} hab h => absurd (hinj h) (ne_of_lt hab)
  · intro c hc
    obtain ⟨r, hr, e⟩ := inv.all c hc
    refine ⟨r.descriptions.map String.toList, ?_, ?_⟩
    · rw [hits, ← e]
      exact List.mem_map_of_mem hr
    · exact List.mem_map_of_mem ((inv.desc r hr c.1).mpr ⟨c, hc, e.symm, rfl⟩)
  · intro ls k hlk
    rw [hits] at hlk
    obtain ⟨r, hr, e⟩ := List.mem_map.mp hlk
    obtain ⟨rfl, rfl⟩ := Prod.mk.inj e
    refine ⟨?_, ?_, ?_⟩
    · exact (List.nodup_map_iff hinj).mpr ((inv.descSorted r hr).imp fun {a b} hab => ne_of_lt hab)
    · obtain ⟨h1, c, hc, h2⟩ := inv.key r hr
      intro h0
      have := (inv.desc r hr c.1).mpr ⟨c, hc, by rw [h2, h1], rfl⟩
      rw [List.map_eq_nil_iff] at h0
      rw [h0] at this
      simp at this
    · intro l hl
      obtain ⟨d, hdd, rfl⟩ := List.mem_map.mp hl
      obtain ⟨c, hc, h1, rfl⟩ := (inv.desc r hr d).mp hdd
      exact ⟨c, hc, rfl, by rw [h1]⟩

/-- two methods from one paper, one of them used twice -/
def someCalls : List (String × Reference) :=
  [("Particle push", misc "Boris1970" "Boris" "Relativistic plasma simulation" "" "" "1970" "" ""),
   ("Field solver", misc "Boris1970" "Boris" "Relativistic plasma simulation" "" "" "1970" "" ""),
   ("Particle push", misc "Boris1970" "Boris" "Relativistic plasma simulation" "" "" "1970" "" ""),
   ("Collisions", article "Abe1977" "{T. A}be" "Collision {M}odels" "J. Comp. Phys." "1977" "25" "" "" "" "" "")]

/-- the hypotheses of C99 hold for `someCalls`, and the document shows what it should -/
example : (∀ c ∈ someCalls, PlainLine c.1) ∧ (∀ c ∈ someCalls, PlainKey c.2.bibKey) ∧ PlainLine "Methods" ∧
    items ((Manager.run someCalls).writeInformation "refs") =
      [(["Collisions".toList], "Abe1977".toList),
       (["Field solver".toList, "Particle push".toList], "Boris1970".toList),
       (["Parallel simulation framework based on the Schnek Library".toList], "Schmitz2018".toList)] := by
  unfold PlainLine PlainKey
  decide +kernel

/-! ## C100: every citation has its entry -/

/-- **C100**, part: after any calls of `addReference` with references that have a type, the BibTeX file has one entry for every key the
document cites, in the same order, and no other; the entry tells the first reference that has been added with the key. Not shown: that
the type is initialised (`C100_violated_no_type`), and that all references that have been added are told (`C100_violated_other_reference`,
`C100_every_reference_partial`). -/
theorem C100_entries_partial (calls : List (String × Reference)) (bibfile : String) (hb : PlainLine bibfile)
    (hd : ∀ c ∈ calls, PlainLine c.1) (hk : ∀ c ∈ calls, PlainKey c.2.bibKey) (ht : ∀ c ∈ calls, c.2.publType.isSome)
    (hv : ∀ c ∈ calls, ∀ f, Balanced (c.2.get f).toList) :
    ∃ text, (Manager.run calls).writeBibTex = some text ∧
      (entries text).map Entry.key = (items ((Manager.run calls).writeInformation bibfile)).map Prod.snd ∧
      ∀ e ∈ entries text, ∃ c, (added calls).find? (fun c => c.2.bibKey.toList = e.key) = some c ∧ Tells c.2 e := by
  have inv := inv_run calls
  have hplain := forall_added (P := fun d r => (PlainLine d ∧ PlainKey r.bibKey) ∧ r.publType.isSome ∧ ∀ f, Balanced (r.get f).toList)
    calls ⟨plain_schnek, rfl, balanced_schnek⟩ fun c hc => ⟨⟨hd c hc, hk c hc⟩, ht c hc, hv c hc⟩
  have hrec : ∀ r ∈ (Manager.run calls).records,
      PlainKey r.reference.bibKey ∧ r.reference.publType.isSome ∧ ∀ f, Balanced (r.reference.get f).toList := by
    intro r hr
    obtain ⟨_, c, hc, h2⟩ := inv.key r hr
    rw [← h2]
    exact ⟨(hplain c hc).1.2, (hplain c hc).2⟩
  obtain ⟨text, h1, h2⟩ := entries_bibtex (Manager.run calls) (fun r hr => (hrec r hr).2.1) (fun r hr => (hrec r hr).1)
    (fun r hr => (hrec r hr).2.2)
  have htitle := title_run calls
  have hi := items_information (Manager.run calls) bibfile (by rw [htitle.1]; unfold PlainLine; decide +kernel)
    (by rw [htitle.2]; unfold PlainLine; decide +kernel) hb
    (by
      intro r hr d hdd
      obtain ⟨c, hc, _, rfl⟩ := (inv.desc r hr d).mp hdd
      exact (hplain c hc).1.1)
    (by
      intro r hr
      rw [← (inv.key r hr).1]
      exact (hrec r hr).1)
  refine ⟨text, h1, ?_, ?_⟩
  · rw [hi, List.map_map, keys_of_tells _ _ h2 fun r hr => (inv.key r hr).1]
    rfl
  · intro e he
    obtain ⟨r, hr, ht'⟩ := mem_of_tells _ _ h2 e he
    have h3 := inv.reference r hr
    have heq : (fun c : String × Reference => decide (c.2.bibKey.toList = e.key)) = fun c => decide (c.2.bibKey = r.key) := by
      funext c
      rw [ht'.key, (inv.key r hr).1]
      simp [String.toList_inj]
    rw [heq]
    cases hfd : (added calls).find? (fun c => decide (c.2.bibKey = r.key)) with
    | none => rw [hfd] at h3; simp at h3
    | some c =>
        rw [hfd] at h3
        have e' : c.2 = r.reference := by simpa using h3
        exact ⟨c, rfl, e' ▸ ht'⟩

/-- **C100**, part: if a key always belongs to the same reference, every reference that has been added is told by an entry -/
theorem C100_every_reference_partial (calls : List (String × Reference)) (hd : ∀ c ∈ calls, PlainLine c.1)
    (hk : ∀ c ∈ calls, PlainKey c.2.bibKey) (ht : ∀ c ∈ calls, c.2.publType.isSome) (hv : ∀ c ∈ calls, ∀ f, Balanced (c.2.get f).toList)
    (hsame : ∀ c ∈ added calls, ∀ c' ∈ added calls, c.2.bibKey = c'.2.bibKey → c.2 = c'.2) :
    ∃ text, (Manager.run calls).writeBibTex = some text ∧ ∀ c ∈ added calls, ∃ e ∈ entries text, Tells c.2 e := by
  have hb : PlainLine "" := by intro c hc; simp at hc
  obtain ⟨text, h1, h2, h3⟩ := C100_entries_partial calls "" hb hd hk ht hv
  refine ⟨text, h1, ?_⟩
  intro c hc
  have hts : PlainLine (Manager.run calls).title ∧ PlainLine (Manager.run calls).subtitle := by
    rw [(title_run calls).1, (title_run calls).2]
    unfold PlainLine
    decide +kernel
  have h4 := (C99_citations calls _ _ "" hts.1 hts.2 hb hd hk).2.1 c hc
  obtain ⟨ls, h4, _⟩ := h4
  have h5 : c.2.bibKey.toList ∈ (entries text).map Entry.key := by
    rw [h2]
    exact List.mem_map_of_mem (f := Prod.snd) h4
  obtain ⟨e, he, hek⟩ := List.mem_map.mp h5
  obtain ⟨c', h6, h7⟩ := h3 e he
  refine ⟨e, he, ?_⟩
  have h8 : c'.2.bibKey = c.2.bibKey := by
    have := List.find?_some h6
    rw [hek] at this
    simpa [String.toList_inj] using this
  rw [hsame c hc c' (List.mem_of_find?_eq_some h6) h8.symm]
  exact h7

/-- the hypotheses of C100 hold for `someCalls`; the file has three entries -/
example : (∀ c ∈ someCalls, c.2.publType.isSome) ∧ (∀ c ∈ someCalls, ∀ f ∈ fieldOrder, Balanced (c.2.get f).toList) ∧
    ((Manager.run someCalls).writeBibTex.map entries).map (List.map Entry.key) =
      some ["Abe1977".toList, "Boris1970".toList, "Schmitz2018".toList] := by
  unfold Balanced
  decide +kernel

/-- a reference of one's own, made without one of the derived classes -/
def ownReference : Reference := ((Reference.new "Own2020").set .title "A method").set .author "Someone"

/-- **C100** fails: a reference made with `LiteratureReference(key)` has no publication type, and writing the file reads it. -/
theorem C100_violated_no_type (calls : List (String × Reference)) (d : String)
    (hfirst : ∀ c ∈ calls, c.2.bibKey ≠ "Own2020") :
    (Manager.run (calls ++ [(d, ownReference)])).writeBibTex = none := by
  have inv := inv_run (calls ++ [(d, ownReference)])
  obtain ⟨r, hr, hkey⟩ := inv.all (d, ownReference) (by simp [added])
  have h3 := inv.reference r hr
  have h4 : (added (calls ++ [(d, ownReference)])).find? (fun c => decide (c.2.bibKey = r.key)) = some (d, ownReference) := by
    rw [hkey]
    unfold added
    rw [List.find?_cons_of_neg (by simp [ownReference, Reference.new, Reference.set, schnekReference, article, Reference.setPublicationType]), List.find?_append]
    have : calls.find? (fun c => decide (c.2.bibKey = (d, ownReference).2.bibKey)) = none := by
      rw [List.find?_eq_none]
      intro c hc
      exact fun h => hfirst c hc (of_decide_eq_true h)
    rw [this]
    simp
  rw [h4] at h3
  have h5 : r.reference = ownReference := by simpa using h3.symm
  exact none_of_uninitialised _ r hr (by rw [h5]; rfl)

/-- **C100** fails: if two different papers are added with the same key, no entry tells the second one; the description of the method
stands beside a citation of the first. -/
theorem C100_violated_other_reference :
    ∃ (calls : List (String × Reference)) (c : String × Reference) (text : List Char), c ∈ calls ∧
      (∀ c ∈ calls, c.2.publType.isSome) ∧ (Manager.run calls).writeBibTex = some text ∧ ∀ e ∈ entries text, ¬ Tells c.2 e := by
  let c1 : String × Reference := ("Particle push", misc "Smith2001" "Smith" "Pushing particles" "" "" "2001" "" "")
  let c2 : String × Reference := ("Field solver", misc "Smith2001" "Smith" "Solving fields" "" "" "2001" "" "")
  have h : ∃ text, (Manager.run [c1, c2]).writeBibTex = some text ∧ ∀ e ∈ entries text, ("title".toList, "Solving fields".toList) ∉ e.fields := by
    decide +kernel
  obtain ⟨text, h1, h2⟩ := h
  refine ⟨[c1, c2], c2, text, by simp, by decide, h1, ?_⟩
  intro e he ht
  exact h2 e he ((ht.fields _ _).mpr ⟨.title, rfl, rfl, by decide⟩)

/-! ## C101: constructors store their arguments -/

/-- the types whose constructors have a parameter they store in the wrong field -/
def misplaced : List PublicationType := [.inproceedings, .manual, .mastersthesis, .phdthesis, .proceedings]

/-- **C101**, part: the constructors of the other types store every argument in the field of that name -/
theorem C101_constructors_partial (t : PublicationType) (key : String) (args : Field → String) (ht : t ∉ misplaced) :
    Made t key args (construct key args t) := by
  cases t <;> first
    | exact absurd ht (by decide)
    | (refine ⟨rfl, rfl, ?_⟩
       intro f
       cases f <;> rfl)

/-- **C101**, part: all constructors store type, key and every argument except `organization`, `school` and `edition` in the field of
that name -/
theorem C101_fields_partial (t : PublicationType) (key : String) (args : Field → String) :
    (construct key args t).publType = some t ∧ (construct key args t).bibKey = key ∧
    ∀ f, f ≠ .organization → f ≠ .school → f ≠ .edition →
      (construct key args t).get f = if f ∈ parameters t then args f else "" := by
  refine ⟨by cases t <;> rfl, by cases t <;> rfl, ?_⟩
  intro f h1 h2 h3
  cases t <;> cases f <;> first
    | rfl
    | exact absurd rfl h1
    | exact absurd rfl h2
    | exact absurd rfl h3

/-- **C101** fails: the school of a thesis and the organization of proceedings, an article in proceedings or a manual never reach the
entry: the field `school` or `organization` is empty whatever has been passed. For theses and proceedings the value becomes the edition,
for manuals it is lost. -/
theorem C101_violated_school_organization (key : String) (args : Field → String) :
    (construct key args .phdthesis).get .school = "" ∧ (construct key args .phdthesis).get .edition = args .school ∧
    (construct key args .mastersthesis).get .school = "" ∧ (construct key args .mastersthesis).get .edition = args .school ∧
    (construct key args .proceedings).get .organization = "" ∧ (construct key args .proceedings).get .edition = args .organization ∧
    (construct key args .inproceedings).get .organization = "" ∧ (construct key args .inproceedings).get .edition = args .organization ∧
    (construct key args .manual).get .organization = "" ∧ (construct key args .manual).get .edition = args .edition := by
  refine ⟨?_, ?_, ?_, ?_, ?_, ?_, ?_, ?_, ?_, ?_⟩ <;> rfl

/-- so the constructors of these five types do not store their arguments -/
theorem C101_violated (t : PublicationType) (ht : t ∈ misplaced) : ∃ key args, ¬ Made t key args (construct key args t) := by
  refine ⟨"Key", fun _ => "x", fun h => ?_⟩
  have h1 := h.fields .school
  have h2 := h.fields .organization
  cases t <;> first
    | exact absurd ht (by decide)
    | exact absurd h1 (by decide)
    | exact absurd h2 (by decide)

end Schnek.Props
