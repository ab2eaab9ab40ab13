import Verif.Lemma.HdfAttributes
import Mathlib.Data.List.Nodup

/-!
# C129: attributes of datasets
-/

namespace Schnek.Props

open Schnek.Hdf Schnek.Spec Schnek.Lemma.HdfAttributes

variable {V Ty : Type}

/-- **C129** After any calls, a stream writes a dataset. Then the dataset has one attribute for each name for which `set` has been called for the
object the stream refers to; it has the type given last, and the values are those which the variables given last have at the time of
writing. -/
theorem C129_attributes (calls : List (AttrCall V Ty)) (w w' : AttrWorld V Ty) (hw : AttrWorld.run calls = some w) (s object : ℕ)
    (hs : UsesAttributes calls s object) (hw' : AttrWorld.run (calls ++ [.write s]) = some w') :
    ∃ dataset, w'.written = w.written ++ [dataset] ∧ (dataset.map Prod.fst).Nodup ∧
      ∀ name type values, (name, type, values) ∈ dataset ↔ ∃ address, SetLast calls object name type address values.length ∧
        ∀ i (hi : i < values.length), HasValue calls (address + i) values[i] := by
  obtain ⟨e1, e2⟩ := refers_spec hs w hw
  rw [run_snoc, hw] at hw'
  simp only [AttrWorld.call, Option.bind_eq_bind, Option.bind_some, e1, Option.bind_eq_some_iff, Option.map_eq_some_iff] at hw'
  obtain ⟨l, hl, r, hr, rfl⟩ := hw'
  obtain ⟨j1, j2⟩ := (objects_spec calls w hw).2 object l hl
  obtain ⟨k1, k2⟩ := write_spec w.mem l r hr
  refine ⟨r, rfl, by rw [k1]; exact j1, fun n t vs => ?_⟩
  rw [k2]
  simp only [j2, read_spec]
  constructor
  · rintro ⟨a, k, h1, h2, h3⟩
    obtain rfl : vs.length = k := h2
    refine ⟨a, h1, fun i hi => ?_⟩
    obtain ⟨v, f1, f2⟩ := h3 i hi
    rw [← mem_spec calls w hw, f2, ← f1, List.getElem?_eq_getElem hi]
  · rintro ⟨a, h1, h2⟩
    refine ⟨a, vs.length, h1, rfl, fun i hi => ⟨vs[i]'hi, List.getElem?_eq_getElem hi, ?_⟩⟩
    exact (mem_spec calls w hw _ _).mpr (h2 i hi)

/-- **C129** Writing is well-defined exactly if all variables given last still exist. -/
theorem C129_defined (calls : List (AttrCall V Ty)) (w : AttrWorld V Ty) (hw : AttrWorld.run calls = some w) (s object : ℕ)
    (hs : UsesAttributes calls s object) :
    (AttrWorld.run (calls ++ [.write s])).isSome ↔
      ∀ name type address dims, SetLast calls object name type address dims → ∀ i, i < dims → ∃ v, HasValue calls (address + i) v := by
  obtain ⟨e1, e2⟩ := refers_spec hs w hw
  have hl := List.getElem?_eq_getElem e2
  obtain ⟨j1, j2⟩ := (objects_spec calls w hw).2 object _ hl
  constructor
  · intro h name type address dims hset i hi
    obtain ⟨w', hw'⟩ := Option.isSome_iff_exists.mp h
    rw [run_snoc, hw] at hw'
    simp only [AttrWorld.call, Option.bind_eq_bind, Option.bind_some, e1, Option.bind_eq_some_iff, Option.map_eq_some_iff] at hw'
    obtain ⟨l, hl', r, hr, rfl⟩ := hw'
    rw [hl] at hl'
    cases hl'
    have hm := (j2 name type address dims).mpr hset
    by_contra hn
    have : ∀ l' : Attributes Ty, (name, ⟨type, dims, address⟩) ∈ l' → l'.write w.mem = none := by
      intro l' hm'
      induction l' with
      | nil => cases hm'
      | cons p l' ih =>
        rw [Attributes.write, List.mapM_cons]
        rcases List.mem_cons.mp hm' with e | hm'
        · subst e
          have : (⟨type, dims, address⟩ : AttrInfo Ty).read w.mem = none := by
            rw [Option.eq_none_iff_forall_ne_some]
            intro vs hvs
            obtain ⟨_, h3⟩ := (read_spec _ _ _).mp hvs
            obtain ⟨v, _, f2⟩ := h3 i hi
            exact hn ⟨v, (mem_spec calls w hw _ _).mp f2⟩
          rw [this]; rfl
        · have i0 := ih hm'
          rw [Attributes.write] at i0
          rw [i0]
          cases (p.2.read w.mem) <;> rfl
    rw [this _ hm] at hr
    cases hr
  · intro h
    rw [run_snoc, hw]
    obtain ⟨r, hr⟩ := Option.isSome_iff_exists.mp (write_isSome w.mem w.objects[object] (by
      rintro ⟨n, t, k, a⟩ hp
      refine read_isSome _ _ fun i hi => ?_
      obtain ⟨v, hv⟩ := h n t a k ((j2 n t a k).mp hp) i hi
      rw [(mem_spec calls w hw _ _).mpr hv]
      rfl))
    simp [AttrWorld.call, e1, hl, hr]

/-- **C129** (partial: the property says that the value given to `set` is written, this holds only if the variable still has it) If the
variables are neither assigned nor destroyed after `set`, and `set` is not called again for the name, then the attribute has the values the
variables had when they were given to `set`. -/
theorem C129_value_at_set_partial (before later : List (AttrCall V Ty)) (s object : ℕ) (name : String) (type : Ty) (address : ℕ)
    (values : List V) (hheld : ∀ i (hi : i < values.length), HasValue before (address + i) values[i])
    (hlater : ∀ type' address' dims', .set object name type' address' dims' ∉ later)
    (hunchanged : ∀ i, i < values.length → .destroy (address + i) ∉ later ∧ ∀ v, .store (address + i) v ∉ later)
    (hs : UsesAttributes (before ++ .set object name type address values.length :: later) s object) (w' : AttrWorld V Ty)
    (hw' : AttrWorld.run (before ++ .set object name type address values.length :: later ++ [.write s]) = some w') :
    ∃ written dataset, w'.written = written ++ [dataset] ∧
      ∀ type' values', (name, type', values') ∈ dataset ↔ type' = type ∧ values' = values := by
  obtain ⟨w, hw, _⟩ := run_prefix hw'
  obtain ⟨d, h1, h2, h3⟩ := C129_attributes _ w w' hw s object hs hw'
  have hin : (name, type, values) ∈ d := by
    refine (h3 _ _ _).mpr ⟨address, ⟨before, later, rfl, hlater⟩, fun i hi => ?_⟩
    obtain ⟨b, l, rfl, f1, f2⟩ := hheld i hi
    obtain ⟨g1, g2⟩ := hunchanged i hi
    refine ⟨b, l ++ .set object name type address values.length :: later, by simp, by simp [f1, g1], fun v => by simp [f2, g2]⟩
  refine ⟨_, d, h1, fun t vs => ⟨fun hm => ?_, ?_⟩⟩
  · have := List.inj_on_of_nodup_map h2 hm hin rfl
    simpa using this
  · rintro ⟨rfl, rfl⟩
    exact hin

/-- **C129** `HDFGridDiagnostic` writes no attributes, unless `getAttributes` is replaced: whatever has been set before, the dataset has none. -/
theorem C129_default (calls : List (AttrCall V Ty)) (w : AttrWorld V Ty) (hw : AttrWorld.run calls = some w) (s : ℕ)
    (hs : (w.streams s).isSome) :
    ∃ w', AttrWorld.run (calls ++ defaultWrite s w.objects.length) = some w' ∧ w'.written = w.written ++ [[]] := by
  refine ⟨⟨w.mem, w.objects ++ [[]], Function.update w.streams s (some w.objects.length), w.written ++ [[]]⟩, ?_, rfl⟩
  have : AttrWorld.run calls = calls.foldlM AttrWorld.call .start := rfl
  rw [AttrWorld.run, List.foldlM_append, ← this, hw]
  simp [defaultWrite, AttrWorld.call, hs, Attributes.write]

/-- C129 is violated: "the value to be stored" (hdfdiagnostic.hpp 95-97) is not the value given to `set`. A variable is 1 when it is given to
`set`, and the attribute in the file is 2. -/
theorem C129_violated_value_at_set : ∃ (before later : List (AttrCall ℕ Unit)) (w : AttrWorld ℕ Unit),
    HasValue before 0 1 ∧ SetLast (before ++ [.set 0 "time" () 0 1] ++ later) 0 "time" () 0 1 ∧
    AttrWorld.run (before ++ [.set 0 "time" () 0 1] ++ later) = some w ∧ w.written = [[("time", (), [2])]] := by
  refine ⟨[.store 0 1, .make, .stream 5], [.store 0 2, .setAttributes 5 0, .write 5], _, ?_, ?_, rfl, rfl⟩
  · exact ⟨[], [.make, .stream 5], rfl, by simp, by simp⟩
  · exact ⟨[.store 0 1, .make, .stream 5], [.store 0 2, .setAttributes 5 0, .write 5], rfl, by simp⟩

/-- C129 is violated: `set(name, value)` with a temporary value, for example `set("time", 2*t)`. The temporary (at address 0) is gone when the
dataset is written. -/
theorem C129_violated_temporary : ∃ calls : List (AttrCall ℕ Unit),
    calls = [.make, .stream 5, .store 0 1, .set 0 "time" () 0 1, .destroy 0, .setAttributes 5 0] ∧
    (AttrWorld.run calls).isSome ∧ AttrWorld.run (calls ++ [.write 5]) = none :=
  ⟨_, rfl, rfl, rfl⟩

/-- The hypotheses of C129 are met: an array of two elements and a variable are set, one of them is set again, the stream is copied. -/
example : ∃ (calls : List (AttrCall ℕ Bool)) (w w' : AttrWorld ℕ Bool), AttrWorld.run calls = some w ∧ UsesAttributes calls 6 0 ∧
    AttrWorld.run (calls ++ [.write 6]) = some w' ∧ w'.written = [[("n", true, [9]), ("size", false, [3, 4])]] := by
  refine ⟨[.store 0 3, .store 1 4, .store 2 7, .make, .stream 5, .set 0 "size" true 2 1, .set 0 "n" true 2 1, .set 0 "size" false 0 2,
    .setAttributes 5 0, .copy 6 5, .store 2 9], _, _, rfl, ?_, rfl, rfl⟩
  have h5 : UsesAttributes ([.store 0 3, .store 1 4, .store 2 7, .make, .stream 5, .set 0 "size" true 2 1, .set 0 "n" true 2 1,
      .set 0 "size" false 0 2] ++ .setAttributes 5 0 :: ([] : List (AttrCall ℕ Bool))) 5 0 := .given ⟨by simp, by simp, by simp⟩
  exact UsesAttributes.copied (later := [.store 2 9]) h5 ⟨by simp, by simp, by simp⟩

end Schnek.Props
