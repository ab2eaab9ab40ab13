import Verif.Lemma.GridText
import Verif.Props.Array
import Verif.Props.NumberText
import Verif.Props.FileDiagnostic

/-!
# The text of grids and arrays can be read again

C155
-/

namespace Schnek.Props

open Spec Spec.GridText Spec.NumberText Arrays Schnek.GridText Lemma.GridText NumberText Diagnostic

section

variable {T : Type} {n : ℕ}

/-- the text of a grid, element by element -/
theorem gridText_items (t : T → List Char) (r : Range (n + 1)) (g : Idx (n + 1) → T) :
    ∃ l, Enumerates ColexLt (InBox r.lo r.hi) l ∧
      gridText t r g = l.flatMap fun p => t (g p) ++ (separator (T := T) r.hi p).flatMap (pieceText t) := by
  by_cases hne : ∀ i, r.lo i ≤ r.hi i
  · obtain ⟨l, hl, he⟩ := C78_stream_grid r hne g
    refine ⟨l, hl, ?_⟩
    rw [gridText, he, List.flatMap_assoc]
    rfl
  · push Not at hne
    refine ⟨[], ⟨.nil, fun p => ⟨fun h => (by cases h), fun h => ?_⟩, .nil⟩, ?_⟩
    · obtain ⟨i, hi⟩ := hne
      have := h i
      omega
    · rw [gridText, C78_stream_empty r hne g]
      rfl

theorem separator_space (t : T → List Char) (hi p : Idx (n + 1)) :
    ∀ c ∈ (separator (T := T) hi p).flatMap (pieceText t), c.isWhitespace = true := by
  unfold separator
  intro c hc
  split at hc
  · simp [pieceText] at hc; subst hc; decide
  · rw [List.flatMap_append] at hc
    have h : c = '\n' := by
      rcases List.mem_append.mp hc with hc | hc <;> split at hc <;> simpa [pieceText] using hc
    subst h; decide

theorem separator_ne (t : T → List Char) (hi p : Idx (n + 1)) (h : 1 ≤ n ∨ p 0 < hi 0) :
    (separator (T := T) hi p).flatMap (pieceText t) ≠ [] := by
  unfold separator
  by_cases h0 : p 0 < hi 0
  · rw [if_pos h0]; simp [pieceText]
  · rw [if_neg h0, if_pos (h.resolve_right h0)]; simp [pieceText]

theorem colex_unique {S : Idx n → Prop} {l l' : List (Idx n)} (h : Enumerates ColexLt S l) (h' : Enumerates ColexLt S l') : l = l' := by
  refine List.Perm.eq_of_pairwise (fun a b _ _ h1 h2 => ?_) h.sorted h'.sorted
    ((List.perm_ext_iff_of_nodup h.nodup h'.nodup).mpr fun p => (h.mem_iff p).trans (h'.mem_iff p).symm)
  obtain ⟨k, hk, hlt⟩ := h1
  obtain ⟨m, hm, hlt'⟩ := h2
  rcases lt_trichotomy k m with hkm | rfl | hkm
  · have := hk m hkm; omega
  · omega
  · have := hm k hkm; omega

/-- **C155** The words of the text that is written for a grid are the texts of the elements, each element once, in the order of the positions,
the first index running fastest. `t x` is the text of one element. -/
theorem C155_words (t : T → List Char) (r : Range (n + 1)) (g : Idx (n + 1) → T) (ht : ∀ p, InBox r.lo r.hi p → IsWord (t (g p))) :
    ∃ l, Enumerates ColexLt (InBox r.lo r.hi) l ∧ words (gridText t r g) = l.map fun p => t (g p) := by
  obtain ⟨l, hl, he⟩ := gridText_items t r g
  refine ⟨l, hl, ?_⟩
  have := words_items (fun p => t (g p)) (fun p => (separator (T := T) r.hi p).flatMap (pieceText t)) [] l
    (fun p hp => ht p ((hl.mem_iff p).mp hp)) (fun p _ => separator_space t r.hi p) ?_ (.inr rfl)
  · rw [List.append_nil, ← he, words_nil, List.append_nil] at this
    exact this
  · refine hl.sorted.imp_of_mem fun {p q} hp hq hlt => separator_ne t r.hi p ?_
    by_cases hn : 1 ≤ n
    · exact .inl hn
    · right
      obtain ⟨k, -, hk⟩ := hlt
      obtain rfl : k = 0 := by apply Fin.ext; have := k.2; simp; omega
      have := ((hl.mem_iff q).mp hq 0).2
      omega

/-- **C155** For grids with two or more indices other text may follow, for example another grid.

Missing for the full property: grids with one index, see `C155_violated_followed`. -/
theorem C155_followed_partial (hn : 1 ≤ n) (t : T → List Char) (r : Range (n + 1)) (g : Idx (n + 1) → T)
    (ht : ∀ p, InBox r.lo r.hi p → IsWord (t (g p))) (s : List Char) : words (gridText t r g ++ s) = words (gridText t r g) ++ words s := by
  obtain ⟨l, hl, he⟩ := gridText_items t r g
  have h := fun s => words_items (fun p => t (g p)) (fun p => (separator (T := T) r.hi p).flatMap (pieceText t)) s l
    (fun p hp => ht p ((hl.mem_iff p).mp hp)) (fun p _ => separator_space t r.hi p)
    (hl.sorted.imp fun {p q} _ => separator_ne t r.hi p (.inl hn)) (.inl fun p _ => separator_ne t r.hi p (.inl hn))
  have h0 := h []
  rw [List.append_nil, words_nil, List.append_nil] at h0
  rw [he, h s, h0]

/-- **C155** The words of the text that is written for an array are the texts of its components. -/
theorem C155_array (t : T → List Char) (a : Fin n → T) (ht : ∀ i, IsWord (t (a i))) : words (arrayText t a) = List.ofFn fun i => t (a i) := by
  have key : ∀ l : List (Fin n), words ((((l.map a).map Piece.val).intersperse .space).flatMap (pieceText t)) = l.map fun i => t (a i) := by
    intro l
    induction l with
    | nil => rfl
    | cons i l ih =>
      cases l with
      | nil =>
        have := words_word (s := []) (t := []) (ht i) (by simp) (.inr rfl)
        simpa [pieceText, words_nil] using this
      | cons j l =>
        have := words_word (s := [' ']) (t := (((((j :: l).map a).map Piece.val).intersperse .space).flatMap (pieceText t))) (ht i)
          (by simp) (.inl (by simp))
        rw [ih] at this
        rw [List.map_cons (f := fun i => t (a i)), ← this]
        simp [pieceText, List.intersperse_cons₂]
  rw [arrayText, C78_stream_array, List.ofFn_eq_map, key, List.ofFn_eq_map]

/-- **C155** Two grids over the same range with the same text have the same elements, if different values have different texts. -/
theorem C155_same (t : T → List Char) (ht : ∀ x, IsWord (t x)) (hinj : Function.Injective t) (r : Range (n + 1)) (g g' : Idx (n + 1) → T)
    (h : gridText t r g = gridText t r g') (p : Idx (n + 1)) (hp : InBox r.lo r.hi p) : g p = g' p := by
  obtain ⟨l, hl, h1⟩ := C155_words t r g fun _ _ => ht _
  obtain ⟨l', hl', h2⟩ := C155_words t r g' fun _ _ => ht _
  obtain rfl : l = l' := colex_unique hl hl'
  rw [h, h2] at h1
  exact hinj (List.map_inj_left.mp h1.symm p ((hl.mem_iff p).mpr hp))

end

/-- **C155** A grid of `int` can be read again: the words of its text, converted to numbers, are the elements. -/
theorem C155_int {n : ℕ} (r : Range (n + 1)) (g : Idx (n + 1) → ℤ) (hg : ∀ p, InBox r.lo r.hi p → -2 ^ 31 ≤ g p ∧ g p < 2 ^ 31) :
    ∃ l, Enumerates ColexLt (InBox r.lo r.hi) l ∧
      (words (gridText decimal r g)).map (fun w => readInt (String.ofList w)) = l.map fun p => some (g p) := by
  obtain ⟨l, hl, he⟩ := C155_words decimal r g fun p _ => intText_word (Lemma.NumberText.intText_decimal (g p))
  refine ⟨l, hl, ?_⟩
  rw [he, List.map_map]
  refine List.map_congr_left fun p hp => ?_
  have := hg p ((hl.mem_iff p).mp hp)
  exact C145_int_again (g p) this.1 this.2

/-- **C155** The words of the text of a grid of `double` are numbers that differ from the elements by at most half of the sixth digit.

Missing for the full property: the same numbers, see `C155_violated_double`. -/
theorem C155_double_partial {n : ℕ} (r : Range (n + 1)) (g : Idx (n + 1) → ℚ) :
    ∃ l, Enumerates ColexLt (InBox r.lo r.hi) l ∧
      List.Forall₂ (fun w p => ∃ v, FloatText w v ∧ |v - g p| ≤ |g p| / 200000) (words (gridText double6 r g)) l := by
  obtain ⟨l, hl, he⟩ := C155_words double6 r g fun p _ => (double6_text (g p)).elim fun v h => floatText_word h.1
  refine ⟨l, hl, ?_⟩
  rw [he, List.forall₂_map_left_iff, List.forall₂_same]
  exact fun p _ => double6_text (g p)

/-- a grid with one index -/
def line (l : List ℤ) : List Char := gridText decimal (⟨![0], ![(l.length : ℤ) - 1]⟩ : Range 1) fun p => l.getD (p 0).toNat 0

/-- C155 is false for grids with one index, and arrays, if something follows: there is nothing between the last number and the next one. In the file
of a diagnostic that appends, this joins the last number of each output and the first of the next. -/
theorem C155_violated_followed : line [1, 2] = "1 2".toList ∧
    leaves (fileDiagnostic true "o") 1 [(0, line [1, 2]), (1, line [3, 4]), (2, line [5, 6])] "o" = some "1 25 6".toList ∧
    words "1 25 6".toList ≠ words (line [1, 2]) ++ words (line [5, 6]) ∧
    words (arrayText decimal ![1, 2] ++ arrayText decimal ![5, 6]) = ["1".toList, "25".toList, "6".toList] := by
  decide +kernel

/-- C155 is false for `double`: different numbers have the same text, thus different grids have the same text. -/
theorem C155_violated_double : Binary64.IsDouble 1 ∧ Binary64.IsDouble (1 + 1 / 2 ^ 20) ∧ ∀ {n : ℕ} (r : Range (n + 1)),
    gridText double6 r (fun _ => 1) = gridText double6 r fun _ => 1 + 1 / 2 ^ 20 := by
  refine ⟨⟨⟨1, 0, by norm_num, by norm_num, by norm_num⟩, ?_⟩, ⟨⟨2 ^ 20 + 1, -20, by norm_num, by norm_num, by norm_num⟩, ?_⟩, fun {n} r => ?_⟩
  · rw [abs_one]; exact one_lt_pow₀ (by norm_num) (by norm_num)
  · have : (2 : ℚ) ^ 1 < 2 ^ 1024 := pow_lt_pow_right₀ (by norm_num) (by norm_num)
    refine lt_trans ?_ this
    norm_num [abs_of_pos]
  · obtain ⟨l, hl, h1⟩ := gridText_items double6 r fun _ => 1
    obtain ⟨l', hl', h2⟩ := gridText_items double6 r fun _ => 1 + 1 / 2 ^ 20
    obtain rfl : l = l' := colex_unique hl hl'
    have h : double6 1 = double6 (1 + 1 / 2 ^ 20) := by decide +kernel
    rw [h1, h2, h]

/-- a grid of three columns and two rows -/
example : gridText decimal (⟨![0, 1], ![2, 2]⟩ : Range 2) (fun p => p 0 - 10 * p 1) = "-10 -9 -8\n-20 -19 -18\n".toList := by decide +kernel

example : (words (gridText decimal (⟨![0, 1], ![2, 2]⟩ : Range 2) (fun p => p 0 - 10 * p 1))).map (fun w => readInt (String.ofList w)) =
    [some (-10), some (-9), some (-8), some (-20), some (-19), some (-18)] := by decide +kernel

/-- doubles as `std::ostream` writes them -/
example : double6 (1 / 3) = "0.333333".toList ∧ double6 (-123456789) = "-1.23457e+08".toList ∧ double6 (1 / 2 ^ 20) = "9.53674e-07".toList ∧
    double6 100000 = "100000".toList ∧ double6 (999999 + 3 / 4) = "1e+06".toList := by decide +kernel

example : gridText double6 (⟨![0, 1], ![1, 2]⟩ : Range 2) (fun p => p 0 / 3 + p 1) = "1 1.33333\n2 2.33333\n".toList := by decide +kernel

/-- the texts of integers are different words -/
example : (∀ x, IsWord (decimal x)) ∧ ∀ x y, -2 ^ 31 ≤ x → x < 2 ^ 31 → -2 ^ 31 ≤ y → y < 2 ^ 31 → decimal x = decimal y → x = y := by
  refine ⟨fun x => intText_word (Lemma.NumberText.intText_decimal x), fun x y h1 h2 h3 h4 h => ?_⟩
  have hx := C145_int_again x h1 h2
  have hy := C145_int_again y h3 h4
  unfold showInt at hx hy
  rw [h, hy] at hx
  exact (Option.some.inj hx).symm

end Schnek.Props
