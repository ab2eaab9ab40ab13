import Verif.Model.Buffer
import Verif.Lemma.Mpi
import Mathlib.Tactic.NormNum

/-!
# C28: binary buffers
-/

namespace Schnek.Props

open Schnek Schnek.Buffer

variable {T : Type}

/-- The element type is trivially copyable: copying the bytes of an object yields an equal object. -/
structure TriviallyCopyable (L : Layout T) : Prop where
  pos : 0 < L.size
  length : ∀ x, (L.encode x).length = L.size
  decode : ∀ x, L.decode (L.encode x) = x

private theorem fill_eq {L : Layout T} (hL : TriviallyCopyable L) : ∀ (xs : List T) (done rest : List Byte),
    rest.length = xs.length * L.size →
    fill L xs done.length (done ++ rest) = some (done ++ xs.flatMap L.encode)
  | [], done, rest, h => by
    have : rest = [] := by simpa using h
    simp [fill, this]
  | x :: xs, done, rest, h => by
    have hp := hL.pos
    have hlen : rest.length = L.size + xs.length * L.size := by rw [h, List.length_cons]; ring
    have hx := hL.length x
    have hm : memcpy (done ++ rest) done.length (L.encode x) = some ((done ++ L.encode x) ++ rest.drop L.size) := by
      rw [memcpy, if_pos (by rw [List.length_append]; omega), hx, List.take_left, List.drop_append]
      simp
    rw [fill, if_pos (by rw [List.length_append]; omega), hm, Option.bind_some,
      show done.length + L.size = (done ++ L.encode x).length by rw [List.length_append, hx],
      fill_eq hL xs _ _ (by rw [List.length_drop]; omega)]
    simp

private theorem read_unique {L : Layout T} (hp : 0 < L.size) {buf : List Byte} {pos : ℕ} {l l' : List T}
    (h : ReadLoop L buf pos l) (h' : ReadLoop L buf pos l') : l = l' := by
  induction h generalizing l' with
  | done h => cases h' with
    | done => rfl
    | step hne => exact absurd h hne
  | step hne _ _ ih => cases h' with
    | done h => exact absurd h hne
    | step _ _ h2 => rw [ih h2]

private theorem read_encoded {L : Layout T} (hL : TriviallyCopyable L) : ∀ (xs : List T) (done : List Byte),
    ReadLoop L (done ++ xs.flatMap L.encode) done.length xs
  | [], done => .done (by simp)
  | x :: xs, done => by
    have hx := hL.length x
    have hp := hL.pos
    have ih := read_encoded hL xs (done ++ L.encode x)
    rw [List.length_append, hx, List.append_assoc] at ih
    have e : (done ++ (x :: xs).flatMap L.encode) = done ++ (L.encode x ++ xs.flatMap L.encode) := by simp
    have h := ReadLoop.step (L := L) (buf := done ++ (L.encode x ++ xs.flatMap L.encode)) (pos := done.length)
      (by simp only [List.length_append]; omega) (by simp only [List.length_append]; omega) ih
    rw [List.drop_left, ← hx, List.take_left, hL.decode] at h
    rw [e]
    exact h

/-- **C28** Whatever a buffer held before, after `makeBuffer` a loop over it ends, without reading past the end of the buffer, and
reads exactly the elements of the container in order. -/
theorem C28_round_trip (L : Layout T) (hL : TriviallyCopyable L) (fresh : ℕ → List Byte) (hf : ∀ k, (fresh k).length = k)
    (xs : List T) (hfit : xs.length * L.size < 2 ^ 31) :
    ∃ buf, makeBuffer L fresh xs = some buf ∧ buf.length = xs.length * L.size ∧ ∀ l, ReadLoop L buf 0 l ↔ l = xs := by
  have h := fill_eq hL xs [] (fresh (xs.length * L.size)) (hf _)
  rw [List.nil_append, List.nil_append, List.length_nil] at h
  refine ⟨xs.flatMap L.encode, by rw [makeBuffer, if_pos hfit, h], ?_, fun l => ⟨fun hl => ?_, ?_⟩⟩
  · rw [List.length_flatMap]
    simp [hL.length]
  · have := read_encoded hL xs []
    exact read_unique hL.pos hl this
  · rintro rfl
    exact read_encoded hL l []

/-- two byte integers, little endian -/
def exampleLayout : Layout UInt16 where
  size := 2
  encode x := [x.toUInt8, (x >>> 8).toUInt8]
  decode
    | [a, b] => a.toUInt16 + (b.toUInt16 <<< 8)
    | _ => 0

/-- non-vacuity -/
example : TriviallyCopyable exampleLayout ∧
    makeBuffer exampleLayout (fun k => List.replicate k 0) [258, 3] = some [2, 1, 3, 0] := by
  refine ⟨⟨by decide, fun _ => rfl, fun x => ?_⟩, by decide⟩
  show x.toUInt8.toUInt16 + ((x >>> 8).toUInt8.toUInt16 <<< 8) = x
  apply UInt16.toNat_inj.mp
  have := x.toNat_lt
  simp only [UInt16.toNat_add, UInt8.toNat_toUInt16, UInt16.toNat_toUInt8, UInt16.toNat_shiftLeft, UInt16.toNat_shiftRight,
    UInt16.reduceToNat, Nat.shiftLeft_eq, Nat.shiftRight_eq_div_pow]
  norm_num
  omega

/-- **C28** A buffer sent with `exchangeData` arrives unchanged at the neighbour: with positive orientation the next process in the
dimension receives it, otherwise the previous one, for any lengths of the buffers. -/
theorem C28_exchange_delivers {n : ℕ} (S : Mpi.Setup n) (dim : Fin n) (orientation : ℤ) (input : Mpi.Coord S → List Byte)
    (c : Mpi.Coord S) :
    exchangeData S dim orientation input (if orientation > 0 then Mpi.next S c dim else Mpi.prev S c dim) = input c := by
  simp only [exchangeData, List.take_length]
  split_ifs with h
  · rw [Lemma.Mpi.prev_next]
  · rw [Lemma.Mpi.next_prev]

end Schnek.Props
