import Verif.Model.Mpi

/-!
# Model of `schnek::DataBuffer` and of `MPICartSubdivision::exchangeData`

`src/util/databuffer.hpp`, `src/util/databuffer.t`, `src/grid/mpisubdivision.t` 386-415
-/

namespace Schnek.Buffer

abbrev Byte := UInt8

/-- The element type: its size and its object representation. -/
structure Layout (T : Type) where
  /-- `sizeof(T)` -/
  size : ℕ
  /-- the bytes of an object -/
  encode : T → List Byte
  /-- the object at some bytes -/
  decode : List Byte → T

variable {T : Type} (L : Layout T)

/-- `memcpy(buf + pos, src, src.length)`; `none` if it writes past the end -/
def memcpy (buf : List Byte) (pos : ℕ) (src : List Byte) : Option (List Byte) :=
  if pos + src.length ≤ buf.length then some (buf.take pos ++ src ++ buf.drop (pos + src.length)) else none

/-- The loop of `makeBuffer`: databuffer.t 42-49. `buffer(pos)` has an assertion that `pos` is within the buffer. -/
def fill : List T → ℕ → List Byte → Option (List Byte)
  | [], _, buf => some buf
  | x :: xs, pos, buf =>
    if pos < buf.length then (memcpy buf pos (L.encode x)).bind (fill xs (pos + L.size)) else none

/-- `makeBuffer(container)`: databuffer.t 33-50. `fresh k` is the contents of the buffer after `resize` to `k` bytes, which is
unspecified. `none`: `int` overflow in the computation of the size, failed assertion or write past the end of the buffer. -/
def makeBuffer (fresh : ℕ → List Byte) (xs : List T) : Option (List Byte) :=
  if xs.length * L.size < 2 ^ 31 then fill L xs 0 (fresh (xs.length * L.size)) else none

/-- `for (it = buffer.begin(); it != buffer.end(); ++it) use(*it)`: databuffer.hpp 45-114. `ReadLoop L buf pos l`: from position
`pos` the loop reads the elements `l` and ends. Reading past the end of the buffer is not a `ReadLoop`. -/
inductive ReadLoop (buf : List Byte) : ℕ → List T → Prop
  | done {pos} : pos = buf.length → ReadLoop buf pos []
  | step {pos l} : pos ≠ buf.length → pos + L.size ≤ buf.length → ReadLoop buf (pos + L.size) l →
      ReadLoop buf pos (L.decode ((buf.drop pos).take L.size) :: l)

/-- `exchangeData(dim, orientation, in, out)` in all processes: mpisubdivision.t 386-415. The first `MPI_Sendrecv` transfers the
lengths, the second the bytes. `input c` is `in` of process `c`, the result is `out` of each process. -/
def exchangeData {n : ℕ} (S : Mpi.Setup n) (dim : Fin n) (orientation : ℤ) (input : Mpi.Coord S → List Byte) :
    Mpi.Coord S → List Byte :=
  let recvCoord c := if orientation > 0 then Mpi.prev S c dim else Mpi.next S c dim
  let recvSize c := (input (recvCoord c)).length
  fun c => (input (recvCoord c)).take (recvSize c)

end Schnek.Buffer
