import Verif.Model.Diagnostic
import Mathlib.Logic.Function.Basic

/-!
# Model of diagnostics that write text files

`SimpleFileDiagnostic`: `src/diagnostic/diagnostic.hpp` 167-176, `src/diagnostic/diagnostic.t` 36-73

The diagnostic has a `std::ofstream`. Of the C++ library we model what the standard says about `open`, `<<`, `close` and the destructor:
the stream has a buffer, and characters may stay in it until the file is closed. Files can always be created and written. The text that
`<<` makes of a field is an argument.
-/

namespace Schnek.Diagnostic

/-- the files there are, and their contents -/
abbrev Disk := List Char → Option (List Char)

/-- `std::ofstream`: the name of the open file, the place in the file where the next character goes, the characters that are not yet in the
file, and whether the stream is in a failed state -/
structure Stream where
  file : Option (List Char)
  pos : ℕ
  buffer : List Char
  fail : Bool
deriving DecidableEq

/-- the stream of a new diagnostic: diagnostic.hpp 171 -/
def Stream.new : Stream := ⟨none, 0, [], false⟩

/-- the content of a file after some characters have been written at a place. If the place is behind the end of the file, there are zeros
between. -/
def overwrite (content : List Char) (pos : ℕ) (text : List Char) : List Char :=
  if text = [] then content
  else content.take pos ++ List.replicate (pos - content.length) '\x00' ++ text ++ content.drop (pos + text.length)

/-- the first `k` characters of the buffer are written to the file -/
def Stream.flush (k : ℕ) (s : Stream) (D : Disk) : Stream × Disk :=
  match s.file with
  | none => (s, D)
  | some f => ({ s with pos := s.pos + (s.buffer.take k).length, buffer := s.buffer.drop k },
      Function.update D f (some (overwrite ((D f).getD []) s.pos (s.buffer.take k))))

/-- `output.open(fname.c_str())`: diagnostic.t 59; the file is created or made empty. If the stream has a file open already, the call fails. -/
def Stream.openFile (name : List Char) (s : Stream) (D : Disk) : Stream × Disk :=
  match s.file with
  | none => (⟨some name, 0, [], false⟩, Function.update D name (some []))
  | some _ => ({ s with fail := true }, D)

/-- `output << *(this->field)`: diagnostic.t 66; `k` characters of the buffer go to the file at once. Nothing is written if the stream is in a
failed state, and if no file is open, this is a failure. -/
def Stream.write (text : List Char) (k : ℕ) (s : Stream) (D : Disk) : Stream × Disk :=
  if s.fail then (s, D)
  else match s.file with
    | none => ({ s with fail := true }, D)
    | some _ => Stream.flush k { s with buffer := s.buffer ++ text } D

/-- `output.close()`: diagnostic.t 72 -/
def Stream.close (s : Stream) (D : Disk) : Stream × Disk :=
  match s.file with
  | none => ({ s with fail := true }, D)
  | some _ => let r := s.flush s.buffer.length D
      ({ r.1 with file := none }, r.2)

/-- The destructor closes the file, if one is open: the destructor of the member `output`, diagnostic.hpp 171. (The call of `close()` in
`~SimpleDiagnostic`, diagnostic.t 36-40, comes afterwards and does nothing: it is made in the destructor of a base class.) -/
def Stream.destroy (s : Stream) (D : Disk) : Disk :=
  match s.file with
  | none => D
  | some _ => (s.flush s.buffer.length D).2

/-- a call to a virtual function of the diagnostic, the text of the field at that time, and the number of characters that go to the file at
once -/
structure Action where
  call : Call
  text : List Char
  flushed : ℕ

/-- `SimpleFileDiagnostic::open`, `write`, `close`: diagnostic.t 56-73 -/
def Action.run (a : Action) (s : Stream) (D : Disk) : Stream × Disk :=
  match a.call with
  | .open name => s.openFile name D
  | .write => s.write a.text a.flushed D
  | .close => s.close D

/-- several calls -/
def runActions (l : List Action) (s : Stream) (D : Disk) : Stream × Disk := l.foldl (fun r a => a.run r.1 r.2) (s, D)

/-- calls of several diagnostics, perhaps of several processes, that work with the same disk; each has its own stream -/
def runAll {ι : Type} [DecidableEq ι] (l : List (ι × Action)) (ss : ι → Stream) (D : Disk) : (ι → Stream) × Disk :=
  l.foldl (fun r ia => let x := ia.2.run (r.1 ia.1) r.2; (Function.update r.1 ia.1 x.1, x.2)) (ss, D)

end Schnek.Diagnostic
