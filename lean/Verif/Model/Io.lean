import Verif.Model.Basic
/-
Model of the parts of Go's `io` package the repository relies on: `io.Reader`, `io.ReadFull`,
`io.Writer`. This is library behaviour (not in /repo); it is part of the trusted base.
-/
namespace Starbow

/-- One scripted response of a reader: some bytes and the error returned together with the last of
them (the io.Reader contract allows `n > 0` with a non-nil error, and `0, nil`). -/
structure Chunk where
  data : Bytes
  err : Option Err
  deriving Repr, DecidableEq

/-- An arbitrary finite reader: a script of responses, then `0, io.EOF` for ever. -/
abbrev Reader := List Chunk

/-- One call `r.Read(p)` with `len(p) = n`: deliver the next chunk, or its first `n` bytes if it does
not fit. -/
def Reader.read (r : Reader) (n : Nat) : (Bytes × Option Err) × Reader :=
  match r with
  | [] => (([], some .eof), [])
  | c :: rest =>
    if c.data.length ≤ n then ((c.data, c.err), rest)
    else ((c.data.take n, none), { c with data := c.data.drop n } :: rest)

theorem Reader.read_measure (r : Reader) (n : Nat) (h : (r.read n).1.2 = none) (hn : 0 < n) :
    (r.read n).2.length + (n - (r.read n).1.1.length) < r.length + n := by
  unfold Reader.read at *
  split at h
  · simp at h
  · split
    · simp; omega
    · simp; omega

/-- `io.ReadFull(r, buf)` with `len(buf) = want` (io.ReadAtLeast): read until `want` bytes are there or
an error occurs; an EOF after at least one byte becomes `io.ErrUnexpectedEOF`; an error that comes with
the last needed byte is dropped. `acc` holds the bytes read so far. Returns the bytes, the error and
the rest of the reader. -/
def readFull (r : Reader) (want : Nat) (acc : Bytes) : (Bytes × Option Err) × Reader :=
  if hw : want ≤ acc.length then ((acc, none), r)
  else
    match h : r.read (want - acc.length) with
    | ((d, none), r') => readFull r' want (acc ++ d)
    | ((d, some e), r') =>
      let acc' := acc ++ d
      if want ≤ acc'.length then ((acc', none), r')
      else if acc'.length > 0 ∧ e = .eof then ((acc', some .unexpectedEOF), r')
      else ((acc', some e), r')
termination_by r.length + (want - acc.length)
decreasing_by
  have := Reader.read_measure r (want - acc.length) (by rw [h]) (by omega)
  rw [h] at this
  simp at this ⊢
  omega

/-- `bytes.NewReader(d)` (also `strings.NewReader`): delivers as much as fits, never together with an
error, then EOF. -/
def bytesReader (d : Bytes) : Reader := if d = [] then [] else [⟨d, none⟩]

/-- A reader that delivers the given chunks, each without error. -/
def chunkReader (cs : List Bytes) : Reader := cs.map fun c => ⟨c, none⟩

/-- An `io.Writer` that accepts `room` more bytes (`none`: unlimited, like `bytes.Buffer`) and then
fails with `err`. -/
structure Writer where
  out : Bytes
  room : Option Nat
  err : Err
  deriving Repr, DecidableEq

/-- `w.Write(p)`: returns the number of bytes accepted and the error (`n < len(p)` implies an error,
as the io.Writer contract demands). -/
def Writer.write (w : Writer) (p : Bytes) : (Nat × Option Err) × Writer :=
  match w.room with
  | none => ((p.length, none), { w with out := w.out ++ p })
  | some k =>
    if p.length ≤ k then ((p.length, none), { w with out := w.out ++ p, room := some (k - p.length) })
    else ((k, some w.err), { w with out := w.out ++ p.take k, room := some 0 })

/-- a fresh `bytes.Buffer` -/
def Writer.buffer : Writer := ⟨[], none, .eof⟩

end Starbow
