/-
Basic vocabulary of the model: Go's fixed-width integers, byte slices, run-time panics, errors and
`encoding/binary.LittleEndian`.
-/
namespace Starbow

/-- Go `byte` / `uint8`. -/
abbrev Byte := BitVec 8
/-- A Go `[]byte` (contents only; aliasing is handled where it matters). -/
abbrev Bytes := List Byte
/-- Go `uint64`. -/
abbrev U64 := BitVec 64

/-- Result of running a piece of Go code that may panic at run time. -/
inductive Out (α : Type) where
  | val (a : α)
  | panic
  deriving Repr, DecidableEq

namespace Out
/-- Sequencing: a panic propagates. -/
def bind {α β : Type} (x : Out α) (f : α → Out β) : Out β :=
  match x with
  | val a => f a
  | panic => panic
instance : Monad Out where
  pure := val
  bind := bind
/-- the code did not panic -/
def noPanic {α : Type} : Out α → Bool
  | val _ => true
  | panic => false
@[simp] theorem bind_val {α β : Type} (a : α) (f : α → Out β) : (val a >>= f) = f a := rfl
@[simp] theorem bind_panic {α β : Type} (f : α → Out β) : ((panic : Out α) >>= f) = panic := rfl
@[simp] theorem pure_eq {α : Type} (a : α) : (pure a : Out α) = val a := rfl
end Out

deriving instance DecidableEq for Except

/-- The Go error values that occur in the modelled packages. -/
inductive Err where
  /-- bitbucket.go:18, bloom.go:21, hll.go:22 `ErrIncompatibleVersion` (one per package in Go;
  the model does not distinguish the packages) -/
  | incompatibleVersion
  /-- bitbucket.go:19 `ErrUnsupportedWidth` -/
  | unsupportedWidth
  /-- `io.ErrShortBuffer` -/
  | shortBuffer
  /-- `io.EOF` -/
  | eof
  /-- `io.ErrUnexpectedEOF` -/
  | unexpectedEOF
  /-- bufmap.go:14 `ErrInvalidKey` -/
  | invalidKey
  /-- bufmap.go:15 `ErrOutOfSlots` -/
  | outOfSlots
  /-- an error of `strconv.ParseFloat` -/
  | parseFloat
  /-- an error of `strconv.Atoi` -/
  | atoi
  /-- server.go:226 "row missing leading timestamp" -/
  | missingTimestamp
  /-- query syntax error, rough.go:22 -/
  | syntaxErr
  /-- `bufio.ErrTooLong` -/
  | tooLong
  /-- `context.Canceled` -/
  | canceled
  /-- any other error (of a reader, writer or user-supplied function), by number -/
  | other (n : Nat)
  deriving Repr, DecidableEq, Inhabited

/-- Wrap an unbounded integer to Go's 64-bit `int` (two's complement). -/
def wrap64 (x : Int) : Int := Int.bmod x (2 ^ 64)

/-- Go integer constants -/
def maxInt64 : Int := 2 ^ 63 - 1

/-- `binary.LittleEndian.PutUint64`: the 8 bytes of `x`, least significant first. -/
def le64 (x : U64) : Bytes :=
  (List.range 8).map fun i => (x >>> (8 * i)).setWidth 8

/-- `binary.LittleEndian.Uint64` of the first 8 bytes (missing bytes read as 0; every caller in the
model checks the length first, as Go would panic). -/
def leU64 (b : Bytes) : U64 :=
  (List.range 8).foldl (fun acc i => acc ||| ((b.getD i 0).setWidth 64 <<< (8 * i))) 0

/-- Bytes of an ASCII string literal; only used to write examples and constants. -/
def asc (s : String) : Bytes := s.toList.map fun c => BitVec.ofNat 8 c.toNat

/-- Go slice expression `b[lo:hi]` for in-range bounds. -/
def slice {α : Type} (b : List α) (lo hi : Nat) : List α := (b.drop lo).take (hi - lo)

/-- Overwrite `b` from position `lo` with `v` (Go: writing through the sub-slice `b[lo:lo+len(v)]`). -/
def splice {α : Type} (b : List α) (lo : Nat) (v : List α) : List α :=
  b.take lo ++ v ++ b.drop (lo + v.length)

end Starbow
