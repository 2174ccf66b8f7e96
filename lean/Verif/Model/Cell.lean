import Verif.Model.ProbeConc
/-
Sequence-locked buffers under concurrency: the writer protocol of bufmap.go:138-153 and seqlock.go:44-57, 61-79 and the
reader protocol of bufmap.go:66-85 and seqlock.go:23-42. Cell `x` is the `s` bytes from `x*s` of a flat array.
One step is one atomic operation, one mutex operation, or the access to a single byte. Memory is sequentially
consistent (the byte accesses of the Go code are data races, to which the Go memory model gives no meaning).
-/
namespace Starbow.Cell
open Starbow.Probe

/-- how a function passed to Update ends -/
inductive FnRes where
  | ret (e : Option Err)
  | panic
  deriving Repr, DecidableEq

/-- A function passed to Update: given the bytes of the cell and `init`, the single-byte writes it makes (offset and
value), in order, and how it ends. -/
abbrev CFn := Bytes → Bool → List (Nat × Byte) × FnRes

/-- history entry: call number, function, `init` flag -/
structure Entry where
  id : Nat
  fn : CFn
  init : Bool

/-- Shared state. `lock x` is the mutex (it records the holder, which Go does not). `cnt` (number of increments of
`seq`) and `log` (completed writes: cell and entry, in order of completion) are history variables that the code
does not have and the steps never consult. -/
structure Cells where
  seq : Nat → BitVec 32
  lock : Nat → Option Nat
  vals : Nat → Byte
  cnt : Nat → Nat
  log : List (Nat × Entry)

/-- zero-initialised cells -/
def init : Cells := ⟨fun _ => 0, fun _ => none, fun _ => 0, fun _ => 0, []⟩

/-- the bytes of cell `x` -/
def bytesOf (s : Nat) (c : Cells) (x : Nat) : Bytes := (List.range s).map fun j => c.vals (x * s + j)

/-- writer program counter -/
inductive WPC where
  /-- bufmap.go:141, seqlock.go:46, 63: waiting for the mutex -/
  | lock
  /-- bufmap.go:144: first increment of `seq` (and then the call of `fn`) -/
  | add1
  /-- bufmap.go:146: inside `fn`, `ws` still to be written -/
  | run (ws : List (Nat × Byte)) (r : FnRes)
  /-- bufmap.go:149: second increment -/
  | add2 (e : Option Err)
  /-- bufmap.go:152: unlock and return -/
  | unlock (e : Option Err)
  /-- the function panicked: the goroutine is gone, lines 149-152 never run -/
  | dead

inductive WRes where
  | go (p : WPC)
  | ret (e : Option Err)

/-- One step of a writer (goroutine `t`, cell `x`, call `e`); `none` if it cannot move. A write outside the cell is a
Go index-out-of-range panic inside `fn`. -/
def wstep (s t x : Nat) (e : Entry) (c : Cells) : WPC → Option (Cells × WRes)
  | .lock => if c.lock x = none then some ({ c with lock := upd c.lock x (some t) }, .go .add1) else none
  | .add1 =>
    let fr := e.fn (bytesOf s c x) e.init
    some ({ c with seq := upd c.seq x (c.seq x + 1), cnt := upd c.cnt x (c.cnt x + 1) }, .go (.run fr.1 fr.2))
  | .run [] (.ret err) => some (c, .go (.add2 err))
  | .run [] .panic => some (c, .go .dead)
  | .run ((o, v) :: ws) r =>
    if o < s then some ({ c with vals := upd c.vals (x * s + o) v }, .go (.run ws r)) else some (c, .go .dead)
  | .add2 err =>
    some ({ c with seq := upd c.seq x (c.seq x + 1), cnt := upd c.cnt x (c.cnt x + 1), log := c.log ++ [(x, e)] },
      .go (.unlock err))
  | .unlock err => some ({ c with lock := upd c.lock x none }, .ret err)
  | .dead => none

/-- reader program counter -/
inductive RPC where
  /-- bufmap.go:69, seqlock.go:26 -/
  | load1
  /-- bufmap.go:76-81, seqlock.go:33-38: `sq` was loaded (when `cnt` was `ct`), `got` has been copied -/
  | copy (sq : BitVec 32) (ct : Nat) (got : Bytes)
  deriving Repr, DecidableEq

inductive RRes where
  | go (p : RPC)
  /-- the bytes copied, and (history only) the increments of `seq` between the two loads of it -/
  | done (got : Bytes) (during : Nat)
  deriving Repr, DecidableEq

/-- One step of a reader copying the first `n` bytes of cell `x`. -/
def rstep (s x n : Nat) (c : Cells) : RPC → RRes
  | .load1 => if (c.seq x).toNat % 2 ≠ 0 then .go .load1 else .go (.copy (c.seq x) (c.cnt x) [])
  | .copy sq ct got =>
    if got.length < n then .go (.copy sq ct (got ++ [c.vals (x * s + got.length)]))
    else if sq = c.seq x then .done got (c.cnt x - ct)
    else .go .load1

end Starbow.Cell
