import Verif.Model.Basic
/-
Linear probing, the code shared (by duplication) between /repo/internal/bufmap/bufmap.go and
/repo/internal/incmap/incmap.go.
-/
namespace Starbow.Probe

/-- bufmap.go:45, incmap.go:26 `maxReprobe` -/
def maxReprobe : Nat := 10

/-- bufmap.go:159-161, incmap.go:99-101 `pos`: `int((k%uint64(m.l) + uint64(i)) % uint64(m.l))`.
`l` is a Go `int`, so `k%l + i` (with `i <= 10`) cannot wrap around; `l = 0` (integer divide by zero
panic) is dealt with by the callers. -/
def pos (l : Nat) (k : U64) (i : Nat) : Nat := (k.toNat % l + i) % l

/-- Outcome of looking for a slot. -/
inductive Found where
  /-- slot index and (bufmap only) the `init` flag -/
  | at (x : Nat) (init : Bool)
  | full
  deriving Repr, DecidableEq

/-- bufmap.go:51-64, incmap.go:78-91: the loop of `Get` from probe `i` with `n` probes left. -/
def lookup (keys : Nat → U64) (l : Nat) (k : U64) : Nat → Nat → Option Nat
  | 0, _ => none
  | n + 1, i => if keys (pos l k i) = k then some (pos l k i) else lookup keys l k n (i + 1)

/-- bufmap.go:101-136, incmap.go:37-68: the loop of `Update`/`Inc`, run without interference (so that the
compare-and-swap of line 118 / 51 succeeds and the re-read of line 125 / 58 sees the value read before),
from probe `i` with `n` probes left. Returns the slot, whether the key must be stored into it, and `init`. -/
def claim (keys : Nat → U64) (l : Nat) (k : U64) : Nat → Nat → Bool → Found
  | 0, _, _ => .full
  | n + 1, i, init =>
    if keys (pos l k i) = k then .at (pos l k i) init
    else if keys (pos l k i) = 0 then .at (pos l k i) true
    else claim keys l k n (i + 1) true

end Starbow.Probe
