import Verif.Model.Probe
/-
Concurrent linear probing: one atomic memory operation per step. The loop of bufmap.go:101-136 (`Update`) and
incmap.go:37-68 (`Inc`) — the same code twice — and the loop of the two `Get`s.
-/
namespace Starbow.Probe

/-- write one element of a table -/
def upd {α : Type} (f : Nat → α) (i : Nat) (v : α) : Nat → α := fun j => if j = i then v else f j

/-- where a goroutine is in the loop -/
inductive PPC where
  /-- about to execute bufmap.go:108 / incmap.go:43, the first load, in iteration `i` -/
  | load (i : Nat)
  /-- about to execute bufmap.go:118 / incmap.go:51, the compare-and-swap -/
  | cas (i : Nat)
  /-- about to execute bufmap.go:125 / incmap.go:58, the second load -/
  | reload (i : Nat)
  deriving Repr, DecidableEq

/-- where it goes -/
inductive PRes where
  | go (pc : PPC) (init : Bool)
  | found (x : Nat) (init : Bool)
  | full
  deriving Repr, DecidableEq

/-- One step of the loop; `init` is the local variable of bufmap.go:103 (ignored by incmap). -/
def probeStep (l : Nat) (k : U64) (keys : Nat → U64) (init : Bool) : PPC → (Nat → U64) × PRes
  | .load i =>
    if keys (pos l k i) = k then (keys, .found (pos l k i) init)
    else if keys (pos l k i) = 0 then (keys, .go (.cas i) true)
    else (keys, .go (.reload i) true)
  | .cas i =>
    if keys (pos l k i) = 0 then (upd keys (pos l k i) k, .found (pos l k i) init)
    else (keys, .go (.reload i) init)
  | .reload i =>
    if keys (pos l k i) = k then (keys, .found (pos l k i) init)
    else if i + 1 > maxReprobe then (keys, .full)
    else (keys, .go (.load (i + 1)) init)

/-- One step of the loop of `Get` (bufmap.go:53-64, incmap.go:80-91) in iteration `i`: found at `x` (`inl`), not
found (`inr none`), or on to the next iteration. -/
def lookStep (l : Nat) (k : U64) (keys : Nat → U64) (i : Nat) : Sum Nat (Option Nat) :=
  if keys (pos l k i) = k then .inl (pos l k i)
  else if i + 1 > maxReprobe then .inr none
  else .inr (some (i + 1))

end Starbow.Probe
