import Verif.Model.Probe
/-
Sequential model of /repo/internal/incmap/incmap.go. The concurrent model is Verif/Model/IncmapConc.lean.
-/
namespace Starbow.Incmap
open Starbow.Probe

/-- incmap.go:11-15 `Map` -/
structure Map where
  l : Nat
  keys : List U64
  values : List U64
  deriving Repr, DecidableEq

/-- incmap.go:18-24 `New` -/
def new (l : Nat) : Map := ⟨l, List.replicate l 0, List.replicate l 0⟩

/-- keys by slot index -/
def Map.keyAt (m : Map) (x : Nat) : U64 := m.keys.getD x 0

/-- incmap.go:31-72 `Inc` -/
def inc (m : Map) (k d : U64) : Out (Map × Bool) :=
  if k = 0 then .val (m, false)
  else if m.l = 0 then .panic
  else
    match claim m.keyAt m.l k (maxReprobe + 1) 0 false with
    | .full => .val (m, false)
    | .at x _ => .val ({ m with keys := m.keys.set x k, values := m.values.set x (m.values.getD x 0 + d) }, true)

/-- incmap.go:76-94 `Get` -/
def get (m : Map) (k : U64) : Out (U64 × Bool) :=
  if m.l = 0 then .panic
  else
    match lookup m.keyAt m.l k (maxReprobe + 1) 0 with
    | none => .val (0, false)
    | some x => .val (m.values.getD x 0, true)

end Starbow.Incmap
