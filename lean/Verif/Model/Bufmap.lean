import Verif.Model.Probe
/-
Sequential model of /repo/internal/bufmap/bufmap.go (one call at a time). The concurrent model is
Verif/Model/BufmapConc.lean.
-/
namespace Starbow.Bufmap
open Starbow.Probe

/-- What a call does: return, panic, or never return. -/
inductive Res (α : Type) where
  | ret (a : α)
  | panic
  | hang
  deriving Repr, DecidableEq

/-- bufmap.go:38-42 `slot` -/
structure Slot where
  key : U64
  seq : BitVec 32
  locked : Bool
  deriving Repr, DecidableEq, Inhabited

/-- bufmap.go:21-26 `Map` -/
structure Map where
  l : Nat
  s : Nat
  keys : List Slot
  values : Bytes
  deriving Repr, DecidableEq

/-- bufmap.go:29-36 `New` (for non-negative `l`, `s` whose product is a possible slice length; `make`
panics otherwise) -/
def new (l s : Nat) : Map :=
  ⟨l, s, List.replicate l ⟨0, 0, false⟩, List.replicate (l * s) 0⟩

/-- keys by slot index -/
def Map.keyAt (m : Map) (x : Nat) : U64 := (m.keys.getD x ⟨0, 0, false⟩).key

/-- An update function: given the bytes of the slot and `init`, it writes bytes (the result list, of which
only the first `len(data)` matter: the slice length is fixed) and returns an error or nil, or panics. The
first component is what is left in the buffer in either case. -/
abbrev Fn := Bytes → Bool → Bytes × Out (Option Err)

/-- writing `new` over the fixed-size buffer `old` -/
def overwrite (old new : Bytes) : Bytes := (new ++ old.drop new.length).take old.length

/-- bufmap.go:49-88 `Get`. Line 76 copies `m.values[x*m.s:x*(m.s+1)]` — the upper bound is as in the code.
A slot whose sequence number is odd makes the loop spin for ever when nobody is writing. -/
def get (m : Map) (k : U64) (buf : Bytes) : Res (Bool × Bytes) :=
  if m.l = 0 then .panic
  else
    match lookup m.keyAt m.l k (maxReprobe + 1) 0 with
    | none => .ret (false, buf)
    | some x =>
      let sl := m.keys.getD x ⟨0, 0, false⟩
      if sl.seq.toNat % 2 ≠ 0 then .hang
      else if x * (m.s + 1) > m.values.length then .panic
      else
        let src := slice m.values (x * m.s) (x * (m.s + 1))
        .ret (true, src.take buf.length ++ buf.drop src.length)

/-- bufmap.go:95-154 `Update`. A locked slot (left behind by a panicking function: the unlock on line 152 is
not deferred) makes line 141 block for ever. -/
def update (m : Map) (k : U64) (fn : Fn) : Map × Res (Option Err) :=
  if k = 0 then (m, .ret (some .invalidKey))
  else if m.l = 0 then (m, .panic)
  else
    match claim m.keyAt m.l k (maxReprobe + 1) 0 false with
    | .full => (m, .ret (some .outOfSlots))
    | .at x init =>
      let sl := m.keys.getD x ⟨0, 0, false⟩
      let m := { m with keys := m.keys.set x { sl with key := k } }
      if sl.locked then (m, .hang)
      else
        let data := slice m.values (x * m.s) ((x + 1) * m.s)
        let (out, r) := fn data init
        let m := { m with values := splice m.values (x * m.s) (overwrite data out) }
        match r with
        | .panic => ({ m with keys := m.keys.set x ⟨k, sl.seq + 1, true⟩ }, .panic)
        | .val e => ({ m with keys := m.keys.set x ⟨k, sl.seq + 2, false⟩ }, .ret e)

end Starbow.Bufmap
