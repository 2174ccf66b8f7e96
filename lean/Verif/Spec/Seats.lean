import Verif.Spec.Store
/-
Where keys are kept: linear probing, described without the table. Each key takes the first free one of its candidate slots when it is first
seen and keeps it for ever.
-/
namespace Starbow.Spec
open Starbow.Collation Starbow.Storage

/-- the slots a key may take: its home slot and the ten after it, around the end -/
def candidates (l : Nat) (k : U64) : List Nat := (List.range 11).map fun j => (k.toNat + j) % l

/-- the keys seen so far that have found a slot, with their slots -/
abbrev Seating := List (U64 × Nat)

/-- the slot of a key -/
def Seating.slot (t : Seating) (k : U64) : Option Nat := (t.find? fun p => p.1 = k).map Prod.snd

/-- a key is seen: 0 is no key; a key that has a slot keeps it; a new key takes its first candidate nobody has taken, if there is one -/
def Seating.see (l : Nat) (t : Seating) (k : U64) : Seating :=
  if k = 0 ∨ t.slot k ≠ none then t
  else
    match (candidates l k).find? fun x => x ∉ t.map Prod.snd with
    | some x => t ++ [(k, x)]
    | none => t

/-- keys seen one after the other -/
def seating (l : Nat) (ks : List U64) : Seating := ks.foldl (Seating.see l) []

/-- the keys of the calls that were not cancelled, in order -/
def keysOf (keys : List Bytes) (os : List Obs) : List U64 :=
  os.filterMap fun o => if o.canceled then none else keyValue o.row.data keys

/-- the slot of key `k` in a table of `l` slots after these calls of Write -/
def slotAfter (keys : List Bytes) (l : Nat) (os : List Obs) (k : U64) : Option Nat := (seating l (keysOf keys os)).slot k

end Starbow.Spec
