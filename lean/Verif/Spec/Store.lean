import Verif.Spec.Collation
import Verif.Spec.Bufmap
/-
Vocabulary for the store properties: a fresh store, histories of writes with their outcomes, and which observations reached the
record of a key.
-/
namespace Starbow.Spec
open Starbow.Collation Starbow.Storage

/-- a store as set up by demo.go:50-63: a map of `l` slots of `Size()` bytes (the program has l = 5000) -/
def newStore (sch : Schema) (l : Nat) : Store := ⟨Bufmap.new l (compile sch).size.toNat, compile sch⟩

/-- one call of Write: the row, and whether the context is already cancelled -/
structure Obs where
  row : Row
  canceled : Bool := false

/-- calls of Write in order, whatever their outcome, with the outcomes -/
def writes (lib : Lib) (st : Store) : List Obs → Store × List (Obs × Bufmap.Res (Option Err))
  | [] => (st, [])
  | o :: os =>
    let w := write lib st o.canceled o.row
    let t := writes lib w.1 os
    (t.1, (o, w.2) :: t.2)

/-- Write did not refuse to touch the record: it returned, with nil or an error of the update itself, i.e. none of context
cancelled, invalid key and out of slots -/
def touched : Bufmap.Res (Option Err) → Bool
  | .ret none => true
  | .ret (some e) => e ≠ .canceled && e ≠ .invalidKey && e ≠ .outOfSlots
  | _ => false

/-- the rows whose key fields hash to `k` and that reached the record, in order -/
def rowsFor (keys : List Bytes) (k : U64) (done : List (Obs × Bufmap.Res (Option Err))) : List Row :=
  (done.filter fun p => keyValue p.1.row.data keys = some k && touched p.2).map fun p => p.1.row

/-- all rows of the history whose key fields hash to `k` -/
def rowsWith (keys : List Bytes) (k : U64) (os : List Obs) : List Row :=
  (os.map Obs.row).filter fun r => keyValue r.data keys = some k

/-- `select count(*) where …` with the criteria `crit` -/
def countQuery (crit : List FV) : Query := ⟨[⟨asc "*", [asc "count"]⟩], crit⟩

/-- the answer "count(*) = n" (the count is a 64-bit number, reported as a double) -/
def countIs (n : Nat) : Bufmap.Res (List FMV × Option Err) :=
  .ret ([⟨asc "*", asc "count", F64.ofU64 (BitVec.ofNat 64 n)⟩], none)

/-- the answer for a key without a record -/
def noRecord : Bufmap.Res (List FMV × Option Err) := .ret ([], none)

/-- no two different keys of the history have the same home slot -/
def HomesApart (keys : List Bytes) (l : Nat) (os : List Obs) : Prop :=
  ∀ o ∈ os, ∀ o' ∈ os, ∀ k k', keyValue o.row.data keys = some k → keyValue o'.row.data keys = some k' →
    k.toNat % l = k'.toNat % l → k = k'

end Starbow.Spec
