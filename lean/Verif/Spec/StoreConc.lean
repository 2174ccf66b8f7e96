import Verif.Model.StoreConc
import Verif.Spec.Cell
import Verif.Spec.Store
/-
Vocabulary for the concurrent store: which writes were started and which have returned, and records as the result of serving rows one
after the other.
-/
namespace Starbow.Spec
open Starbow.Collation Starbow.StoreConc

/-- call `i` is a Write of the row `r`, and the key fields of `r` hash to `k` -/
def WriteOf (keys : List Bytes) (k : U64) (σ : State) (i : Nat) (r : Row) : Prop :=
  σ.calls[i]? = some (.write r) ∧ keyValue r.data keys = some k

/-- the writes of key `k` started so far, by number -/
def startedWrites (keys : List Bytes) (k : U64) (σ : State) : List Nat :=
  (List.range σ.calls.length).filter fun i =>
    match σ.calls[i]? with
    | some (.write r) => keyValue r.data keys = some k
    | _ => false

/-- the call has run the update of the record (whatever that returned) and has returned -/
def ran (σ : State) (i : Nat) : Bool :=
  σ.m.rets.any fun p => p.1 == i && match p.2 with | .ran _ => true | _ => false

/-- the writes of key `k` that have returned after updating the record -/
def doneWrites (keys : List Bytes) (k : U64) (σ : State) : List Nat := (startedWrites keys k σ).filter (ran σ)

/-- a Write in its place in a serial order: number, row and whether it was told that the record is new -/
structure Served where
  id : Nat
  row : Row
  new : Bool

/-- the record that results from serving rows one after the other, starting from zeroes -/
def servedRecord (lib : Lib) (c : Collator) (ws : List Served) : Bytes :=
  ws.foldl (fun b w => (Collation.update lib c w.row b w.new).1) (blank c)

/-- `ws` is an order of writes of key `k` of the run up to `σ`, none twice, that respects time: for every moment `τ` of the run, the writes
that had returned by then come first and those started later come last -/
structure SerialOrder (lib : Lib) (c : Collator) (l : Nat) (k : U64) (σ : State) (ws : List Served) : Prop where
  once : (ws.map Served.id).Nodup
  writes : ∀ w ∈ ws, WriteOf c.keys k σ w.id w.row
  time : ∀ τ, Steps lib c l init τ → Steps lib c l τ σ →
    ∃ a b, ws = a ++ b ∧ (∀ i ∈ doneWrites c.keys k τ, i ∈ a.map Served.id) ∧ ∀ w ∈ a, w.id ∈ startedWrites c.keys k τ

end Starbow.Spec
