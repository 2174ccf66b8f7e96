import Verif.Model.Seqlock
/-
What a seqlock should do: hold `n` bytes, replaced by Put and by an Update whose function returns nil.
-/
namespace Starbow.Spec
open Starbow.Seqlock

/-- the first `n` bytes of `v` (all of `v` if it has `n` bytes) -/
def fit (n : Nat) (v : Bytes) : Bytes := (List.range n).map fun i => v.getD i 0

/-- the contents after a call that takes effect alone -/
def seqAfter (n : Nat) (d : Bytes) : Op → Bytes
  | .put v => fit n v
  | .update fn =>
    match (fn d).2 with
    | .val none => fit n (fn d).1
    | _ => d
  | .get => d

/-- the error such a call returns -/
def seqErr (d : Bytes) : Op → Out (Option Err)
  | .put _ => .val none
  | .update fn => (fn d).2
  | .get => .val none

/-- the contents after a sequence of calls -/
def seqRun (n : Nat) (ops : List Op) : Bytes := ops.foldl (seqAfter n) (List.replicate n 0)

end Starbow.Spec
