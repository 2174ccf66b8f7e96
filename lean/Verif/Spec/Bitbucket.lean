import Verif.Model.Basic
/-
Specification used by the bit bucket properties: an array of saturating counters.
Nothing here mentions the model of bitbucket.go.
-/
namespace Starbow.Spec

/-- An operation of the API on a bit bucket. -/
inductive CounterOp where
  | set (i : Nat) (v : Byte)
  | inc (i : Nat) (v : Byte)
  | reset
  deriving Repr, DecidableEq

/-- the bucket index an operation touches is below `n` -/
def CounterOp.inRange (n : Nat) : CounterOp → Prop
  | .set i _ => i < n
  | .inc i _ => i < n
  | .reset => True

/-- Effect of one operation on an array of counters that saturate at `2^w - 1`. -/
def counterStep (w : Nat) (c : List Nat) : CounterOp → List Nat
  | .set i v => c.set i (min v.toNat (2 ^ w - 1))
  | .inc i v => c.set i (min (c.getD i 0 + v.toNat) (2 ^ w - 1))
  | .reset => List.replicate c.length 0

/-- `n` counters, all zero, after the given operations. -/
def counterRun (n w : Nat) (ops : List CounterOp) : List Nat :=
  ops.foldl (counterStep w) (List.replicate n 0)

end Starbow.Spec
