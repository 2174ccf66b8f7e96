import Verif.Spec.HllEst
import Mathlib.Data.List.Dedup
/-
Specification vocabulary for the precision of a HyperLogLog counter.
-/
namespace Starbow.Spec

/-- the number of different values in a list -/
def distinct (vs : List Bytes) : Nat := vs.dedup.length

/-- the number of registers that the hashes of some values select at precision `p` -/
def usedRegisters (p : Nat) (vs : List Bytes) : Nat := (vs.map fun v => hllIndex p (fnv1 (nats v))).dedup.length

end Starbow.Spec
