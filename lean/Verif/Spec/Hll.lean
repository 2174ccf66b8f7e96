import Verif.Spec.Fnv
import Verif.Model.Basic
/-
Specification of HyperLogLog registers, independent of the model of hll.go: a value is hashed to 64 bits;
its top `p` bits select one of `2^p` registers and its rank is 1 + the number of leading zeros of the
remaining `64-p` bits; a register is the maximum rank seen.
-/
namespace Starbow.Spec

/-- register index of a 64-bit hash -/
def hllIndex (p : Nat) (h : Nat) : Nat := h / 2 ^ (64 - p)

/-- 1 + number of leading zeros of the low `64-p` bits -/
def hllRank (p : Nat) (h : Nat) : Nat :=
  1 + ((List.range (64 - p)).reverse.takeWhile fun b => !h.testBit b).length

/-- what register `i` must hold after the hashes `hs` have been recorded -/
def hllRegister (p : Nat) (hs : List Nat) (i : Nat) : Nat :=
  (hs.map fun h => if hllIndex p h = i then hllRank p h else 0).foldl max 0

end Starbow.Spec
