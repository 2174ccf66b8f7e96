import Verif.Spec.Hll
import Verif.Spec.Stats
import Mathlib.Analysis.SpecialFunctions.Log.Basic
/-
Specification vocabulary for the HyperLogLog estimate.
-/
namespace Starbow.Spec

/-- what the theorems assume about `math.Log`: on positive doubles it is the natural logarithm up to a relative error of
`2^-50` (Go documents and tests an error below one unit in the last place, which is at most `2^-52`) -/
def LogOk (log : F64 → F64) : Prop :=
  ∀ (x : F64) (q : ℚ), IsDouble x → value x = some q → 0 < q →
    ∃ r : ℚ, value (log x) = some r ∧ |(r : ℝ) - Real.log q| ≤ |Real.log q| / 2 ^ 50

/-- the number of registers that none of the hashes selects -/
def emptyRegisters (p : Nat) (hs : List Nat) : Nat :=
  ((List.range (2 ^ p)).filter fun i => hs.all fun h => hllIndex p h != i).length

/-- the linear counting estimate for `v` empty registers out of `2^p` -/
noncomputable def linearEstimate (p v : Nat) : ℝ := 2 ^ p * Real.log (2 ^ p / v)

/-- the published thresholds up to which linear counting is used (Heule, Nunkesser, Hall 2013) -/
def linearThreshold (p : Nat) : Nat :=
  [10, 20, 40, 80, 220, 400, 900, 1800, 3100, 6500, 11500, 20000, 50000, 120000, 350000].getD (p - 4) 0

end Starbow.Spec
