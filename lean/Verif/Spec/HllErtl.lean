import Verif.Spec.HllRaw
import Mathlib.Analysis.SpecialFunctions.Pow.Real
/-
The improved raw HyperLogLog estimate of Ertl, "New Cardinality Estimation Methods for HyperLogLog Sketches" (2016), which
the comments of hll.go name as what `PoissonCount` computes.
-/
namespace Starbow.Spec

/-- how many registers hold exactly `k` -/
def registersWith (p : Nat) (hs : List Nat) (k : Nat) : Nat :=
  ((List.range (2 ^ p)).filter fun i => decide (hllRegister p hs i = k)).length

/-- `σ(x) = x + Σ_{k ≥ 1} x^(2^k) 2^(k-1)` -/
noncomputable def ertlSigma (x : ℝ) : ℝ := x + ∑' k : ℕ, x ^ 2 ^ (k + 1) * 2 ^ k

/-- `τ(x) = (1 - x - Σ_{k ≥ 1} (1 - x^(2^-k))² 2^-k) / 3` -/
noncomputable def ertlTau (x : ℝ) : ℝ := (1 - x - ∑' k : ℕ, (1 - x ^ ((1 / 2 : ℝ) ^ (k + 1))) ^ 2 * (1 / 2 : ℝ) ^ (k + 1)) / 3

/-- the denominator: with `m = 2^p` registers, `q = 64 - p` and `C_k` registers holding `k` it is
`m σ(C_0/m) + Σ_{k=1..q} C_k 2^-k + m τ(1 - C_{q+1}/m) 2^-q` -/
noncomputable def ertlSum (p : Nat) (hs : List Nat) : ℝ :=
  2 ^ p * ertlSigma (registersWith p hs 0 / 2 ^ p)
    + ((List.range (64 - p)).map fun k => (registersWith p hs (k + 1) : ℝ) / 2 ^ (k + 1)).sum
    + 2 ^ p * ertlTau (1 - registersWith p hs (64 - p + 1) / 2 ^ p) / 2 ^ (64 - p)

/-- the published estimate: `α m² / denominator` with `α = 1 / (2 ln 2)` -/
noncomputable def ertlEstimate (p : Nat) (hs : List Nat) : ℝ := 1 / (2 * Real.log 2) * (2 ^ p) ^ 2 / ertlSum p hs

end Starbow.Spec
