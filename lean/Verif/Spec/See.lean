import Mathlib.Analysis.SpecialFunctions.Pow.Real
/-
Specification of the standard error of the estimate.
-/
namespace Starbow.Spec

/-- the root of the squared distances from the estimate `e`, added up and divided by two less than their number -/
noncomputable def standardError (xs : List ℚ) (e : ℚ) : ℝ := Real.sqrt (((xs.map fun x => (x - e) ^ 2).sum / (xs.length - 2) : ℚ) : ℝ)

end Starbow.Spec
