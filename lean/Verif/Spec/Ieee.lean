import Mathlib.Analysis.SpecialFunctions.Pow.Real
import Verif.Spec.Stats
/-
What IEEE 754 says about binary64, in terms of exact values: which numbers are doubles and what rounding to nearest, ties to even,
means. Used in `Props/Ieee.lean` to check the arithmetic of `Model/F64.lean`.
-/
namespace Starbow.Spec

/-- the finite doubles are the numbers `m * 2^(e - 1074)` with an integer `|m| < 2^53` and an exponent `0 ≤ e ≤ 2045` -/
def Binary64 (q : ℚ) : Prop := ∃ (m : ℤ) (e : ℕ), |m| < 2 ^ 53 ∧ e ≤ 2045 ∧ q = m * 2 ^ e / 2 ^ 1074

/-- the last bit of the significand is 0, where the significand is normalised (`2^52 ≤ |m|`) unless the number is subnormal -/
def EvenSignificand (q : ℚ) : Prop :=
  ∃ (m : ℤ) (e : ℕ), |m| < 2 ^ 53 ∧ (2 ^ 52 ≤ |m| ∨ e = 0) ∧ Even m ∧ q = m * 2 ^ e / 2 ^ 1074

/-- `r` is the exact result `x` rounded to the nearest double, of two nearest ones to that with the even significand; from
`2^1024 - 2^970` on (half-way between the greatest double and the next number if there were no limit) to infinity -/
def Rounded (x : ℝ) (r : F64) : Prop :=
  (|x| < 2 ^ 1024 - 2 ^ 970 → ∃ q : ℚ, value r = some q ∧ Binary64 q ∧
    ∀ p : ℚ, Binary64 p → p ≠ q → |x - q| < |x - p| ∨ |x - q| = |x - p| ∧ EvenSignificand q) ∧
  (2 ^ 1024 - 2 ^ 970 ≤ x → r = .inf false) ∧ (x ≤ -(2 ^ 1024 - 2 ^ 970) → r = .inf true)

/-- sign bit of a double that is not NaN -/
def signBit : F64 → Option Bool
  | .nan => none
  | .inf s => some s
  | .fin s _ => some s

end Starbow.Spec
