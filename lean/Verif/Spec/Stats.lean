import Verif.Model.F64
import Mathlib.Algebra.Order.Field.Rat
import Mathlib.Algebra.BigOperators.Group.List.Basic
/-
Specification vocabulary for statistics: exact values of doubles, arithmetic mean, sample variance.
-/
namespace Starbow.Spec

/-- the exact value of a finite double (`fin neg mag` is `±mag` units of `2^-1074`); NaN and the infinities have none -/
def value : F64 → Option ℚ
  | .fin neg mag => some ((if neg then -(mag : ℚ) else mag) / 2 ^ 1074)
  | _ => none

/-- `x` is one of the doubles, i.e. the number some 64-bit pattern stands for -/
def IsDouble (x : F64) : Prop := ∃ b : U64, F64.ofBits b = x

/-- not NaN and not infinite -/
def IsFinite (x : F64) : Prop := ∃ q, value x = some q

/-- arithmetic mean -/
def meanOf (xs : List ℚ) : ℚ := xs.sum / xs.length

/-- unbiased sample variance: squared distances from the mean, divided by one less than their number -/
def sampleVar (xs : List ℚ) : ℚ := (xs.map fun x => (x - meanOf xs) ^ 2).sum / (xs.length - 1)

end Starbow.Spec
