import Verif.Spec.HllEst
/-
The published raw HyperLogLog estimate (Flajolet, Fusy, Gandouet, Meunier 2007).
-/
namespace Starbow.Spec

/-- numerator of the published constant: 0.673, 0.697, 0.709, and 0.7213/(1 + 1.079/m) for `m = 2^p` from 128 on -/
def alphaNum (p : Nat) : Nat := if p = 4 then 673 else if p = 5 then 697 else if p = 6 then 709 else 7213 * 2 ^ p

/-- denominator of the published constant -/
def alphaDen (p : Nat) : Nat := if p ≤ 6 then 1000 else 10000 * 2 ^ p + 10790

/-- the published constant for `2^p` registers -/
noncomputable def publishedAlpha (p : Nat) : ℝ := alphaNum p / alphaDen p

/-- the sum of `2^-M` over the contents `M` of all registers -/
noncomputable def registerSum (p : Nat) (hs : List Nat) : ℝ :=
  ((List.range (2 ^ p)).map fun i => (1 : ℝ) / 2 ^ hllRegister p hs i).sum

/-- the published raw estimate `α m² / Σ 2^-M` -/
noncomputable def rawEstimate (p : Nat) (hs : List Nat) : ℝ := publishedAlpha p * (2 ^ p) ^ 2 / registerSum p hs

/-- numerator of the constant hll.go:69-79 is meant to use: the published one up to 256 registers, 0.7213475 above -/
def usedNum (p : Nat) : Nat := if p ≤ 8 then alphaNum p else 7213475

/-- denominator of the constant hll.go:69-79 is meant to use -/
def usedDen (p : Nat) : Nat := if p ≤ 8 then alphaDen p else 10000000

/-- the constant hll.go:69-79 is meant to use for `2^p` registers: the published one up to 256 registers, 0.7213475 above -/
noncomputable def usedAlpha (p : Nat) : ℝ := usedNum p / usedDen p

/-- the raw estimate with this constant -/
noncomputable def usedEstimate (p : Nat) (hs : List Nat) : ℝ := usedAlpha p * (2 ^ p) ^ 2 / registerSum p hs

/-- the sum that hll.go:150-164 forms: like `registerSum`, but an empty register contributes one half -/
noncomputable def countedSum (p : Nat) (hs : List Nat) : ℝ :=
  ((List.range (2 ^ p)).map fun i => if hllRegister p hs i = 0 then (1 : ℝ) / 2 else 1 / 2 ^ hllRegister p hs i).sum

/-- where `Count` changes from one estimator to the other: a seventh of `α m` -/
noncomputable def countLimit (p : Nat) : ℝ := usedAlpha p * 2 ^ p / 7

/-- how many registers hold at most `R` -/
def registersUpTo (p : Nat) (hs : List Nat) (R : Nat) : Nat :=
  ((List.range (2 ^ p)).filter fun i => decide (hllRegister p hs i ≤ R)).length

end Starbow.Spec
