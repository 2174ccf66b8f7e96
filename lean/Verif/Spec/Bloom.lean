import Verif.Spec.Fnv
import Verif.Spec.HllEst
import Mathlib.Analysis.SpecialFunctions.Exp
/-
Specification vocabulary for bloom filters: which bits a value selects (double hashing), how many bits a set of values selects, and the
textbook formulas for size, number of hash functions and number of items.
-/
namespace Starbow.Spec

/-- the number of positions that are used: an odd number of bits above 2 is rounded down to an even one -/
def bloomRange (m : Nat) : Nat := if m % 2 = 1 ∧ 2 < m then m - 1 else m

/-- the distance between successive positions: the FNV-1a hash, made odd -/
def bloomStride (v : Bytes) : Nat := if fnv1a (nats v) % 2 = 0 then fnv1a (nats v) + 1 else fnv1a (nats v)

/-- the `i`-th position selected by a value: start at the FNV-1 hash and add the stride `i` times, in 64-bit arithmetic, reducing modulo
the range each time -/
def bloomPosition (m : Nat) (v : Bytes) (i : Nat) : Nat :=
  ((fun a => (a + bloomStride v) % 2 ^ 64 % bloomRange m)^[i] (fnv1 (nats v))) % bloomRange m

/-- the bits (out of `m`) that `k` hash functions select for some of the values -/
def bloomBits (m k : Nat) (vs : List Bytes) : List Nat :=
  (List.range m).filter fun x => vs.any fun v => (List.range k).any fun i => bloomPosition m v i == x

/-- `m/k ln(m/(m-x))`: how many values account for `x` set bits out of `m` when each sets `k` bits at random -/
noncomputable def itemsFor (m k x : Nat) : ℝ := (m : ℝ) / k * Real.log ((m : ℝ) / ((m : ℝ) - x))

/-- `n ln(1/p) / (ln 2)^2`: the number of bits for `n` values and a rate `p` of false positives -/
noncomputable def bitsFor (n : Nat) (p : ℝ) : ℝ := n * Real.log (1 / p) / Real.log 2 ^ 2

/-- `(1 - e^(-kx/m))^k` -/
noncomputable def rateFor (m k x : Nat) : ℝ := (1 - Real.exp (-((k : ℝ) * x / m))) ^ k

/-- what the theorems assume about `math.Exp`: 1 at 0, and the exponential function up to a relative error of `2^-50` on numbers from
-255 to 0 (where nothing underflows), not above 1 -/
structure ExpOk (exp : F64 → F64) : Prop where
  zero : ∀ x, value x = some 0 → exp x = F64.ofNat 1
  near : ∀ (x : F64) (q : ℚ), IsDouble x → value x = some q → -255 ≤ q → q ≤ 0 →
    ∃ r : ℚ, value (exp x) = some r ∧ r ≤ 1 ∧ |(r : ℝ) - Real.exp q| ≤ Real.exp q / 2 ^ 50

/-- what the theorems assume about `math.Pow` on numbers from 0 to 1 and integer exponents up to 255: the result is from 0 to 1, 0 for
a positive power of 0, and right up to a relative error of `2^-40` (or underflow) -/
structure PowOk (pow : F64 → F64 → F64) : Prop where
  nought : ∀ (x : F64) (k : Nat), value x = some 0 → 1 ≤ k → k ≤ 255 → value (pow x (F64.ofNat k)) = some 0
  near : ∀ (x : F64) (q : ℚ) (k : Nat), IsDouble x → value x = some q → 0 ≤ q → q ≤ 1 → k ≤ 255 →
    ∃ r : ℚ, value (pow x (F64.ofNat k)) = some r ∧ 0 ≤ r ∧ r ≤ 1 ∧ |r - q ^ k| ≤ q ^ k / 2 ^ 40 + 1 / 2 ^ 1000

end Starbow.Spec
