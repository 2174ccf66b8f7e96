import Verif.Proof.HllRaw
import Verif.Spec.HllErtl
import Mathlib.Analysis.SpecificLimits.Basic
import Mathlib.Algebra.BigOperators.Field
/-
How far `sigma` of hll.go is from the published function.
-/
namespace Starbow.Hll
open Starbow F64 Stat64 Spec

/-! ### rounding, in real numbers -/

/-- the real number that `X` units stand for -/
noncomputable def rv (X : Nat) : ℝ := (X : ℝ) / one

/-- one unit -/
noncomputable def eta : ℝ := 1 / (one : ℝ)

theorem rv_nonneg (X : Nat) : 0 ≤ rv X := div_nonneg (Nat.cast_nonneg _) one_real_pos.le

theorem eta_pos : 0 < eta := one_div_pos.2 one_real_pos

theorem eta_small : eta ≤ 1 / 2 ^ 250 := by
  have : 2 ^ 250 ≤ one := by rw [one_eq]; exact Nat.pow_le_pow_right (by omega) (by rw [expOne_eq]; omega)
  have h : (2 : ℝ) ^ 250 ≤ one := by exact_mod_cast this
  exact one_div_le_one_div_of_le (by positivity) h

theorem rv_one : rv one = 1 := div_self one_real_pos.ne'

theorem rv_le {X Y : Nat} (h : X ≤ Y) : rv X ≤ rv Y := div_le_div_of_nonneg_right (by exact_mod_cast h) one_real_pos.le

theorem rv_mul_one (n : Nat) : rv (n * one) = n := by
  unfold rv; rw [Nat.cast_mul, mul_div_assoc, div_self one_real_pos.ne', mul_one]

theorem rnd_err_real {a b : Nat} (hb : 0 < b) : |(rnd a b : ℝ) - (a : ℝ) / b| ≤ (a : ℝ) / b / 2 ^ 53 + 1 := by
  have hb' : (0 : ℝ) < b := by exact_mod_cast hb
  have h0 : (0 : ℝ) ≤ (a : ℝ) / b / 2 ^ 53 := by positivity
  by_cases h : b * 2 ^ 52 ≤ a
  · have := rnd_rel_real hb h
    linarith
  · have hs : shiftOf (a / b) = 0 := by
      have hlt : a / b < 2 ^ (53 + 0) := by
        rw [Nat.div_lt_iff_lt_mul hb]
        have : b * 2 ^ 52 ≤ 2 ^ (53 + 0) * b := by
          rw [Nat.mul_comm]; exact Nat.mul_le_mul_right _ (Nat.pow_le_pow_right (by omega) (by omega))
        omega
      have := shiftOf_le_of_lt hlt
      omega
    have e : rnd a b = rhe a b := by unfold rnd; rw [hs, Nat.pow_zero, Nat.mul_one, Nat.mul_one]
    rw [e]
    have h1 := rhe_lo a b hb
    have h2 := rhe_hi a b hb
    have r1 : (2 * a : ℝ) ≤ (2 * rhe a b + 1) * b := by exact_mod_cast h1
    have r2 : (2 * rhe a b * b : ℝ) ≤ 2 * a + b := by exact_mod_cast h2
    generalize (rhe a b : ℝ) = r at *
    have e2 : r - (a : ℝ) / b = (r * b - a) / b := by field_simp
    rw [e2]
    have : |(r * b - a) / b| ≤ 1 := by
      rw [abs_div, abs_of_pos hb', div_le_one hb', abs_le]
      constructor <;> linarith
    linarith

/-- rounded product -/
theorem mul_rv (X Y : Nat) : |rv (rnd (X * Y) one) - rv X * rv Y| ≤ rv X * rv Y / 2 ^ 53 + eta := by
  have h := rnd_err_real (a := X * Y) F64.one_pos
  have ho := one_real_pos
  unfold rv eta
  have e : (rnd (X * Y) one : ℝ) / one - (X : ℝ) / one * (Y / one) = ((rnd (X * Y) one : ℝ) - ((X * Y : Nat) : ℝ) / one) / one := by
    push_cast; field_simp
  have e2 : (X : ℝ) / one * (Y / one) / 2 ^ 53 + 1 / one = (((X * Y : Nat) : ℝ) / one / 2 ^ 53 + 1) / one := by
    push_cast; field_simp
  rw [e, e2, abs_div, abs_of_pos ho]
  exact div_le_div_of_nonneg_right h ho.le

/-- rounded sum -/
theorem add_rv (X Y : Nat) : |rv (rnd (X + Y) 1) - (rv X + rv Y)| ≤ (rv X + rv Y) / 2 ^ 53 := by
  have h := Stat64.rnd_err (X + Y)
  have ho := one_real_pos
  have h3 : ((((rnd (X + Y) 1 : Int) - (X + Y : Nat)).natAbs : Nat) : ℝ) * 2 ^ 53 ≤ ((X + Y : Nat) : ℝ) := by exact_mod_cast h
  rw [Nat.cast_natAbs] at h3
  push_cast at h3
  unfold rv
  rw [← add_div, ← sub_div, abs_div, abs_of_pos ho, div_div, div_le_div_iff₀ ho (by positivity)]
  nlinarith

/-! ### small facts -/

theorem pow_up {n : Nat} (h : n ≤ 2 ^ 52) : (1 + 1 / 2 ^ 53 : ℝ) ^ n ≤ 1 + n / 2 ^ 52 := by
  have h1 : (1 + (n : ℝ) * (-(1 / 2 ^ 53))) ≤ (1 + -(1 / 2 ^ 53)) ^ n := one_add_mul_le_pow (by norm_num) n
  have hn : (n : ℝ) ≤ 2 ^ 52 := by exact_mod_cast h
  have hn0 : (0 : ℝ) ≤ n := Nat.cast_nonneg _
  have h2 : (1 + 1 / 2 ^ 53 : ℝ) ^ n * (1 + -(1 / 2 ^ 53)) ^ n ≤ 1 := by
    rw [← mul_pow]; exact pow_le_one₀ (by norm_num) (by norm_num)
  have h3 : (0 : ℝ) < (1 + 1 / 2 ^ 53) ^ n := by positivity
  generalize (1 + 1 / 2 ^ 53 : ℝ) ^ n = a at *
  generalize (1 + -(1 / 2 ^ 53) : ℝ) ^ n = b at *
  have h4 : a * (1 + (n : ℝ) * (-(1 / 2 ^ 53))) ≤ 1 := le_trans (mul_le_mul_of_nonneg_left h1 h3.le) h2
  obtain ⟨w, hw⟩ : ∃ w : ℝ, w = n / 2 ^ 53 := ⟨_, rfl⟩
  have hw1 : w ≤ 1 / 2 := by rw [hw, div_le_div_iff₀ (by norm_num) (by norm_num)]; linarith
  have hw0 : 0 ≤ w := by rw [hw]; positivity
  have e1 : (1 + (n : ℝ) * (-(1 / 2 ^ 53))) = 1 - w := by rw [hw]; ring
  have e2 : (1 + (n : ℝ) / 2 ^ 52) = 1 + 2 * w := by rw [hw]; ring
  rw [e1] at h4
  rw [e2]
  nlinarith

theorem pow_dn (n : Nat) : 1 - (n : ℝ) / 2 ^ 53 ≤ (1 - 1 / 2 ^ 53 : ℝ) ^ n := by
  have h1 : (1 + (n : ℝ) * (-(1 / 2 ^ 53))) ≤ (1 + -(1 / 2 ^ 53)) ^ n := one_add_mul_le_pow (by norm_num) n
  have e : (1 - 1 / 2 ^ 53 : ℝ) = 1 + -(1 / 2 ^ 53) := by ring
  rw [e]
  refine le_trans (le_of_eq ?_) h1
  ring

/-- `n x^n` is bounded -/
theorem mul_pow_le {x : ℝ} (h0 : 0 ≤ x) (h1 : x ≤ 1 - 1 / 2 ^ 18) (n : Nat) : n * x ^ n ≤ 2 ^ 18 := by
  have hx1 : x ≤ 1 := by norm_num at *; linarith
  have h2 : (n : ℝ) * x ^ n ≤ ∑ i ∈ Finset.range n, x ^ i := by
    rw [← nsmul_eq_mul]
    calc n • x ^ n = ∑ _i ∈ Finset.range n, x ^ n := by rw [Finset.sum_const, Finset.card_range]
      _ ≤ _ := by
        apply Finset.sum_le_sum
        intro i hi
        exact pow_le_pow_of_le_one h0 hx1 (Finset.mem_range.1 hi).le
  have h3 := mul_neg_geom_sum x n
  have h4 : 0 ≤ x ^ n := pow_nonneg h0 n
  have h5 : 0 ≤ ∑ i ∈ Finset.range n, x ^ i := Finset.sum_nonneg fun i _ => pow_nonneg h0 i
  generalize ∑ i ∈ Finset.range n, x ^ i = s at *
  have h6 : 1 / 2 ^ 18 * s ≤ (1 - x) * s := mul_le_mul_of_nonneg_right (by linarith) h5
  norm_num at *
  linarith

/-! ### the loop of `sigma` -/

/-- the partial sums of `σ` -/
noncomputable def sigS (x : ℝ) (k : Nat) : ℝ := x + ∑ i ∈ Finset.range k, x ^ 2 ^ (i + 1) * 2 ^ i

/-- a bound for the error of the partial sums -/
noncomputable def sigD (x : ℝ) (k : Nat) : ℝ :=
  ∑ i ∈ Finset.range k, 2 ^ i * (x ^ 2 ^ (i + 1) * (2 ^ (i + 1) / 2 ^ 52) + 4 ^ (i + 1) * eta)

/-- how far the power is off -/
structure PowNear (x : ℝ) (k X : Nat) : Prop where
  lo : (1 - 1 / 2 ^ 53) ^ (2 ^ k - 1) * x ^ 2 ^ k - 4 ^ k * eta ≤ rv X
  hi : rv X ≤ (1 + 1 / 2 ^ 53) ^ (2 ^ k - 1) * x ^ 2 ^ k + 4 ^ k * eta

theorem PowNear.sq {x : ℝ} (h0 : 0 ≤ x) (h1 : x ≤ 1) {k X : Nat} (hk : k ≤ 40) (h : PowNear x k X) :
    PowNear x (k + 1) (rnd (X * X) one) := by
  have hm := abs_le.1 (mul_rv X X)
  have hN : 2 ^ k ≤ 2 ^ 40 := Nat.pow_le_pow_right (by omega) hk
  have hp := Nat.two_pow_pos k
  have hup := pow_up (n := 2 ^ k - 1) (by omega)
  have hcast : ((2 ^ k - 1 : Nat) : ℝ) ≤ 2 ^ 40 := by
    have : 2 ^ k - 1 ≤ 2 ^ 40 := by omega
    exact_mod_cast this
  have eN : 2 ^ (k + 1) - 1 = 2 * (2 ^ k - 1) + 1 := by rw [Nat.pow_succ]; omega
  have ex : x ^ 2 ^ (k + 1) = x ^ 2 ^ k * x ^ 2 ^ k := by rw [← pow_add, pow_succ]; congr 1; omega
  have ht0 : 0 ≤ x ^ 2 ^ k := pow_nonneg h0 _
  have ht1 : x ^ 2 ^ k ≤ 1 := pow_le_one₀ h0 h1
  have hη := eta_pos
  have hd1 : eta ≤ 4 ^ k * eta := le_mul_of_one_le_left hη.le (one_le_pow₀ (by norm_num))
  have hd2 : 4 ^ k * eta ≤ 1 / 4 := by
    have h4 : (4 : ℝ) ^ k ≤ 4 ^ 40 := pow_le_pow_right₀ (by norm_num) hk
    calc 4 ^ k * eta ≤ 4 ^ 40 * (1 / 2 ^ 250) := mul_le_mul h4 eta_small hη.le (by positivity)
      _ ≤ _ := by norm_num
  have ed : (4 : ℝ) ^ (k + 1) * eta = 4 * (4 ^ k * eta) := by rw [pow_succ]; ring
  have hr := rv_nonneg X
  obtain ⟨hlo, hhi⟩ := h
  have hA0 : (1 : ℝ) ≤ (1 + 1 / 2 ^ 53) ^ (2 ^ k - 1) := one_le_pow₀ (by norm_num)
  have hB0 : (0 : ℝ) ≤ (1 - 1 / 2 ^ 53) ^ (2 ^ k - 1) := pow_nonneg (by norm_num) _
  have hB1 : (1 - 1 / 2 ^ 53 : ℝ) ^ (2 ^ k - 1) ≤ 1 := pow_le_one₀ (by norm_num) (by norm_num)
  have hA1 : (1 + 1 / 2 ^ 53 : ℝ) ^ (2 ^ k - 1) ≤ 5 / 4 := by
    refine le_trans hup ?_
    have : ((2 ^ k - 1 : Nat) : ℝ) / 2 ^ 52 ≤ 1 / 4 := by
      rw [div_le_div_iff₀ (by norm_num) (by norm_num)]; linarith
    linarith
  have pA : (1 + 1 / 2 ^ 53 : ℝ) ^ (2 ^ (k + 1) - 1) = (1 + 1 / 2 ^ 53) ^ (2 ^ k - 1) * (1 + 1 / 2 ^ 53) ^ (2 ^ k - 1) * (1 + 1 / 2 ^ 53) := by
    rw [eN, pow_succ, two_mul, pow_add]
  have pB : (1 - 1 / 2 ^ 53 : ℝ) ^ (2 ^ (k + 1) - 1) = (1 - 1 / 2 ^ 53) ^ (2 ^ k - 1) * (1 - 1 / 2 ^ 53) ^ (2 ^ k - 1) * (1 - 1 / 2 ^ 53) := by
    rw [eN, pow_succ, two_mul, pow_add]
  constructor
  · rw [ex, ed, pB]
    generalize (1 - 1 / 2 ^ 53 : ℝ) ^ (2 ^ k - 1) = B at *
    generalize x ^ 2 ^ k = t at *
    generalize (4 : ℝ) ^ k * eta = d at *
    generalize rv X = r at *
    have h2 : B * t * (B * t) - 2 * d ≤ r * r := by
      have hBt : 0 ≤ B * t := by positivity
      have hBt1 : B * t ≤ 1 := by nlinarith
      nlinarith [mul_nonneg hBt (by linarith : 0 ≤ r - (B * t - d)), mul_nonneg hr (by linarith : 0 ≤ r - (B * t - d))]
    have e : B * B * (1 - 1 / 2 ^ 53) * (t * t) - 4 * d = (B * t * (B * t)) * (1 - 1 / 2 ^ 53) - 4 * d := by ring
    rw [e]
    have h3 := hm.1
    have h4 : (B * t * (B * t)) * (1 - 1 / 2 ^ 53) ≤ (r * r + 2 * d) * (1 - 1 / 2 ^ 53) :=
      mul_le_mul_of_nonneg_right (by linarith) (by norm_num)
    norm_num at *
    linarith
  · rw [ex, ed, pA]
    generalize (1 + 1 / 2 ^ 53 : ℝ) ^ (2 ^ k - 1) = A at *
    generalize x ^ 2 ^ k = t at *
    generalize (4 : ℝ) ^ k * eta = d at *
    generalize rv X = r at *
    have hAt : 0 ≤ A * t := by positivity
    have hAt1 : A * t ≤ 5 / 4 := by nlinarith
    have h2 : r * r ≤ A * t * (A * t) + 11 / 4 * d := by
      have : r * r ≤ (A * t + d) * (A * t + d) := mul_le_mul hhi hhi hr (by linarith)
      nlinarith
    have e : A * A * (1 + 1 / 2 ^ 53) * (t * t) + 4 * d = (A * t * (A * t)) * (1 + 1 / 2 ^ 53) + 4 * d := by ring
    rw [e]
    have h3 := hm.2
    norm_num at *
    linarith

/-- the power with its error bounded -/
theorem PowNear.err {x : ℝ} (h0 : 0 ≤ x) {k X : Nat} (hk : k ≤ 41) (h : PowNear x k X) :
    |rv X - x ^ 2 ^ k| ≤ x ^ 2 ^ k * (2 ^ k / 2 ^ 52) + 4 ^ k * eta := by
  have hN : 2 ^ k ≤ 2 ^ 41 := Nat.pow_le_pow_right (by omega) hk
  have hp := Nat.two_pow_pos k
  have hup := pow_up (n := 2 ^ k - 1) (by omega)
  have hdn := pow_dn (2 ^ k - 1)
  have hc : ((2 ^ k - 1 : Nat) : ℝ) ≤ 2 ^ k := by
    have : 2 ^ k - 1 ≤ 2 ^ k := by omega
    exact_mod_cast this
  have hc0 : (0 : ℝ) ≤ ((2 ^ k - 1 : Nat) : ℝ) := Nat.cast_nonneg _
  have ht0 : 0 ≤ x ^ 2 ^ k := pow_nonneg h0 _
  obtain ⟨hlo, hhi⟩ := h
  generalize (1 + 1 / 2 ^ 53 : ℝ) ^ (2 ^ k - 1) = A at *
  generalize (1 - 1 / 2 ^ 53 : ℝ) ^ (2 ^ k - 1) = B at *
  generalize x ^ 2 ^ k = t at *
  generalize (4 : ℝ) ^ k * eta = d at *
  generalize rv X = r at *
  generalize ((2 ^ k - 1 : Nat) : ℝ) = n at *
  generalize (2 : ℝ) ^ k = N at *
  have a1 : A * t ≤ (1 + N / 2 ^ 52) * t := mul_le_mul_of_nonneg_right (le_trans hup (by
    have : n / 2 ^ 52 ≤ N / 2 ^ 52 := div_le_div_of_nonneg_right hc (by norm_num)
    linarith)) ht0
  have b1 : (1 - N / 2 ^ 52) * t ≤ B * t := mul_le_mul_of_nonneg_right (le_trans (by
    have h1 : n / 2 ^ 53 ≤ N / 2 ^ 53 := div_le_div_of_nonneg_right hc (by norm_num)
    have h2 : N / 2 ^ 53 ≤ N / 2 ^ 52 := div_le_div_of_nonneg_left (by linarith) (by norm_num) (by norm_num)
    linarith) hdn) ht0
  have e : t * (N / 2 ^ 52) = N / 2 ^ 52 * t := mul_comm _ _
  rw [abs_le, e]
  constructor <;> linarith

/-- how far the sum is off -/
structure SumNear (x : ℝ) (k Z : Nat) : Prop where
  lo : (1 - 1 / 2 ^ 53) ^ k * (sigS x k - sigD x k) ≤ rv Z
  hi : rv Z ≤ (1 + 1 / 2 ^ 53) ^ k * (sigS x k + sigD x k)

theorem sigS_nonneg {x : ℝ} (h0 : 0 ≤ x) (k : Nat) : 0 ≤ sigS x k :=
  add_nonneg h0 (Finset.sum_nonneg fun _ _ => by positivity)

theorem sigD_nonneg {x : ℝ} (h0 : 0 ≤ x) (k : Nat) : 0 ≤ sigD x k :=
  Finset.sum_nonneg fun _ _ => by have := eta_pos; positivity

theorem SumNear.step {x : ℝ} (h0 : 0 ≤ x) {k X I Z : Nat} (hk : k ≤ 40) (hX : PowNear x (k + 1) X) (hI : rv I = rv X * 2 ^ k)
    (hZ : SumNear x k Z) : SumNear x (k + 1) (rnd (Z + I) 1) := by
  have he := abs_le.1 (hX.err h0 (by omega))
  have ha := abs_le.1 (add_rv Z I)
  have eS : sigS x (k + 1) = sigS x k + x ^ 2 ^ (k + 1) * 2 ^ k := by
    unfold sigS; rw [Finset.sum_range_succ]; ring
  have eD : sigD x (k + 1) = sigD x k + 2 ^ k * (x ^ 2 ^ (k + 1) * (2 ^ (k + 1) / 2 ^ 52) + 4 ^ (k + 1) * eta) := by
    unfold sigD; rw [Finset.sum_range_succ]
  have hS := sigS_nonneg h0 k
  have hD := sigD_nonneg h0 k
  obtain ⟨hlo, hhi⟩ := hZ
  have hr := rv_nonneg X
  have hz := rv_nonneg Z
  rw [hI] at ha
  have hP : (0 : ℝ) < 2 ^ k := by positivity
  have hA0 : (1 : ℝ) ≤ (1 + 1 / 2 ^ 53) ^ k := one_le_pow₀ (by norm_num)
  have hB0 : (0 : ℝ) ≤ (1 - 1 / 2 ^ 53) ^ k := pow_nonneg (by norm_num) _
  have hB1 : (1 - 1 / 2 ^ 53 : ℝ) ^ k ≤ 1 := pow_le_one₀ (by norm_num) (by norm_num)
  have ht : 0 ≤ x ^ 2 ^ (k + 1) := pow_nonneg h0 _
  have hE : 0 ≤ x ^ 2 ^ (k + 1) * (2 ^ (k + 1) / 2 ^ 52) + 4 ^ (k + 1) * eta := by have := eta_pos; positivity
  constructor
  · rw [eS, eD, pow_succ]
    generalize (1 - 1 / 2 ^ 53 : ℝ) ^ k = B at *
    generalize x ^ 2 ^ (k + 1) * (2 ^ (k + 1) / 2 ^ 52) + 4 ^ (k + 1) * eta = E at *
    generalize x ^ 2 ^ (k + 1) = t at *
    generalize (2 : ℝ) ^ k = P at *
    generalize rv X = r at *
    generalize rv Z = z at *
    generalize sigS x k = S at *
    generalize sigD x k = D at *
    have h1 : B * (S + t * P - (D + P * E)) ≤ z + r * P := by
      have h2 : B * (P * (t - E)) ≤ P * r := by
        by_cases hc : 0 ≤ P * (t - E)
        · calc B * (P * (t - E)) ≤ 1 * (P * (t - E)) := mul_le_mul_of_nonneg_right hB1 hc
            _ ≤ P * r := by rw [one_mul]; exact mul_le_mul_of_nonneg_left (by linarith) hP.le
        · have : B * (P * (t - E)) ≤ 0 := mul_nonpos_of_nonneg_of_nonpos hB0 (by linarith)
          have : 0 ≤ P * r := by positivity
          linarith
      nlinarith
    have h3 : B * (1 - 1 / 2 ^ 53) * (S + t * P - (D + P * E)) ≤ (z + r * P) * (1 - 1 / 2 ^ 53) := by
      calc B * (1 - 1 / 2 ^ 53) * (S + t * P - (D + P * E)) = B * (S + t * P - (D + P * E)) * (1 - 1 / 2 ^ 53) := by ring
        _ ≤ _ := mul_le_mul_of_nonneg_right h1 (by norm_num)
    linarith [ha.1]
  · rw [eS, eD, pow_succ]
    generalize (1 + 1 / 2 ^ 53 : ℝ) ^ k = A at *
    generalize x ^ 2 ^ (k + 1) * (2 ^ (k + 1) / 2 ^ 52) + 4 ^ (k + 1) * eta = E at *
    generalize x ^ 2 ^ (k + 1) = t at *
    generalize (2 : ℝ) ^ k = P at *
    generalize rv X = r at *
    generalize rv Z = z at *
    generalize sigS x k = S at *
    generalize sigD x k = D at *
    have h1 : z + r * P ≤ A * (S + t * P + (D + P * E)) := by
      have h2 : P * r ≤ A * (P * (t + E)) := by
        calc P * r ≤ P * (t + E) := mul_le_mul_of_nonneg_left (by linarith) hP.le
          _ ≤ _ := le_mul_of_one_le_left (by positivity) hA0
      nlinarith
    have h3 : (z + r * P) * (1 + 1 / 2 ^ 53) ≤ A * (1 + 1 / 2 ^ 53) * (S + t * P + (D + P * E)) := by
      calc (z + r * P) * (1 + 1 / 2 ^ 53) ≤ A * (S + t * P + (D + P * E)) * (1 + 1 / 2 ^ 53) := mul_le_mul_of_nonneg_right h1 (by norm_num)
        _ = _ := by ring
    linarith [ha.2]

theorem eq_fin {X Y : Nat} (h : F64.eq (.fin false X) (.fin false Y) = true) : X = Y := by
  have := (Is.eq_iff (x := .fin false X) (y := .fin false Y) (z := (X : Int)) (w := (Y : Int)) ⟨false, X, rfl, rfl⟩ ⟨false, Y, rfl, rfl⟩).1 h
  exact_mod_cast this

theorem sigmaLoop_acc {x : ℝ} (h0 : 0 ≤ x) (h1 : x ≤ 1) : ∀ (fuel k X Z : Nat), X ≤ worst k → Z ≤ 2 ^ (k + 1) * one → Rep Z → k ≤ 40 →
    41 ≤ fuel + k → PowNear x k X → SumNear x k Z →
    ∃ R j X', sigmaLoop fuel (.fin false X) (.fin false (2 ^ k * one)) (.fin false Z) = .val (.fin false R) ∧ R ≤ 2 ^ 42 * one ∧
      Rep R ∧ j ≤ 40 ∧ PowNear x (j + 1) X' ∧ SumNear x (j + 1) R ∧ rv X' * 2 ^ j ≤ rv R / 2 ^ 52 := by
  intro fuel
  induction fuel with
  | zero => intro k X Z _ _ _ h1 h2; omega
  | succ fuel ih =>
    intro k X Z hX hZ hR hk hf hpn hsn
    have ho := F64.one_pos
    have hw := worst_le_one k
    have hXX : X * X ≤ worst k * worst k := Nat.mul_le_mul hX hX
    obtain ⟨e1, b1⟩ := mul_le_rep (x := .fin false X) (y := .fin false X) rfl rfl rep_one
      (by have := pow_one_lt (k := 0) (by omega); omega) (Nat.le_trans hXX (Nat.mul_le_mul hw hw))
    have b1' : rnd (X * X) one ≤ worst (k + 1) := by
      rw [worst]
      exact rnd_mono F64.one_pos F64.one_pos (Nat.mul_le_mul_right _ hXX)
    have hpn' := hpn.sq h0 h1 hk
    have hrep := rnd_rep (X * X) one ho
    generalize hX' : rnd (X * X) one = X' at *
    have eI : rnd (X' * (2 ^ k * one)) one = X' * 2 ^ k := by
      rw [← Nat.mul_assoc]; exact rnd_exact ho (rep_shift hrep k)
    obtain ⟨e2, b2⟩ := mul_le_rep (x := .fin false X') (y := .fin false (2 ^ k * one)) rfl rfl (rep_pow_one k) (pow_one_lt (by omega))
      (by rw [Nat.mul_comm X' _]; exact Nat.mul_le_mul (Nat.le_refl _) b1)
    rw [eI] at e2 b2
    have hrvI : rv (X' * 2 ^ k) = rv X' * 2 ^ k := by unfold rv; push_cast; ring
    have hsn' := hsn.step h0 hk hpn' hrvI
    generalize hI : X' * 2 ^ k = I at *
    have hZI : Z + I ≤ 2 ^ (k + 2) * one := by
      have e1 : 2 ^ (k + 1) * one = 2 * (2 ^ k * one) := by ring
      have e2 : 2 ^ (k + 2) * one = 4 * (2 ^ k * one) := by ring
      rw [e1] at hZ
      rw [e2]
      omega
    obtain ⟨e3, b3⟩ := add_le_rep (x := .fin false Z) (y := .fin false I) rfl rfl (rep_pow_one (k + 2)) (pow_one_lt (by omega)) hZI
    have e4 : F64.mul (F64.ofNat 2) (.fin false (2 ^ k * one)) = .fin false (2 ^ (k + 1) * one) := by
      obtain ⟨g, _⟩ := mul_le_rep (x := F64.ofNat 2) (y := .fin false (2 ^ k * one)) (ofNat_is (by omega)) rfl (rep_pow_one (k + 1))
        (pow_one_lt (by omega)) (by
          calc 2 * one * (2 ^ k * one) = 2 ^ (k + 1) * one * one := by ring
            _ ≤ _ := Nat.le_refl _)
      rw [g, show 2 * one * (2 ^ k * one) = 2 ^ (k + 1) * one * one by ring, rnd_exact ho (rep_pow_one (k + 1))]
    have hadd := abs_le.1 (add_rv Z I)
    rw [sigmaLoop]
    rw [e1, e2, e3, e4]
    split
    · rename_i heq
      have hZR := eq_fin heq
      refine ⟨_, k, X', rfl, Nat.le_trans b3 (Nat.mul_le_mul_right _ (Nat.pow_le_pow_right (by omega) (by omega))),
        rnd_rep _ _ (by omega), hk, hpn', hsn', ?_⟩
      rw [hZR] at hadd ⊢
      rw [← hrvI]
      have := rv_nonneg Z
      have := rv_nonneg I
      have h1 := hadd.1
      generalize rv Z = z at *
      generalize rv I = i at *
      norm_num at *
      linarith
    · rename_i hne
      by_cases hend : k = 40
      · exfalso
        apply hne
        have hX0 : X' = 0 := by
          have := worst_zero worst_end 1
          subst hend
          omega
        have hI0 : I = 0 := by
          rw [← hI, hX0, Nat.zero_mul]
        have : rnd (Z + I) 1 = Z := by
          rw [hI0, Nat.add_zero]; exact rnd_exact_one hR
        rw [this]
        exact eq_self_fin _ _ _ rfl
      · exact ih (k + 1) _ _ b1' b3 (rnd_rep _ _ (by omega)) (by omega) (by omega) hpn' hsn'

/-- the error of the partial sums is small -/
theorem sigD_le {x : ℝ} (h0 : 1 / 2 ^ 18 ≤ x) (h1 : x ≤ 1 - 1 / 2 ^ 18) {k : Nat} (hk : k ≤ 41) : sigD x k ≤ sigS x k / 2 ^ 31 := by
  have hx0 : 0 ≤ x := le_trans (by norm_num) h0
  have hxS : x ≤ sigS x k := by
    unfold sigS
    have : 0 ≤ ∑ i ∈ Finset.range k, x ^ 2 ^ (i + 1) * 2 ^ i := Finset.sum_nonneg fun _ _ => by positivity
    linarith
  have hηp := eta_pos
  have hsum : ∀ k, ∑ i ∈ Finset.range (k + 1), x ^ 2 ^ i * 2 ^ i ≤ 2 * sigS x k := by
    intro k
    induction k with
    | zero => simp [sigS]; linarith
    | succ k ih =>
      have e : sigS x (k + 1) = sigS x k + x ^ 2 ^ (k + 1) * 2 ^ k := by
        unfold sigS; rw [Finset.sum_range_succ]; ring
      rw [Finset.sum_range_succ, e]
      have : x ^ 2 ^ (k + 1) * (2 : ℝ) ^ (k + 1) = 2 * (x ^ 2 ^ (k + 1) * 2 ^ k) := by rw [pow_succ (2 : ℝ) k]; ring
      linarith
  have hterm : ∀ i ∈ Finset.range k, (2 : ℝ) ^ i * (x ^ 2 ^ (i + 1) * (2 ^ (i + 1) / 2 ^ 52) + 4 ^ (i + 1) * eta)
      ≤ (x ^ 2 ^ i * 2 ^ i) / 2 ^ 33 + 1 / 2 ^ 128 := by
    intro i hi
    have hi := Finset.mem_range.1 hi
    have hb := mul_pow_le hx0 h1 (2 ^ i)
    push_cast at hb
    have ht : 0 ≤ x ^ 2 ^ i := pow_nonneg hx0 _
    have ex : x ^ 2 ^ (i + 1) = x ^ 2 ^ i * x ^ 2 ^ i := by rw [← pow_add, pow_succ]; congr 1; omega
    have h4 : (2 : ℝ) ^ i * (4 ^ (i + 1) * eta) ≤ 1 / 2 ^ 128 := by
      have a1 : (2 : ℝ) ^ i ≤ 2 ^ 40 := pow_le_pow_right₀ (by norm_num) (by omega)
      have a2 : (4 : ℝ) ^ (i + 1) ≤ 4 ^ 41 := pow_le_pow_right₀ (by norm_num) (by omega)
      calc (2 : ℝ) ^ i * (4 ^ (i + 1) * eta) ≤ 2 ^ 40 * (4 ^ 41 * (1 / 2 ^ 250)) := by
            apply mul_le_mul a1 (mul_le_mul a2 eta_small hηp.le (by positivity)) (by positivity) (by positivity)
        _ ≤ _ := by norm_num
    rw [ex, mul_add, pow_succ 2 i]
    have e : (2 : ℝ) ^ i * (x ^ 2 ^ i * x ^ 2 ^ i * (2 ^ i * 2 / 2 ^ 52)) = (2 ^ i * x ^ 2 ^ i) * (x ^ 2 ^ i * 2 ^ i) / 2 ^ 51 := by
      norm_num; ring
    rw [e]
    have h5 : (2 : ℝ) ^ i * x ^ 2 ^ i * (x ^ 2 ^ i * 2 ^ i) ≤ 2 ^ 18 * (x ^ 2 ^ i * 2 ^ i) := mul_le_mul_of_nonneg_right hb (by positivity)
    generalize (2 : ℝ) ^ i * x ^ 2 ^ i * (x ^ 2 ^ i * 2 ^ i) = a at *
    generalize x ^ 2 ^ i * (2 : ℝ) ^ i = b at *
    generalize (2 : ℝ) ^ i * (4 ^ (i + 1) * eta) = c at *
    norm_num at *
    linarith
  have htot := Finset.sum_le_sum hterm
  rw [Finset.sum_add_distrib, ← Finset.sum_div, Finset.sum_const, Finset.card_range, nsmul_eq_mul] at htot
  have hm := hsum k
  rw [Finset.sum_range_succ] at hm
  have ht : 0 ≤ x ^ 2 ^ k * (2 : ℝ) ^ k := by positivity
  have hk' : (k : ℝ) ≤ 41 := by exact_mod_cast hk
  unfold sigD
  generalize ∑ i ∈ Finset.range k, (2 : ℝ) ^ i * (x ^ 2 ^ (i + 1) * (2 ^ (i + 1) / 2 ^ 52) + 4 ^ (i + 1) * eta) = D at *
  generalize ∑ i ∈ Finset.range k, x ^ 2 ^ i * (2 : ℝ) ^ i = M at *
  generalize x ^ 2 ^ k * (2 : ℝ) ^ k = t at *
  generalize sigS x k = S at *
  generalize (k : ℝ) = κ at hk' htot
  norm_num at *
  linarith

theorem SumNear.close {x : ℝ} (h0 : 1 / 2 ^ 18 ≤ x) (h1 : x ≤ 1 - 1 / 2 ^ 18) {k Z : Nat} (hk : k ≤ 41) (h : SumNear x k Z) :
    |rv Z - sigS x k| ≤ sigS x k * (1 / 2 ^ 31 + 1 / 2 ^ 40) := by
  have hx0 : 0 ≤ x := le_trans (by norm_num) h0
  have hD := sigD_le h0 h1 hk
  have hD0 := sigD_nonneg hx0 k
  have hS0 := sigS_nonneg hx0 k
  have hup := pow_up (n := k) (by omega)
  have hdn := pow_dn k
  have hk' : (k : ℝ) ≤ 41 := by exact_mod_cast hk
  have hk0 : (0 : ℝ) ≤ k := Nat.cast_nonneg _
  have hup' : (1 + 1 / 2 ^ 53 : ℝ) ^ k ≤ 1 + 1 / 2 ^ 45 := by
    refine le_trans hup ?_
    have : (k : ℝ) / 2 ^ 52 ≤ 1 / 2 ^ 45 := by rw [div_le_div_iff₀ (by norm_num) (by norm_num)]; linarith
    linarith
  have hdn' : 1 - 1 / 2 ^ 45 ≤ (1 - 1 / 2 ^ 53 : ℝ) ^ k := by
    refine le_trans ?_ hdn
    have : (k : ℝ) / 2 ^ 53 ≤ 1 / 2 ^ 45 := by rw [div_le_div_iff₀ (by norm_num) (by norm_num)]; linarith
    linarith
  obtain ⟨hlo, hhi⟩ := h
  generalize (1 + 1 / 2 ^ 53 : ℝ) ^ k = A at *
  generalize (1 - 1 / 2 ^ 53 : ℝ) ^ k = B at *
  generalize sigS x k = S at *
  generalize sigD x k = D at *
  generalize rv Z = z at *
  have a1 : A * (S + D) ≤ (1 + 1 / 2 ^ 45) * (S + D) := mul_le_mul_of_nonneg_right hup' (by linarith)
  have b1 : (1 - 1 / 2 ^ 45) * (S - D) ≤ B * (S - D) := mul_le_mul_of_nonneg_right hdn' (by
    have : S / 2 ^ 31 ≤ S := div_le_self hS0 (by norm_num)
    linarith)
  rw [abs_le]
  constructor <;> norm_num at * <;> linarith

/-- the terms after the last one computed do not matter -/
theorem sigma_tail {x : ℝ} (h0 : 0 ≤ x) {j : Nat} (hw : x ^ 2 ^ (j + 1) ≤ 1 / 4) :
    sigS x (j + 1) ≤ ertlSigma x ∧ ertlSigma x ≤ sigS x (j + 1) + 4 * x ^ 2 ^ (j + 1) * (x ^ 2 ^ (j + 1) * 2 ^ j) := by
  have hwp : 0 ≤ x ^ 2 ^ (j + 1) := pow_nonneg h0 _
  have hterm : ∀ i : ℕ, x ^ 2 ^ (i + (j + 1) + 1) * 2 ^ (i + (j + 1)) ≤
      2 * (x ^ 2 ^ (j + 1)) * (x ^ 2 ^ (j + 1) * 2 ^ j) * (1 / 2) ^ i := by
    intro i
    have e : x ^ 2 ^ (i + (j + 1) + 1) = (x ^ 2 ^ (j + 1)) ^ 2 ^ (i + 1) := by
      rw [← pow_mul, ← pow_add]; congr 2; omega
    rw [e]
    generalize x ^ 2 ^ (j + 1) = w at *
    have h2 : i + 2 ≤ 2 ^ (i + 1) := by
      have := Nat.lt_two_pow_self (n := i + 1)
      omega
    have hw1 : w ≤ 1 := by linarith
    have h3 : w ^ 2 ^ (i + 1) ≤ w ^ (i + 2) := pow_le_pow_of_le_one hwp hw1 h2
    have h4 : w ^ i ≤ (1 / 4) ^ i := pow_le_pow_left₀ hwp hw i
    calc w ^ 2 ^ (i + 1) * 2 ^ (i + (j + 1)) ≤ w ^ (i + 2) * 2 ^ (i + (j + 1)) := mul_le_mul_of_nonneg_right h3 (by positivity)
      _ = w ^ i * (w * w * (2 * 2 ^ i * 2 ^ j)) := by rw [pow_add, pow_add, pow_add]; ring
      _ ≤ (1 / 4) ^ i * (w * w * (2 * 2 ^ i * 2 ^ j)) := mul_le_mul_of_nonneg_right h4 (by positivity)
      _ = 2 * w * (w * 2 ^ j) * ((1 / 4) ^ i * 2 ^ i) := by ring
      _ = _ := by rw [← mul_pow]; norm_num
  have hgeo : Summable fun i : ℕ => 2 * (x ^ 2 ^ (j + 1)) * (x ^ 2 ^ (j + 1) * 2 ^ j) * (1 / 2 : ℝ) ^ i :=
    (summable_geometric_of_lt_one (by norm_num) (by norm_num)).mul_left _
  have htail : Summable fun i : ℕ => x ^ 2 ^ (i + (j + 1) + 1) * 2 ^ (i + (j + 1)) :=
    Summable.of_nonneg_of_le (fun i => by positivity) hterm hgeo
  have hall : Summable fun i : ℕ => x ^ 2 ^ (i + 1) * 2 ^ i := (summable_nat_add_iff (j + 1)).1 htail
  have hsplit := hall.sum_add_tsum_nat_add (j + 1)
  have h1 : 0 ≤ ∑' i : ℕ, x ^ 2 ^ (i + (j + 1) + 1) * 2 ^ (i + (j + 1)) := tsum_nonneg fun i => by positivity
  have h2 := htail.tsum_le_tsum hterm hgeo
  rw [tsum_mul_left, tsum_geometric_of_lt_one (by norm_num) (by norm_num)] at h2
  unfold ertlSigma sigS
  rw [← hsplit]
  constructor
  · linarith
  · norm_num at *; linarith

theorem ertlSigma_zero : ertlSigma 0 = 0 := by
  unfold ertlSigma
  have : (fun k : ℕ => (0 : ℝ) ^ 2 ^ (k + 1) * 2 ^ k) = fun _ => 0 := by
    funext k
    rw [zero_pow (Nat.two_pow_pos _).ne', zero_mul]
  rw [this, tsum_zero, add_zero]

/-- `sigma` is the published function up to a relative error of `2^-30` -/
theorem sigma_close {c p : Nat} (hp : p ≤ 18) (hc : c < 2 ^ p) : ∃ S, sigma (c : Int) ((2 ^ p : Nat) : Int) = .val (.fin false S) ∧
    Rep S ∧ S ≤ 2 ^ 42 * one ∧ |rv S - ertlSigma (c / 2 ^ p)| ≤ ertlSigma (c / 2 ^ p) / 2 ^ 30 ∧ 0 ≤ ertlSigma (c / 2 ^ p) := by
  have ho := F64.one_pos
  unfold sigma
  rw [quot_is hp (by omega)]
  have hsp := pow_split hp
  dsimp only
  have hm : 2 ^ p ≤ 2 ^ 18 := Nat.pow_le_pow_right (by omega) hp
  have hlt : c * 2 ^ (expOne - p) < one := by
    rw [← hsp]; exact Nat.mul_lt_mul_of_pos_right hc (Nat.two_pow_pos _)
  rw [if_neg (by
    rw [ofNat_is (by omega), Nat.one_mul]
    intro h
    have := eq_fin h
    omega)]
  rw [ofNat_is (by omega : 1 ≤ 2 ^ 53), Nat.one_mul]
  have hm0 : (0 : ℝ) < 2 ^ p := by positivity
  by_cases hc0 : c = 0
  · subst hc0
    refine ⟨0, ?_, rep_zero, Nat.zero_le _, ?_, ?_⟩
    · rw [Nat.zero_mul]; decide +kernel
    · rw [Nat.cast_zero, zero_div, ertlSigma_zero]; simp [rv]
    · rw [Nat.cast_zero, zero_div, ertlSigma_zero]
  have hmr : (2 : ℝ) ^ p ≤ 2 ^ 18 := by exact_mod_cast hm
  have hc1 : (1 : ℝ) ≤ c := by exact_mod_cast (by omega : 1 ≤ c)
  have hc2 : (c : ℝ) + 1 ≤ 2 ^ p := by exact_mod_cast hc
  have hinv : (1 : ℝ) / 2 ^ 18 ≤ 1 / 2 ^ p := one_div_le_one_div_of_le hm0 hmr
  have hx0 : (1 : ℝ) / 2 ^ 18 ≤ c / 2 ^ p := le_trans hinv (div_le_div_of_nonneg_right hc1 hm0.le)
  have hx1 : (c : ℝ) / 2 ^ p ≤ 1 - 1 / 2 ^ 18 := by
    have : (c : ℝ) / 2 ^ p ≤ (2 ^ p - 1) / 2 ^ p := div_le_div_of_nonneg_right (by linarith) hm0.le
    rw [sub_div, div_self hm0.ne'] at this
    linarith
  have hrv : rv (c * 2 ^ (expOne - p)) = c / 2 ^ p := by
    unfold rv
    have e' := congrArg (Nat.cast : ℕ → ℝ) hsp
    push_cast at e'
    rw [← e']
    push_cast
    have : (0 : ℝ) < 2 ^ (expOne - p) := by positivity
    generalize (2 : ℝ) ^ (expOne - p) = w at *
    field_simp
  generalize hx : (c : ℝ) / 2 ^ p = x at *
  have hxn : 0 ≤ x := le_trans (by norm_num) hx0
  have hη := eta_pos
  obtain ⟨R, j, X', e, hR, hrep, hj, hX', hZ, hstop⟩ := sigmaLoop_acc hxn (by norm_num at *; linarith) 128 0 (c * 2 ^ (expOne - p))
    (c * 2 ^ (expOne - p)) (by
      rw [worst]
      have e : 2 ^ (expOne - p) = 2 ^ (18 - p) * 2 ^ 1056 := by
        rw [← Nat.pow_add]; congr 1; rw [expOne_eq]; omega
      rw [e, ← Nat.mul_assoc]
      apply Nat.mul_le_mul_right
      have h1 : (c + 1) * 2 ^ (18 - p) ≤ 2 ^ p * 2 ^ (18 - p) := Nat.mul_le_mul_right _ (by omega)
      rw [← Nat.pow_add, show p + (18 - p) = 18 by omega, Nat.add_mul] at h1
      have := Nat.two_pow_pos (18 - p)
      omega) (by omega) (rep_of_mul (by omega)) (by omega) (by omega)
    ⟨by rw [hrv]; simp; linarith, by rw [hrv]; simp; linarith⟩
    ⟨by rw [hrv]; simp [sigS, sigD], by rw [hrv]; simp [sigS, sigD]⟩
  rw [Nat.pow_zero, Nat.one_mul] at e
  have hclose := hZ.close hx0 hx1 (by omega)
  have herr := hX'.err hxn (by omega)
  have hRr : rv R ≤ 2 ^ 42 := by
    have := rv_le hR
    rw [rv_mul_one] at this
    exact_mod_cast this
  have hS0 := sigS_nonneg hxn (j + 1)
  have hxS : x ≤ sigS x (j + 1) := by
    unfold sigS
    have : 0 ≤ ∑ i ∈ Finset.range (j + 1), x ^ 2 ^ (i + 1) * 2 ^ i := Finset.sum_nonneg fun _ _ => by positivity
    linarith
  -- the last term
  have hd : (2 : ℝ) ^ j * (4 ^ (j + 1) * eta) ≤ 1 / 2 ^ 128 := by
    have a1 : (2 : ℝ) ^ j ≤ 2 ^ 40 := pow_le_pow_right₀ (by norm_num) (by omega)
    have a2 : (4 : ℝ) ^ (j + 1) ≤ 4 ^ 41 := pow_le_pow_right₀ (by norm_num) (by omega)
    calc (2 : ℝ) ^ j * (4 ^ (j + 1) * eta) ≤ 2 ^ 40 * (4 ^ 41 * (1 / 2 ^ 250)) := by
          apply mul_le_mul a1 (mul_le_mul a2 eta_small hη.le (by positivity)) (by positivity) (by positivity)
      _ ≤ _ := by norm_num
  have hN : (2 : ℝ) ^ (j + 1) / 2 ^ 52 ≤ 1 / 2 := by
    rw [div_le_div_iff₀ (by norm_num) (by norm_num)]
    have : (2 : ℝ) ^ (j + 1) ≤ 2 ^ 41 := pow_le_pow_right₀ (by norm_num) (by omega)
    norm_num at *; linarith
  have hP : (1 : ℝ) ≤ 2 ^ j := one_le_pow₀ (by norm_num)
  have ht : 0 ≤ x ^ 2 ^ (j + 1) := pow_nonneg hxn _
  have hw2 : x ^ 2 ^ (j + 1) * 2 ^ j ≤ rv R / 2 ^ 51 + 1 / 2 ^ 127 := by
    have h1 := (abs_le.1 herr).1
    have h2 : x ^ 2 ^ (j + 1) * (2 ^ (j + 1) / 2 ^ 52) ≤ x ^ 2 ^ (j + 1) * (1 / 2) := mul_le_mul_of_nonneg_left hN ht
    have h3 : x ^ 2 ^ (j + 1) ≤ 2 * rv X' + 2 * (4 ^ (j + 1) * eta) := by linarith
    have h4 : x ^ 2 ^ (j + 1) * 2 ^ j ≤ (2 * rv X' + 2 * (4 ^ (j + 1) * eta)) * 2 ^ j := mul_le_mul_of_nonneg_right h3 (by positivity)
    have e5 : (2 * rv X' + 2 * (4 ^ (j + 1) * eta)) * 2 ^ j = 2 * (rv X' * 2 ^ j) + 2 * (2 ^ j * (4 ^ (j + 1) * eta)) := by ring
    rw [e5] at h4
    generalize rv X' * 2 ^ j = a at *
    generalize (2 : ℝ) ^ j * (4 ^ (j + 1) * eta) = b at *
    norm_num at *
    linarith
  have hw4 : x ^ 2 ^ (j + 1) ≤ 1 / 4 := by
    have : x ^ 2 ^ (j + 1) ≤ x ^ 2 ^ (j + 1) * 2 ^ j := le_mul_of_one_le_right ht hP
    norm_num at *
    linarith
  obtain ⟨t1, t2⟩ := sigma_tail hxn hw4
  refine ⟨R, e, hrep, hR, ?_, by linarith⟩
  have t3 : 4 * x ^ 2 ^ (j + 1) * (x ^ 2 ^ (j + 1) * 2 ^ j) ≤ 1 * (x ^ 2 ^ (j + 1) * 2 ^ j) :=
    mul_le_mul_of_nonneg_right (by linarith) (by positivity)
  have c1 := abs_le.1 hclose
  generalize sigS x (j + 1) = S at *
  generalize ertlSigma x = σ at *
  generalize x ^ 2 ^ (j + 1) * (2 : ℝ) ^ j = l at *
  generalize rv R = r at *
  rw [abs_le]
  constructor
  · norm_num at *; linarith
  · norm_num at *; linarith

end Starbow.Hll
