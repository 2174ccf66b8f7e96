import Verif.Proof.HllPoisson
import Mathlib.Analysis.Complex.ExponentialBounds
/-
Accuracy of the harmonic estimator of hll.go, and linear counting as a function of the number of empty registers.
-/
namespace Starbow.Hll
open Starbow F64 Stat64 Spec

/-! ### the rounded sum against the exact one -/

/-- the exact sum -/
noncomputable def tsum (f : Nat → Nat) (i k : Nat) : ℝ := ((List.range' i k).map fun j => (term (f j) : ℝ)).sum

theorem tsum_succ (f : Nat → Nat) (i k : Nat) : tsum f i (k + 1) = term (f i) + tsum f (i + 1) k := by
  unfold tsum; rw [List.range'_succ, List.map_cons, List.sum_cons]

theorem hsum_rel {f : Nat → Nat} : ∀ k i {z : Nat} {S : ℝ}, (∀ j, i ≤ j → j < i + k → f j < 64) → i + k ≤ 2 ^ 18 → 0 ≤ S →
    |(z : ℝ) - S| ≤ S * (i / 2 ^ 52) → |(hsum f k i z : ℝ) - (S + tsum f i k)| ≤ (S + tsum f i k) * ((i + k : Nat) / 2 ^ 52) := by
  intro k
  induction k with
  | zero => intro i z S _ _ _ h; simpa [hsum, tsum] using h
  | succ k ih =>
    intro i z S hf hk hS h
    rw [hsum, tsum_succ, ← add_assoc, show i + (k + 1) = i + 1 + k by omega]
    have hfi := hf i (Nat.le_refl _) (by omega)
    have hterm : 2 ^ 52 ≤ term (f i) := Nat.pow_le_pow_right (by omega) (by rw [expOne_eq]; omega)
    have hr := rnd_rel_real (a := z + term (f i)) (b := 1) (by omega) (by omega)
    rw [Nat.cast_one, div_one] at hr
    apply ih
    · intro j h1 h2; exact hf j (by omega) (by omega)
    · omega
    · positivity
    · push_cast at hr ⊢
      have ht : (0 : ℝ) ≤ term (f i) := by positivity
      have hi : (i : ℝ) ≤ 2 ^ 18 := by
        have : i ≤ 2 ^ 18 := by omega
        exact_mod_cast this
      have hi0 : (0 : ℝ) ≤ i := by positivity
      generalize (term (f i) : ℝ) = t at *
      generalize (rnd (z + term (f i)) 1 : ℝ) = w at *
      generalize (z : ℝ) = y at *
      generalize (i : ℝ) = n at *
      have h1 := abs_le.1 h
      have h2 := abs_le.1 hr
      have hSn : S * (n / 2 ^ 52) ≤ (S + t) * (n / 2 ^ 52) := mul_le_mul_of_nonneg_right (by linarith) (by positivity)
      have hSn2 : (S + t) * (n / 2 ^ 52) ≤ S + t := by
        have : n / 2 ^ 52 ≤ 1 := by rw [div_le_one (by norm_num)]; linarith
        nlinarith
      have e : (S + t) * ((n + 1) / 2 ^ 52) = (S + t) * (n / 2 ^ 52) + (S + t) / 2 ^ 52 := by ring
      rw [e, abs_le]
      constructor
      · have : (y + t) / 2 ^ 53 ≤ (S + t) / 2 ^ 52 := by
          rw [div_le_div_iff₀ (by norm_num) (by norm_num)]
          nlinarith
        linarith
      · have : (y + t) / 2 ^ 53 ≤ (S + t) / 2 ^ 52 := by
          rw [div_le_div_iff₀ (by norm_num) (by norm_num)]
          nlinarith
        linarith

theorem hsum_close {f : Nat → Nat} {m : Nat} (hf : ∀ j, j < m → f j < 64) (hm : m ≤ 2 ^ 18) :
    |(hsum f m 0 0 : ℝ) - tsum f 0 m| ≤ tsum f 0 m / 2 ^ 34 := by
  have h := hsum_rel m 0 (z := 0) (S := 0) (f := f) (fun j _ h2 => hf j (by omega)) (by omega) (le_refl _) (by simp)
  rw [zero_add] at h
  refine le_trans h ?_
  have h0 : 0 ≤ tsum f 0 m := by
    unfold tsum
    apply List.sum_nonneg
    intro x hx
    obtain ⟨j, _, rfl⟩ := List.mem_map.1 hx
    positivity
  have hm' : ((0 + m : Nat) : ℝ) ≤ 2 ^ 18 := by
    have : 0 + m ≤ 2 ^ 18 := by omega
    exact_mod_cast this
  have h1 : ((0 + m : Nat) : ℝ) / 2 ^ 52 ≤ 1 / 2 ^ 34 := by
    rw [div_le_iff₀ (by norm_num)]
    refine le_trans hm' (by norm_num)
  calc tsum f 0 m * (((0 + m : Nat) : ℝ) / 2 ^ 52) ≤ tsum f 0 m * (1 / 2 ^ 34) := mul_le_mul_of_nonneg_left h1 h0
    _ = _ := by ring

/-- the unit, as a real -/
theorem term_real {r : Nat} (h : r ≤ 64) : (term r : ℝ) / one = 1 / 2 ^ max r 1 := by
  unfold term
  have e : 2 ^ (expOne - max r 1) * 2 ^ max r 1 = one := by
    rw [one_eq, ← Nat.pow_add]; congr 1; rw [expOne_eq]; omega
  have e' := congrArg (Nat.cast : ℕ → ℝ) e
  rw [Nat.cast_mul] at e'
  rw [div_eq_div_iff one_real_pos.ne' (by positivity), one_mul, ← e']
  push_cast
  rfl

/-! ### linear counting -/

theorem linear_is {log : F64 → F64} (hl : LogOk log) {p v : Nat} (hp : p ≤ 18) (hv : 1 ≤ v) (hvm : v ≤ 2 ^ p) :
    ∃ (x : ℝ) (s : Bool), 0 ≤ x ∧ |x - linearEstimate p v| ≤ linearEstimate p v / 2 ^ 33 ∧ (⌈x⌉₊ = 0 ∨ s = false) ∧
      F64.ceil (F64.mul (F64.ofInt ((2 ^ p : Nat) : Int)) (log (F64.div (F64.ofInt ((2 ^ p : Nat) : Int)) (F64.ofNat v))))
        = .fin s (⌈x⌉₊ * one) := by
  by_cases hvm' : v < 2 ^ p
  · obtain ⟨x, hx1, hx2⟩ := linear_bound hl hp hv hvm'
    refine ⟨x, false, ?_, hx2, .inr rfl, ceil_is hx1⟩
    obtain ⟨m, _, rfl⟩ := hx1
    positivity
  · have hveq : v = 2 ^ p := by omega
    have hmpos : 0 < 2 ^ p := Nat.two_pow_pos p
    have h18 : 2 ^ p ≤ 2 ^ 18 := Nat.pow_le_pow_right (by omega) hp
    have e0 : linearEstimate p v = 0 := by
      unfold linearEstimate
      rw [hveq]
      push_cast
      rw [div_self (by positivity), Real.log_one, mul_zero]
    have hdiv : F64.div (F64.ofInt ((2 ^ p : Nat) : Int)) (F64.ofNat v) = .fin false one := by
      have := quot_is hp (Nat.le_refl (2 ^ p))
      rw [hveq, ofNat_is (by omega)]
      rw [ofInt_is (by omega)] at this ⊢
      rw [this, pow_split hp]
    have hval : Spec.value (.fin false one) = some 1 := by
      have := (Props.value_int (x := .fin false one) (k := 1)).1 ⟨false, one, rfl, by simp [signed]⟩
      rw [this]; norm_cast
    have hwf : Wf (.fin false one) := by rw [← hdiv]; exact wf_div
    obtain ⟨r, er, hr⟩ := hl _ 1 (Props.isDouble_iff.2 hwf) hval (by norm_num)
    rw [Rat.cast_one, Real.log_one] at hr
    have hr0 : r = 0 := by
      simp only [sub_zero, abs_zero, zero_div] at hr
      have := abs_nonpos_iff.1 hr
      exact_mod_cast this
    obtain ⟨s, hs⟩ : ∃ s, log (.fin false one) = .fin s 0 := by
      rw [hr0] at er
      obtain ⟨s, m, e, hz⟩ := (Props.value_iff (z := 0)).2 (by rw [er]; norm_num)
      refine ⟨s, ?_⟩
      have := signed_natAbs s m
      rw [hz] at this
      rw [e, ← this]; rfl
    refine ⟨0, s, le_refl _, by rw [e0]; simp, .inl (by simp), ?_⟩
    rw [hdiv, hs, ofInt_is (by omega), F64.mul, Nat.mul_zero, mk, rnd_zero _ F64.one_pos, if_pos limit_pos, F64.ceil,
      if_pos (Nat.zero_mod _)]
    cases s <;> simp

theorem linearEstimate_bounds {p v : Nat} (hp : p ≤ 18) (hv : 1 ≤ v) (hvm : v ≤ 2 ^ p) :
    0 ≤ linearEstimate p v ∧ linearEstimate p v ≤ 2 ^ 23 := by
  unfold linearEstimate
  have hv' : (0 : ℝ) < v := by exact_mod_cast hv
  have h1 : (1 : ℝ) ≤ 2 ^ p / v := by
    rw [le_div_iff₀ hv', one_mul]; exact_mod_cast hvm
  refine ⟨mul_nonneg (by positivity) (Real.log_nonneg h1), ?_⟩
  have h2 : Real.log (2 ^ p / v) ≤ Real.log (2 ^ p) := by
    apply Real.log_le_log (by positivity)
    apply div_le_self (by positivity)
    exact_mod_cast hv
  rw [Real.log_pow] at h2
  have h3 := Real.log_two_lt_d9
  have h18 : (2 : ℝ) ^ p ≤ 2 ^ 18 := pow_le_pow_right₀ (by norm_num) hp
  have hp' : (p : ℝ) ≤ 18 := by exact_mod_cast hp
  have h4 : (p : ℝ) * Real.log 2 ≤ 18 * 1 := mul_le_mul hp' (by linarith) (Real.log_nonneg (by norm_num)) (by norm_num)
  calc (2 : ℝ) ^ p * Real.log (2 ^ p / v) ≤ 2 ^ 18 * 18 := by
        apply mul_le_mul h18 (by linarith) (Real.log_nonneg h1) (by norm_num)
    _ ≤ _ := by norm_num

/-- one empty register fewer raises the linear estimate by at least 1 -/
theorem linearEstimate_step {p v w : Nat} (hv : 1 ≤ v) (hvw : v < w) (hw : w ≤ 2 ^ p) :
    linearEstimate p w + 1 ≤ linearEstimate p v := by
  unfold linearEstimate
  have hv' : (0 : ℝ) < v := by exact_mod_cast hv
  have hw' : (0 : ℝ) < w := by exact_mod_cast (by omega : 0 < w)
  have hm : (0 : ℝ) < 2 ^ p := by positivity
  have hwm : (w : ℝ) ≤ 2 ^ p := by exact_mod_cast hw
  have hvw' : (v : ℝ) + 1 ≤ w := by exact_mod_cast hvw
  rw [Real.log_div hm.ne' hv'.ne', Real.log_div hm.ne' hw'.ne']
  have h1 := Real.log_le_sub_one_of_pos (x := v / w) (by positivity)
  rw [Real.log_div hv'.ne' hw'.ne'] at h1
  have h2 : (v : ℝ) / w - 1 ≤ - (1 / 2 ^ p) := by
    have : (v : ℝ) / w ≤ (w - 1) / w := div_le_div_of_nonneg_right (by linarith) hw'.le
    have h3 : ((w : ℝ) - 1) / w = 1 - 1 / w := by field_simp
    have h4 : (1 : ℝ) / 2 ^ p ≤ 1 / w := one_div_le_one_div_of_le hw' hwm
    linarith
  have h5 : (2 : ℝ) ^ p * (1 / 2 ^ p) = 1 := by field_simp
  nlinarith

/-- linear counting never drops when the number of empty registers falls -/
theorem linear_mono {log : F64 → F64} (hl : LogOk log) {p v w : Nat} (hp : p ≤ 18) (hv : 1 ≤ v) (hvw : v ≤ w) (hw : w ≤ 2 ^ p) :
    ∃ (K L : Nat) (s t : Bool), K ≤ L ∧ L ≤ 2 ^ 24 ∧ (K = 0 ∨ s = false) ∧ (L = 0 ∨ t = false) ∧
      (∀ T : Nat, linearEstimate p v * (1 + 1 / 2 ^ 33) ≤ T → L ≤ T) ∧ (∀ T : Nat, T < linearEstimate p w * (1 - 1 / 2 ^ 33) → T < K) ∧
      F64.ceil (F64.mul (F64.ofInt ((2 ^ p : Nat) : Int)) (log (F64.div (F64.ofInt ((2 ^ p : Nat) : Int)) (F64.ofNat w)))) = .fin s (K * one) ∧
      F64.ceil (F64.mul (F64.ofInt ((2 ^ p : Nat) : Int)) (log (F64.div (F64.ofInt ((2 ^ p : Nat) : Int)) (F64.ofNat v)))) = .fin t (L * one) := by
  obtain ⟨x, t, hx0, hx, ht, ex⟩ := linear_is hl hp hv (Nat.le_trans hvw hw)
  obtain ⟨b1, b2⟩ := linearEstimate_bounds hp hv (Nat.le_trans hvw hw)
  have hxl : x ≤ 2 ^ 24 := by
    have := (abs_le.1 hx).2
    have h2 : linearEstimate p v / 2 ^ 33 ≤ 1 := by rw [div_le_one (by norm_num)]; refine le_trans b2 (by norm_num)
    norm_num at *; linarith
  have hL : ⌈x⌉₊ ≤ 2 ^ 24 := by rw [Nat.ceil_le]; exact_mod_cast hxl
  have up : ∀ {v : Nat} {x : ℝ}, |x - linearEstimate p v| ≤ linearEstimate p v / 2 ^ 33 →
      ∀ T : Nat, linearEstimate p v * (1 + 1 / 2 ^ 33) ≤ T → ⌈x⌉₊ ≤ T := by
    intro v x hx T hT
    rw [Nat.ceil_le]
    have e : linearEstimate p v * (1 + 1 / 2 ^ 33) = linearEstimate p v + linearEstimate p v / 2 ^ 33 := by ring
    rw [e] at hT
    linarith [(abs_le.1 hx).2]
  have dn : ∀ {v : Nat} {x : ℝ}, |x - linearEstimate p v| ≤ linearEstimate p v / 2 ^ 33 →
      ∀ T : Nat, T < linearEstimate p v * (1 - 1 / 2 ^ 33) → T < ⌈x⌉₊ := by
    intro v x hx T hT
    rw [Nat.lt_ceil]
    have e : linearEstimate p v * (1 - 1 / 2 ^ 33) = linearEstimate p v - linearEstimate p v / 2 ^ 33 := by ring
    rw [e] at hT
    linarith [(abs_le.1 hx).1]
  by_cases he : v = w
  · subst he
    exact ⟨⌈x⌉₊, ⌈x⌉₊, t, t, Nat.le_refl _, hL, ht, ht, up hx, dn hx, ex, ex⟩
  · obtain ⟨y, s, hy0, hy, hs, ey⟩ := linear_is hl hp (by omega) hw
    obtain ⟨d1, d2⟩ := linearEstimate_bounds hp (by omega : 1 ≤ w) hw
    refine ⟨⌈y⌉₊, ⌈x⌉₊, s, t, ?_, hL, hs, ht, up hx, dn hy, ey, ex⟩
    apply Nat.ceil_mono
    have h1 := linearEstimate_step hv (by omega) hw
    have h2 := (abs_le.1 hx).1
    have h3 := (abs_le.1 hy).2
    have h4 : linearEstimate p v / 2 ^ 33 ≤ 1 / 2 := by rw [div_le_div_iff₀ (by norm_num) (by norm_num)]; norm_num at *; linarith
    have h5 : linearEstimate p w / 2 ^ 33 ≤ 1 / 2 := by rw [div_le_div_iff₀ (by norm_num) (by norm_num)]; norm_num at *; linarith
    linarith

end Starbow.Hll
