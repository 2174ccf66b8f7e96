import Verif.Proof.HllSigma
/-
How far `tau` of hll.go is from the published function.
-/
namespace Starbow.Hll
open Starbow F64 Stat64 Spec

/-! ### the square root -/

theorem sqrt_close {X : Nat} (h : 2 ^ 104 ≤ X * one) : |rv (sqrtMag X) - Real.sqrt (rv X)| ≤ Real.sqrt (rv X) / 2 ^ 52 := by
  have ho := one_real_pos
  have hr : Real.sqrt (rv X) = Real.sqrt ((X * one : Nat) : ℝ) / one := by
    unfold rv
    have e : (X : ℝ) / one = ((X * one : Nat) : ℝ) / (one * one : ℝ) := by push_cast; field_simp
    rw [e, Real.sqrt_div (Nat.cast_nonneg _), Real.sqrt_mul_self ho.le]
  rw [hr]
  have hN : (2 : ℝ) ^ 52 ≤ Real.sqrt ((X * one : Nat) : ℝ) := by
    apply Real.le_sqrt_of_sq_le
    rw [← pow_mul]
    exact_mod_cast h
  have hs0 := le_of_shiftOf (Nat.sqrt (X * one))
  have hnat := Real.nat_sqrt_le_real_sqrt (a := X * one)
  unfold sqrtMag
  dsimp only
  generalize X * one = N at *
  generalize hs : shiftOf (Nat.sqrt N) = s at *
  have hPs : (2 : ℝ) ^ s ≤ Real.sqrt (N : ℝ) / 2 ^ 52 := by
    rw [le_div_iff₀ (by norm_num)]
    by_cases h0 : s = 0
    · rw [h0, pow_zero, one_mul]; exact hN
    · have h1 := hs0 (by omega)
      have h2 : (2 : ℝ) ^ (52 + s) ≤ (Nat.sqrt N : ℝ) := by exact_mod_cast h1
      rw [mul_comm, ← pow_add]
      exact le_trans h2 hnat
  have hp := Nat.two_pow_pos s
  have e4 : 4 ^ s = 2 ^ s * 2 ^ s := by rw [show (4 : Nat) = 2 * 2 from rfl, Nat.mul_pow]
  have hpp := Nat.mul_pos hp hp
  rw [e4]
  generalize hq : Nat.sqrt (N / (2 ^ s * 2 ^ s)) = q
  have hlo : q * q * (2 ^ s * 2 ^ s) ≤ N := by
    rw [← Nat.le_div_iff_mul_le hpp, ← hq]
    exact Nat.sqrt_le _
  have hhi : N ≤ (q + 1) * (q + 1) * (2 ^ s * 2 ^ s) := by
    have h1 := Nat.lt_succ_sqrt (N / (2 ^ s * 2 ^ s))
    rw [hq] at h1
    exact (Nat.div_lt_iff_lt_mul hpp).1 h1 |>.le
  have rlo : (q * 2 ^ s : ℝ) ≤ Real.sqrt (N : ℝ) := by
    apply Real.le_sqrt_of_sq_le
    have : ((q * q * (2 ^ s * 2 ^ s) : Nat) : ℝ) ≤ N := by exact_mod_cast hlo
    push_cast at this
    nlinarith
  have rhi : Real.sqrt (N : ℝ) ≤ (q + 1) * 2 ^ s := by
    rw [Real.sqrt_le_left (by positivity)]
    have : (N : ℝ) ≤ (((q + 1) * (q + 1) * (2 ^ s * 2 ^ s) : Nat) : ℝ) := by exact_mod_cast hhi
    push_cast at this
    nlinarith
  have key : ∀ r : Nat, r = q ∨ r = q + 1 → |rv (r * 2 ^ s) - Real.sqrt (N : ℝ) / one| ≤ Real.sqrt (N : ℝ) / one / 2 ^ 52 := by
    intro r hr
    unfold rv
    rw [← sub_div, abs_div, abs_of_pos ho, div_right_comm]
    apply div_le_div_of_nonneg_right _ ho.le
    refine le_trans ?_ hPs
    push_cast
    rw [abs_le]
    rcases hr with rfl | rfl
    · constructor <;> linarith
    · push_cast
      constructor <;> linarith
  split
  · exact key _ (.inr rfl)
  · exact key _ (.inl rfl)

/-! ### the roots -/

/-- `x^(2^-k)` -/
noncomputable def rt (x : ℝ) (k : Nat) : ℝ := x ^ ((1 / 2 : ℝ) ^ k)

theorem rt_zero (x : ℝ) : rt x 0 = x := by unfold rt; rw [pow_zero, Real.rpow_one]

theorem rt_nonneg {x : ℝ} (h : 0 ≤ x) (k : Nat) : 0 ≤ rt x k := Real.rpow_nonneg h _

theorem rt_le_one {x : ℝ} (h : 0 ≤ x) (h1 : x ≤ 1) (k : Nat) : rt x k ≤ 1 := Real.rpow_le_one h h1 (by positivity)

theorem rt_sq {x : ℝ} (h : 0 ≤ x) (k : Nat) : rt x (k + 1) ^ 2 = rt x k := by
  unfold rt
  rw [← Real.rpow_natCast, ← Real.rpow_mul h]
  congr 1
  rw [pow_succ]; push_cast; ring

theorem rt_sqrt {x : ℝ} (h : 0 ≤ x) (k : Nat) : Real.sqrt (rt x k) = rt x (k + 1) := by
  rw [← rt_sq h k, Real.sqrt_sq (rt_nonneg h _)]

theorem rt_mono {x : ℝ} (h : 0 < x) (h1 : x ≤ 1) {i j : Nat} (hij : i ≤ j) : rt x i ≤ rt x j :=
  Real.rpow_le_rpow_of_exponent_ge h h1 (pow_le_pow_of_le_one (by norm_num) (by norm_num) hij)

theorem rt_ge {x : ℝ} (h : 1 / 2 ^ 18 ≤ x) (h1 : x ≤ 1) {k : Nat} (hk : 1 ≤ k) : 1 / 2 ^ 9 ≤ rt x k := by
  have h0 : 0 < x := lt_of_lt_of_le (by norm_num) h
  refine le_trans ?_ (rt_mono h0 h1 hk)
  rw [← rt_sqrt h0.le, rt_zero]
  apply Real.le_sqrt_of_sq_le
  norm_num at *
  linarith

theorem rt_ge' {x : ℝ} (h : 1 / 2 ^ 18 ≤ x) (h1 : x ≤ 1) (k : Nat) : 1 / 2 ^ 18 ≤ rt x k := by
  have h0 : 0 < x := lt_of_lt_of_le (by norm_num) h
  refine le_trans h ?_
  have := rt_mono h0 h1 (Nat.zero_le k)
  rwa [rt_zero] at this

/-- the terms of the sum in the code -/
noncomputable def tterm (x : ℝ) (k : Nat) : ℝ := rt x (k + 1) * (1 - rt x (k + 1)) * (1 / 2) ^ (k + 1)

theorem tterm_nonneg {x : ℝ} (h : 0 ≤ x) (h1 : x ≤ 1) (k : Nat) : 0 ≤ tterm x k := by
  have := rt_nonneg h (k + 1)
  have := rt_le_one h h1 (k + 1)
  unfold tterm
  exact mul_nonneg (mul_nonneg (by linarith) (by linarith)) (by positivity)

theorem tterm_le {x : ℝ} (h : 0 ≤ x) (h1 : x ≤ 1) (k : Nat) : tterm x k ≤ (1 / 2) ^ (k + 1) := by
  have h2 := rt_nonneg h (k + 1)
  have h3 := rt_le_one h h1 (k + 1)
  unfold tterm
  have : rt x (k + 1) * (1 - rt x (k + 1)) ≤ 1 := by nlinarith
  have hp : (0 : ℝ) ≤ (1 / 2) ^ (k + 1) := by positivity
  nlinarith

theorem half_summable : Summable fun k : ℕ => (1 / 2 : ℝ) ^ (k + 1) := by
  have := (summable_nat_add_iff (f := fun k : ℕ => (1 / 2 : ℝ) ^ k) 1).2 (summable_geometric_of_lt_one (by norm_num) (by norm_num))
  exact this

theorem half_tsum : ∑' k : ℕ, (1 / 2 : ℝ) ^ (k + 1) = 1 := by
  have h : (fun k : ℕ => (1 / 2 : ℝ) ^ (k + 1)) = fun k : ℕ => (1 / 2 : ℝ) ^ k * (1 / 2) := by funext k; rw [pow_succ]
  rw [h, tsum_mul_right, tsum_geometric_of_lt_one (by norm_num) (by norm_num)]; norm_num

theorem tterm_summable {x : ℝ} (h : 0 ≤ x) (h1 : x ≤ 1) : Summable (tterm x) :=
  Summable.of_nonneg_of_le (tterm_nonneg h h1) (tterm_le h h1) half_summable

/-- the sum in the code is the published function -/
theorem tau_eq {x : ℝ} (h : 0 ≤ x) (h1 : x ≤ 1) : ertlTau x = ∑' k, tterm x k := by
  have hb : ∀ k, 0 ≤ rt x k * (1 / 2 : ℝ) ^ k ∧ rt x k * (1 / 2 : ℝ) ^ k ≤ (1 / 2 : ℝ) ^ k := fun k => by
    have h2 := rt_nonneg h k
    have h3 := rt_le_one h h1 k
    have hp : (0 : ℝ) ≤ (1 / 2) ^ k := by positivity
    exact ⟨mul_nonneg h2 hp, mul_le_of_le_one_left hp h3⟩
  have hg : Summable fun k : ℕ => (1 / 2 : ℝ) ^ k := summable_geometric_of_lt_one (by norm_num) (by norm_num)
  have hA0 : Summable fun k : ℕ => rt x k * (1 / 2 : ℝ) ^ k := Summable.of_nonneg_of_le (fun k => (hb k).1) (fun k => (hb k).2) hg
  have hA : Summable fun k : ℕ => rt x (k + 1) * (1 / 2 : ℝ) ^ (k + 1) :=
    (summable_nat_add_iff (f := fun k : ℕ => rt x k * (1 / 2 : ℝ) ^ k) 1).2 hA0
  have hshift := hA0.tsum_eq_zero_add
  rw [rt_zero, pow_zero, mul_one] at hshift
  have hB : Summable fun k : ℕ => rt x k * (1 / 2 : ℝ) ^ k * (1 / 2) := hA0.mul_right _
  have hBsum : ∑' k : ℕ, rt x k * (1 / 2 : ℝ) ^ k * (1 / 2) = (x + ∑' k : ℕ, rt x (k + 1) * (1 / 2 : ℝ) ^ (k + 1)) * (1 / 2) := by
    rw [tsum_mul_right, hshift]
  have e1 : (fun k => tterm x k) = fun k : ℕ => rt x (k + 1) * (1 / 2 : ℝ) ^ (k + 1) - rt x k * (1 / 2 : ℝ) ^ k * (1 / 2) := by
    funext k
    unfold tterm
    rw [← rt_sq h k, pow_succ (1 / 2 : ℝ) k]; ring
  have e2 : (fun k : ℕ => (1 - x ^ ((1 / 2 : ℝ) ^ (k + 1))) ^ 2 * (1 / 2 : ℝ) ^ (k + 1)) = fun k : ℕ =>
      ((1 / 2 : ℝ) ^ (k + 1) - 2 * (rt x (k + 1) * (1 / 2 : ℝ) ^ (k + 1))) + rt x k * (1 / 2 : ℝ) ^ k * (1 / 2) := by
    funext k
    change (1 - rt x (k + 1)) ^ 2 * (1 / 2 : ℝ) ^ (k + 1) = _
    rw [← rt_sq h k, pow_succ (1 / 2 : ℝ) k]; ring
  unfold ertlTau
  rw [e2, (half_summable.sub (hA.mul_left 2)).tsum_add hB, half_summable.tsum_sub (hA.mul_left 2), tsum_mul_left, hBsum, half_tsum]
  have e3 : ∑' k, tterm x k = ∑' k, (rt x (k + 1) * (1 / 2 : ℝ) ^ (k + 1) - rt x k * (1 / 2 : ℝ) ^ k * (1 / 2)) :=
    tsum_congr fun k => congrFun e1 k
  rw [e3, hA.tsum_sub hB, hBsum]
  ring

/-! ### the loop of `tau` -/

structure RootNear (x : ℝ) (k X : Nat) : Prop where
  le : X ≤ one
  lo : (1 - 1 / 2 ^ 52) ^ 2 * rt x k ≤ rv X
  hi : rv X ≤ (1 + 1 / 2 ^ 52) ^ 2 * rt x k

theorem RootNear.err {x : ℝ} (h0 : 0 ≤ x) (h1 : x ≤ 1) {k X : Nat} (h : RootNear x k X) : |rv X - rt x k| ≤ 1 / 2 ^ 50 := by
  obtain ⟨_, hlo, hhi⟩ := h
  have h2 := rt_nonneg h0 k
  have h3 := rt_le_one h0 h1 k
  rw [abs_le]
  constructor <;> norm_num at * <;> linarith

theorem RootNear.sqrt {x : ℝ} (h0 : 1 / 2 ^ 18 ≤ x) (h1 : x ≤ 1) {k X : Nat} (h : RootNear x k X) :
    F64.sqrt (.fin false X) = .fin false (sqrtMag X) ∧ RootNear x (k + 1) (sqrtMag X) := by
  have hx0 : 0 ≤ x := le_trans (by norm_num) h0
  have ho := one_real_pos
  obtain ⟨hle, hlo, hhi⟩ := h
  have hge := rt_ge' h0 h1 k
  have hrt := rt_nonneg hx0 k
  have hX : (1 : ℝ) / 2 ^ 20 ≤ rv X := by
    refine le_trans ?_ hlo
    norm_num at *; linarith
  have hX0 : X ≠ 0 := by
    intro h; subst h
    unfold rv at hX
    norm_num at hX
  have hbig : 2 ^ 104 ≤ X * one := by
    have h1 : (2 : ℝ) ^ 200 ≤ one := one_big
    have h2 : (one : ℝ) ≤ X * 2 ^ 20 := by
      unfold rv at hX
      rw [div_le_div_iff₀ (by norm_num) ho] at hX
      linarith
    have hXn : (1 : ℝ) ≤ X := by exact_mod_cast Nat.one_le_iff_ne_zero.2 hX0
    have : (2 : ℝ) ^ 104 ≤ X * one := by
      have h3 : (2 : ℝ) ^ 104 ≤ one := le_trans (by norm_num) h1
      nlinarith
    exact_mod_cast this
  have hc := abs_le.1 (sqrt_close hbig)
  have s1 : Real.sqrt (rv X) ≤ (1 + 1 / 2 ^ 52) * rt x (k + 1) := by
    rw [← rt_sqrt hx0]
    calc Real.sqrt (rv X) ≤ Real.sqrt ((1 + 1 / 2 ^ 52) ^ 2 * rt x k) := Real.sqrt_le_sqrt hhi
      _ = _ := by rw [Real.sqrt_mul (by positivity), Real.sqrt_sq (by positivity)]
  have s2 : (1 - 1 / 2 ^ 52) * rt x (k + 1) ≤ Real.sqrt (rv X) := by
    rw [← rt_sqrt hx0]
    calc (1 - 1 / 2 ^ 52) * Real.sqrt (rt x k) = Real.sqrt ((1 - 1 / 2 ^ 52) ^ 2 * rt x k) := by
          rw [Real.sqrt_mul (by positivity), Real.sqrt_sq (by norm_num)]
      _ ≤ _ := Real.sqrt_le_sqrt hlo
  refine ⟨by rw [F64.sqrt, if_neg hX0]; rfl, sqrtMag_le_one hle, ?_, ?_⟩
  · have : (1 - 1 / 2 ^ 52) * ((1 - 1 / 2 ^ 52) * rt x (k + 1)) ≤ (1 - 1 / 2 ^ 52) * Real.sqrt (rv X) :=
      mul_le_mul_of_nonneg_left s2 (by norm_num)
    have e : (1 - 1 / 2 ^ 52 : ℝ) ^ 2 * rt x (k + 1) = (1 - 1 / 2 ^ 52) * ((1 - 1 / 2 ^ 52) * rt x (k + 1)) := by ring
    rw [e]
    linarith [hc.1]
  · have : (1 + 1 / 2 ^ 52) * Real.sqrt (rv X) ≤ (1 + 1 / 2 ^ 52) * ((1 + 1 / 2 ^ 52) * rt x (k + 1)) :=
      mul_le_mul_of_nonneg_left s1 (by norm_num)
    have e : (1 + 1 / 2 ^ 52 : ℝ) ^ 2 * rt x (k + 1) = (1 + 1 / 2 ^ 52) * ((1 + 1 / 2 ^ 52) * rt x (k + 1)) := by ring
    rw [e]
    linarith [hc.2]

theorem one_sub_rv {X : Nat} (h : X ≤ one) : ∃ D, F64.sub (F64.ofNat 1) (.fin false X) = .fin false D ∧ D ≤ one ∧
    |rv D - (1 - rv X)| ≤ (1 - rv X) / 2 ^ 53 := by
  rw [ofNat_is (by omega), Nat.one_mul]
  have hol : one < limit := by have := pow_one_lt (k := 0) (by omega); omega
  have e : signed false one + signed true X = ((one - X : Nat) : Int) := by
    simp only [signed, Bool.false_eq_true, if_false, if_true]; omega
  have er : rv (one - X) = 1 - rv X := by
    unfold rv; rw [Nat.cast_sub h, sub_div, div_self one_real_pos.ne']
  have ha := add_rv (one - X) 0
  have e0 : rv 0 = 0 := by simp [rv]
  rw [e0, Nat.add_zero, er, add_zero] at ha
  rw [F64.sub, F64.neg, Bool.not_false, F64.add, e]
  split
  · rename_i h0
    have : X = one := by omega
    subst this
    refine ⟨0, rfl, Nat.zero_le _, ?_⟩
    rw [rv_one, e0]; norm_num
  · have hle := rnd_le_of_rep (a := one - X) (b := 1) (by omega) rep_one (by omega)
    refine ⟨rnd (one - X) 1, ?_, hle, ha⟩
    rw [mk, Int.natAbs_natCast, if_pos (by omega), decide_eq_false (by omega)]

/-- the partial sums of `τ` -/
noncomputable def tauS (x : ℝ) (k : Nat) : ℝ := ∑ i ∈ Finset.range k, tterm x i

theorem tauS_le {x : ℝ} (h : 0 ≤ x) (h1 : x ≤ 1) (k : Nat) : 0 ≤ tauS x k ∧ tauS x k ≤ 1 := by
  refine ⟨Finset.sum_nonneg fun i _ => tterm_nonneg h h1 i, ?_⟩
  calc tauS x k ≤ ∑ i ∈ Finset.range k, (1 / 2 : ℝ) ^ (i + 1) := Finset.sum_le_sum fun i _ => tterm_le h h1 i
    _ ≤ ∑' i : ℕ, (1 / 2 : ℝ) ^ (i + 1) := half_summable.sum_le_tsum _ fun i _ => by positivity
    _ = 1 := half_tsum

/-- one term -/
theorem tau_term {x : ℝ} (h : 0 ≤ x) (h1 : x ≤ 1) {k X D Y : Nat} (hX : RootNear x (k + 1) X) (hD : D ≤ one)
    (hDe : |rv D - (1 - rv X)| ≤ (1 - rv X) / 2 ^ 53) (hY : Y ≤ one) (hYe : |rv Y - (1 / 2) ^ (k + 1)| ≤ eta) :
    |rv (rnd (rnd (D * X) one * Y) one) - tterm x k| ≤ 1 / 2 ^ 48 := by
  have hP := abs_le.1 (mul_rv D X)
  have hI := abs_le.1 (mul_rv (rnd (D * X) one) Y)
  have hPle : rnd (D * X) one ≤ one := rnd_le_of_rep F64.one_pos rep_one (Nat.mul_le_mul hD hX.le)
  have x1 : rv X ≤ 1 := by have := rv_le hX.le; rwa [rv_one] at this
  have y1 : rv Y ≤ 1 := by have := rv_le hY; rwa [rv_one] at this
  have p1 : rv (rnd (D * X) one) ≤ 1 := by have := rv_le hPle; rwa [rv_one] at this
  have d1 : rv D ≤ 1 := by have := rv_le hD; rwa [rv_one] at this
  have x0 := rv_nonneg X
  have y0 := rv_nonneg Y
  have d0 := rv_nonneg D
  have p0 := rv_nonneg (rnd (D * X) one)
  have he := abs_le.1 (hX.err h h1)
  have t0 := rt_nonneg h (k + 1)
  have t1 := rt_le_one h h1 (k + 1)
  have hη := eta_small
  have hη0 := eta_pos
  have z0 : (0 : ℝ) ≤ (1 / 2) ^ (k + 1) := by positivity
  have z1 : (1 / 2 : ℝ) ^ (k + 1) ≤ 1 := pow_le_one₀ (by norm_num) (by norm_num)
  have hDe := abs_le.1 hDe
  have hYe := abs_le.1 hYe
  unfold tterm
  generalize (1 / 2 : ℝ) ^ (k + 1) = w at *
  generalize rt x (k + 1) = t at *
  generalize rv (rnd (rnd (D * X) one * Y) one) = i at *
  generalize rv (rnd (D * X) one) = q at *
  generalize rv X = a at *
  generalize rv D = d at *
  generalize rv Y = y at *
  generalize eta = η at *
  -- the product
  have k1 : |d * a - (1 - a) * a| ≤ 1 / 2 ^ 53 := by
    rw [← sub_mul, abs_mul, abs_of_nonneg x0]
    have : |d - (1 - a)| ≤ 1 / 2 ^ 53 := by rw [abs_le]; constructor <;> norm_num at * <;> linarith
    calc |d - (1 - a)| * a ≤ 1 / 2 ^ 53 * 1 := mul_le_mul this x1 x0 (by norm_num)
      _ = _ := by norm_num
  have k2 : |(1 - a) * a - t * (1 - t)| ≤ 1 / 2 ^ 50 := by
    have e : (1 - a) * a - t * (1 - t) = (a - t) * (1 - a - t) := by ring
    rw [e, abs_mul]
    have h2 : |1 - a - t| ≤ 1 := by rw [abs_le]; constructor <;> linarith
    have h3 : |a - t| ≤ 1 / 2 ^ 50 := by rw [abs_le]; exact he
    calc |a - t| * |1 - a - t| ≤ 1 / 2 ^ 50 * 1 := mul_le_mul h3 h2 (abs_nonneg _) (by norm_num)
      _ = _ := by norm_num
  have hda : d * a ≤ 1 := by nlinarith
  have hda0 : 0 ≤ d * a := by positivity
  have k3 : |q - t * (1 - t)| ≤ 1 / 2 ^ 49 := by
    have a1 := abs_le.1 k1
    have a2 := abs_le.1 k2
    rw [abs_le]
    generalize d * a = u at *
    generalize (1 - a) * a = v at *
    constructor <;> norm_num at * <;> linarith
  have hqy : q * y ≤ 1 := by nlinarith
  have hqy0 : 0 ≤ q * y := by positivity
  have k4 : |q * y - t * (1 - t) * w| ≤ 1 / 2 ^ 49 + η := by
    have e : q * y - t * (1 - t) * w = (q - t * (1 - t)) * y + t * (1 - t) * (y - w) := by ring
    rw [e]
    refine le_trans (abs_add_le _ _) ?_
    rw [abs_mul, abs_mul, abs_of_nonneg y0]
    have ht : |t * (1 - t)| ≤ 1 := by rw [abs_le]; constructor <;> nlinarith
    have hyw : |y - w| ≤ η := by rw [abs_le]; exact hYe
    have m1 : |q - t * (1 - t)| * y ≤ 1 / 2 ^ 49 * 1 := mul_le_mul k3 y1 y0 (by norm_num)
    have m2 : |t * (1 - t)| * |y - w| ≤ 1 * η := mul_le_mul ht hyw (abs_nonneg _) (by norm_num)
    linarith
  have a4 := abs_le.1 k4
  rw [abs_le]
  generalize t * (1 - t) * w = v at *
  generalize q * y = u at *
  constructor <;> norm_num at * <;> linarith

/-- the invariant of the loop after `k` rounds -/
theorem tauLoop_acc {x : ℝ} (h0 : 1 / 2 ^ 18 ≤ x) (h1 : x ≤ 1) : ∀ (fuel k X Z : Nat), RootNear x k X → Z ≤ k * one → Rep Z →
    |rv Z - tauS x k| ≤ k / 2 ^ 47 → k ≤ 1074 → 1075 ≤ fuel + k →
    ∃ R j, tauLoop fuel (.fin false X) (.fin false (2 ^ (1074 - k))) (.fin false Z) = .val (.fin false R) ∧ R ≤ 1075 * one ∧ j ≤ 1074 ∧
      |rv R - tauS x (j + 1)| ≤ (j + 1) / 2 ^ 47 ∧ tterm x j ≤ 1 / 2 ^ 47 := by
  have hx0 : 0 ≤ x := le_trans (by norm_num) h0
  intro fuel
  induction fuel with
  | zero => intro k X Z _ _ _ _ h1 h2; omega
  | succ fuel ih =>
    intro k X Z hX hZ hR hZe hk hf
    have ho := F64.one_pos
    obtain ⟨eS, hS⟩ := hX.sqrt h0 h1
    have bS := hS.le
    generalize sqrtMag X = S at *
    obtain ⟨D, eD, bD, hD⟩ := one_sub_rv bS
    have hol : one < limit := by have := pow_one_lt (k := 0) (by omega); omega
    obtain ⟨eDS, bDS⟩ := mul_le_rep (x := .fin false D) (y := .fin false S) rfl rfl rep_one hol (Nat.mul_le_mul bD bS)
    have hY' : ∃ Y', F64.mul (F64.dec 1 2) (.fin false (2 ^ (1074 - k))) = .fin false Y' ∧
        (k < 1074 → Y' = 2 ^ (1074 - (k + 1))) ∧ (k = 1074 → Y' = 0) ∧ Y' ≤ one ∧ |rv Y' - (1 / 2) ^ (k + 1)| ≤ eta := by
      by_cases hlt : k < 1074
      · refine ⟨2 ^ (1074 - (k + 1)), ?_, fun _ => rfl, fun h => by omega, ?_, ?_⟩
        · have hol2 : 2 ^ (1074 - (k + 1)) < limit := by
            rw [limit_eq]; exact Nat.pow_lt_pow_right (by omega) (by rw [expLimit_eq]; omega)
          have ee : 2 ^ (expOne - 1) * 2 ^ (1074 - k) = 2 ^ (1074 - (k + 1)) * one := by
            rw [one_eq, ← Nat.pow_add, ← Nat.pow_add]; congr 1; rw [expOne_eq]; omega
          obtain ⟨g, _⟩ := mul_le_rep half_is (y := .fin false (2 ^ (1074 - k))) rfl (rep_pow (1074 - (k + 1))) hol2 (Nat.le_of_eq ee)
          rw [g, ee, rnd_exact ho (rep_pow _)]
        · rw [one_eq]; exact Nat.pow_le_pow_right (by omega) (by rw [expOne_eq]; omega)
        · have hη := eta_pos
          have : rv (2 ^ (1074 - (k + 1))) = (1 / 2) ^ (k + 1) := by
            unfold rv
            have e : 2 ^ (1074 - (k + 1)) * 2 ^ (k + 1) = one := by
              rw [one_eq, ← Nat.pow_add]; congr 1; rw [expOne_eq]; omega
            have e' := congrArg (Nat.cast : ℕ → ℝ) e
            rw [Nat.cast_mul] at e'
            rw [div_eq_iff one_real_pos.ne', ← e', Nat.cast_pow (2 : ℕ) (k + 1), mul_comm ((2 ^ (1074 - (k + 1)) : ℕ) : ℝ), ← mul_assoc,
              Nat.cast_ofNat, ← mul_pow]
            norm_num
          rw [this, sub_self, abs_zero]; exact hη.le
      · have hk' : k = 1074 := by omega
        refine ⟨0, ?_, fun h => by omega, fun _ => rfl, Nat.zero_le _, ?_⟩
        · rw [hk']; exact half_mul_one (Nat.le_refl _)
        · have e0 : rv 0 = 0 := by simp [rv]
          rw [e0, zero_sub, abs_neg, abs_of_nonneg (by positivity), hk']
          unfold eta
          rw [one_div_pow, one_eq, expOne_eq, Nat.cast_pow, Nat.cast_ofNat]
          exact one_div_le_one_div_of_le (by positivity) (pow_le_pow_right₀ (by norm_num) (by omega))
    obtain ⟨Y', eY, bY1, bY2, bY3, hYe⟩ := hY'
    have hterm := tau_term hx0 h1 hS bD hD bY3 hYe
    generalize rnd (D * S) one = P at *
    obtain ⟨eI, bI⟩ := mul_le_rep (x := .fin false P) (y := .fin false Y') rfl rfl rep_one hol (Nat.mul_le_mul bDS bY3)
    generalize hI : rnd (P * Y') one = I at *
    have hZI : Z + I ≤ (k + 1) * one := by rw [Nat.add_mul, Nat.one_mul]; omega
    have hkl : (k + 1) * one < limit := by
      refine Nat.lt_of_le_of_lt (Nat.mul_le_mul_right _ (by omega : k + 1 ≤ 2 ^ 64)) pow64_one
    obtain ⟨eA, bA⟩ := add_le_rep (x := .fin false Z) (y := .fin false I) rfl rfl (rep_mul_one (by omega : k + 1 ≤ 2 ^ 53)) hkl hZI
    have hadd := abs_le.1 (add_rv Z I)
    have hSS := tauS_le hx0 h1 k
    have eSS : tauS x (k + 1) = tauS x k + tterm x k := by unfold tauS; rw [Finset.sum_range_succ]
    have i1 : rv I ≤ 1 := by have := rv_le bI; rwa [rv_one] at this
    have i0 := rv_nonneg I
    have z0 := rv_nonneg Z
    have hk' : (k : ℝ) ≤ 1074 := by exact_mod_cast hk
    have hk0 : (0 : ℝ) ≤ k := Nat.cast_nonneg _
    have z2 : rv Z ≤ 2 := by
      have := (abs_le.1 hZe).2
      have h3 : (k : ℝ) / 2 ^ 47 ≤ 1 := by rw [div_le_one (by norm_num)]; norm_num; linarith
      linarith
    have hZe' : |rv (rnd (Z + I) 1) - tauS x (k + 1)| ≤ (k + 1) / 2 ^ 47 := by
      have a1 := abs_le.1 hZe
      have a2 := abs_le.1 hterm
      rw [eSS, abs_le, add_div]
      generalize rv (rnd (Z + I) 1) = r at *
      generalize rv Z = z at *
      generalize rv I = i at *
      generalize tauS x k = s at *
      generalize tterm x k = t at *
      generalize (k : ℝ) / 2 ^ 47 = κ at *
      constructor <;> norm_num at * <;> linarith
    rw [tauLoop]
    rw [eS, eD, eDS, eY, eI, eA]
    split
    · rename_i heq
      have hZR := eq_fin heq
      refine ⟨_, k, rfl, Nat.le_trans bA (Nat.mul_le_mul_right _ (by omega)), hk, hZe', ?_⟩
      rw [hZR] at hadd
      have a2 := (abs_le.1 hterm).1
      have a3 := hadd.1
      generalize rv Z = z at *
      generalize rv I = i at *
      generalize tterm x k = t at *
      norm_num at *
      linarith
    · rename_i hne
      by_cases hend : k = 1074
      · exfalso
        apply hne
        have hI0 : I = 0 := by rw [← hI, bY2 hend, Nat.mul_zero, rnd_zero _ ho]
        rw [hI0, Nat.add_zero, rnd_exact_one hR]
        exact eq_self_fin _ _ _ rfl
      · rw [bY1 (by omega)]
        exact ih (k + 1) _ _ hS bA (rnd_rep _ _ (by omega)) (by push_cast; exact hZe') (by omega) (by omega)

/-- the terms after the last one computed do not matter -/
theorem tau_tail {x : ℝ} (h0 : 1 / 2 ^ 18 ≤ x) (h1 : x ≤ 1) (j : Nat) :
    tauS x (j + 1) ≤ ertlTau x ∧ ertlTau x ≤ tauS x (j + 1) + 2 ^ 9 * tterm x j := by
  have hx0 : 0 < x := lt_of_lt_of_le (by norm_num) h0
  have hge := rt_ge h0 h1 (k := j + 1) (by omega)
  have ht1 := rt_le_one hx0.le h1 (j + 1)
  have hterm : ∀ i : ℕ, tterm x (i + (j + 1)) ≤ 2 ^ 9 * tterm x j * (1 / 2) ^ (i + 1) := by
    intro i
    have hm := rt_mono hx0 h1 (i := j + 1) (j := i + (j + 1) + 1) (by omega)
    have h2 := rt_le_one hx0.le h1 (i + (j + 1) + 1)
    have h3 := rt_nonneg hx0.le (i + (j + 1) + 1)
    unfold tterm
    have e : (1 / 2 : ℝ) ^ (i + (j + 1) + 1) = (1 / 2) ^ (j + 1) * (1 / 2) ^ (i + 1) := by rw [← pow_add]; congr 1; omega
    rw [e]
    have hp : (0 : ℝ) ≤ (1 / 2) ^ (j + 1) * (1 / 2) ^ (i + 1) := by positivity
    have key : rt x (i + (j + 1) + 1) * (1 - rt x (i + (j + 1) + 1)) ≤ 2 ^ 9 * (rt x (j + 1) * (1 - rt x (j + 1))) := by
      generalize rt x (i + (j + 1) + 1) = s at *
      generalize rt x (j + 1) = t at *
      have h4 : s * (1 - s) ≤ 1 - t := by nlinarith
      have h5 : 1 - t ≤ 2 ^ 9 * t * (1 - t) := by
        have : 1 ≤ 2 ^ 9 * t := by norm_num at *; linarith
        exact le_mul_of_one_le_left (by linarith) this
      linarith
    calc _ ≤ 2 ^ 9 * (rt x (j + 1) * (1 - rt x (j + 1))) * ((1 / 2) ^ (j + 1) * (1 / 2) ^ (i + 1)) := mul_le_mul_of_nonneg_right key hp
      _ = _ := by ring
  have hs := tterm_summable hx0.le h1
  have htail := (summable_nat_add_iff (f := tterm x) (j + 1)).2 hs
  have hsplit := hs.sum_add_tsum_nat_add (j + 1)
  have a1 : 0 ≤ ∑' i : ℕ, tterm x (i + (j + 1)) := tsum_nonneg fun i => tterm_nonneg hx0.le h1 _
  have a2 := htail.tsum_le_tsum hterm (half_summable.mul_left _)
  rw [tsum_mul_left, half_tsum] at a2
  rw [tau_eq hx0.le h1, ← hsplit]
  unfold tauS
  constructor <;> linarith

theorem ertlTau_zero : ertlTau 0 = 0 := by
  rw [tau_eq (le_refl _) (by norm_num)]
  have : tterm 0 = fun _ => 0 := by
    funext k
    unfold tterm rt
    rw [Real.zero_rpow (by positivity)]; ring
  rw [this]; exact tsum_zero

/-- `tau` is the published function up to an error of `2^-35` -/
theorem tau_close {c p : Nat} (hp : p ≤ 18) (hc : c ≤ 2 ^ p) : ∃ R, tau (c : Int) ((2 ^ p : Nat) : Int) = .val (.fin false R) ∧
    R ≤ 1075 * one ∧ |rv R - ertlTau (1 - c / 2 ^ p)| ≤ 1 / 2 ^ 35 ∧ 0 ≤ ertlTau (1 - c / 2 ^ p) := by
  have ho := F64.one_pos
  unfold tau
  rw [quot_is hp hc]
  have hsp := pow_split hp
  have hm : 2 ^ p ≤ 2 ^ 18 := Nat.pow_le_pow_right (by omega) hp
  have hle : c * 2 ^ (expOne - p) ≤ one := by
    rw [← hsp]; exact Nat.mul_le_mul_right _ hc
  have hm0 : (0 : ℝ) < 2 ^ p := by positivity
  by_cases hceq : c = 2 ^ p
  · subst hceq
    rw [hsp]
    have e1 : ((2 ^ p : Nat) : ℝ) / 2 ^ p = 1 := by push_cast; exact div_self hm0.ne'
    refine ⟨0, by decide +kernel, Nat.zero_le _, ?_, ?_⟩
    · rw [e1, sub_self, ertlTau_zero]; simp [rv]
    · rw [e1, sub_self, ertlTau_zero]
  -- the difference is exact
  have hex : F64.sub (F64.ofNat 1) (.fin false (c * 2 ^ (expOne - p))) = .fin false ((2 ^ p - c) * 2 ^ (expOne - p)) := by
    have hd : one - c * 2 ^ (expOne - p) = (2 ^ p - c) * 2 ^ (expOne - p) := by rw [Nat.sub_mul, hsp]
    have hpos : 0 < (2 ^ p - c) * 2 ^ (expOne - p) := Nat.mul_pos (by omega) (Nat.two_pow_pos _)
    have hol : one < limit := by have := pow_one_lt (k := 0) (by omega); omega
    have e : signed false one + signed true (c * 2 ^ (expOne - p)) = (((2 ^ p - c) * 2 ^ (expOne - p) : Nat) : Int) := by
      rw [← hd]
      simp only [signed, Bool.false_eq_true, if_false, if_true]; omega
    have hrep : Rep ((2 ^ p - c) * 2 ^ (expOne - p)) := rep_of_mul (by omega)
    rw [ofNat_is (by omega), Nat.one_mul, F64.sub, F64.neg, Bool.not_false, F64.add, e, if_neg (by omega), mk, Int.natAbs_natCast,
      rnd_exact_one hrep, if_pos (by omega), decide_eq_false (by omega)]
  rw [hex, ofNat_is (by omega : 1 ≤ 2 ^ 53), Nat.one_mul]
  have hxe : (1 : ℝ) - c / 2 ^ p = ((2 ^ p - c : Nat) : ℝ) / 2 ^ p := by
    rw [Nat.cast_sub hc, sub_div]; push_cast; rw [div_self hm0.ne']
  have hrv : rv ((2 ^ p - c) * 2 ^ (expOne - p)) = 1 - c / 2 ^ p := by
    rw [hxe]
    unfold rv
    have e' := congrArg (Nat.cast : ℕ → ℝ) hsp
    push_cast at e'
    rw [← e', Nat.cast_mul, Nat.cast_pow, Nat.cast_ofNat]
    have : (0 : ℝ) < 2 ^ (expOne - p) := by positivity
    generalize (2 : ℝ) ^ (expOne - p) = w at *
    generalize ((2 ^ p - c : Nat) : ℝ) = d at *
    field_simp
  have hx1 : (1 : ℝ) - c / 2 ^ p ≤ 1 := by
    have : (0 : ℝ) ≤ c / 2 ^ p := by positivity
    linarith
  have hx0 : (1 : ℝ) / 2 ^ 18 ≤ 1 - c / 2 ^ p := by
    rw [hxe]
    have h1 : (1 : ℝ) ≤ ((2 ^ p - c : Nat) : ℝ) := by exact_mod_cast (by omega : 1 ≤ 2 ^ p - c)
    have hmr : (2 : ℝ) ^ p ≤ 2 ^ 18 := by exact_mod_cast hm
    exact le_trans (one_div_le_one_div_of_le hm0 hmr) (div_le_div_of_nonneg_right h1 hm0.le)
  generalize (1 : ℝ) - c / 2 ^ p = x at *
  have hxn : 0 ≤ x := le_trans (by norm_num) hx0
  have hXle : (2 ^ p - c) * 2 ^ (expOne - p) ≤ one := by rw [← hsp]; exact Nat.mul_le_mul_right _ (by omega)
  obtain ⟨R, j, e, hR, hj, hZ, hlast⟩ := tauLoop_acc hx0 hx1 1200 0 _ 0
    ⟨hXle, by rw [hrv, rt_zero]; norm_num; linarith, by rw [hrv, rt_zero]; norm_num; linarith⟩ (Nat.zero_le _) rep_zero
    (by simp [rv, tauS]) (by omega) (by omega)
  have e0 : 2 ^ (1074 - 0) = one := by rw [one_eq, expOne_eq]
  rw [e0] at e
  refine ⟨R, e, hR, ?_, ?_⟩
  · obtain ⟨t1, t2⟩ := tau_tail hx0 hx1 j
    have hj' : ((j : ℝ) + 1) / 2 ^ 47 ≤ 1 / 2 ^ 36 := by
      rw [div_le_div_iff₀ (by norm_num) (by norm_num)]
      have : (j : ℝ) ≤ 1074 := by exact_mod_cast hj
      norm_num; linarith
    have a1 := abs_le.1 hZ
    have a2 := tterm_nonneg hxn hx1 j
    rw [abs_le]
    generalize rv R = r at *
    generalize ((j : ℝ) + 1) / 2 ^ 47 = κ at *
    constructor <;> norm_num at * <;> linarith
  · rw [tau_eq hxn hx1]; exact tsum_nonneg (tterm_nonneg hxn hx1)

end Starbow.Hll
