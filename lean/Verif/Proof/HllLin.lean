import Verif.Spec.HllEst
import Verif.Proof.HllEst
import Verif.Props.Stat64
import Mathlib.Tactic.IntervalCases
/-
Proofs about linear counting: how far the floating-point estimate is from `m * ln(m/v)`.
-/
namespace Starbow.Hll
open Starbow F64 Stat64 Spec

/-- relative rounding error of a number that is not subnormal -/
theorem rnd_rel {a b : Nat} (hb : 0 < b) (h : b * 2 ^ 52 ≤ a) : ((rnd a b : Int) * b - a).natAbs * 2 ^ 53 ≤ a := by
  have h1 := le_of_shiftOf (a / b)
  have hs : 2 ^ shiftOf (a / b) * 2 ^ 52 * b ≤ a := by
    by_cases h0 : shiftOf (a / b) = 0
    · rw [h0, Nat.pow_zero, Nat.one_mul, Nat.mul_comm]; exact h
    · have h2 := h1 (by omega)
      rw [Nat.pow_add, Nat.mul_comm (2 ^ 52)] at h2
      exact Nat.le_trans (Nat.mul_le_mul_right _ h2) (Nat.div_mul_le_self a b)
  unfold rnd
  generalize shiftOf (a / b) = s at *
  have hp := Nat.two_pow_pos s
  have h3 := rhe_lo a (b * 2 ^ s) (Nat.mul_pos hb hp)
  have h4 := rhe_hi a (b * 2 ^ s) (Nat.mul_pos hb hp)
  generalize rhe a (b * 2 ^ s) = r at *
  have e1 : ((r * 2 ^ s : Nat) : Int) * b = ((r * (b * 2 ^ s) : Nat) : Int) := by push_cast; ring
  have e2 : 2 ^ s * 2 ^ 52 * b = b * 2 ^ s * 2 ^ 52 := by ring
  have e3 : (2 * r + 1) * (b * 2 ^ s) = 2 * (r * (b * 2 ^ s)) + b * 2 ^ s := by ring
  have e4 : 2 * r * (b * 2 ^ s) = 2 * (r * (b * 2 ^ s)) := by ring
  rw [e1]; rw [e2] at hs; rw [e3] at h3; rw [e4] at h4
  generalize r * (b * 2 ^ s) = R at *
  generalize b * 2 ^ s = B at *
  have h5 : 2 * ((R : Int) - a).natAbs ≤ B := by omega
  calc ((R : Int) - a).natAbs * 2 ^ 53 = 2 * ((R : Int) - a).natAbs * 2 ^ 52 := by ring
    _ ≤ B * 2 ^ 52 := Nat.mul_le_mul_right _ h5
    _ ≤ a := hs

theorem rnd_rel_real {a b : Nat} (hb : 0 < b) (h : b * 2 ^ 52 ≤ a) :
    |(rnd a b : ℝ) - (a : ℝ) / b| ≤ (a : ℝ) / b / 2 ^ 53 := by
  have h1 := rnd_rel hb h
  have hb' : (0 : ℝ) < b := by exact_mod_cast hb
  have h2 : |((rnd a b : ℝ)) * b - a| * 2 ^ 53 ≤ a := by
    have h3 : ((((rnd a b : Int) * b - a).natAbs : Nat) : ℝ) * 2 ^ 53 ≤ (a : ℝ) := by exact_mod_cast h1
    rw [Nat.cast_natAbs] at h3
    push_cast at h3
    exact h3
  have e : (rnd a b : ℝ) - (a : ℝ) / b = ((rnd a b : ℝ) * b - a) / b := by field_simp
  rw [e, abs_div, abs_of_pos hb', div_div, div_le_div_iff₀ hb' (by positivity)]
  calc |(rnd a b : ℝ) * b - a| * ((b : ℝ) * 2 ^ 53) = (|(rnd a b : ℝ) * b - a| * 2 ^ 53) * (b : ℝ) := by ring
    _ ≤ (a : ℝ) * b := mul_le_mul_of_nonneg_right h2 hb'.le


theorem one_real_pos : (0 : ℝ) < (one : ℝ) := by exact_mod_cast F64.one_pos

/-- a double with non-negative sign standing for the real number `r` -/
def RIs (x : F64) (r : ℝ) : Prop := ∃ m : Nat, x = .fin false m ∧ r = (m : ℝ) / one

/-- rounding a number between `2^-1000` and `2^1000` -/
theorem mk_rel {a b : Nat} (hb : 0 < b) (h1 : b * 2 ^ 52 ≤ a) (h2 : a ≤ b * 2 ^ 100 * one) :
    ∃ r, RIs (mk false a b) r ∧ |r - (a : ℝ) / b / one| ≤ (a : ℝ) / b / one / 2 ^ 53 := by
  have hle : rnd a b ≤ 2 ^ 100 * one := rnd_le_of_rep hb (rep_pow_one 100) (by
    calc a ≤ b * 2 ^ 100 * one := h2
      _ = _ := by ring)
  have hlt : rnd a b < limit := Nat.lt_of_le_of_lt hle (pow_one_lt (by omega))
  refine ⟨(rnd a b : ℝ) / one, ⟨rnd a b, ?_, rfl⟩, ?_⟩
  · rw [mk, if_pos hlt]
  · have := rnd_rel_real hb h1
    have ho := one_real_pos
    rw [div_sub_div_same, abs_div, abs_of_pos ho]
    calc _ ≤ (a : ℝ) / b / 2 ^ 53 / one := div_le_div_of_nonneg_right this ho.le
      _ = _ := by ring

theorem RIs.value {x : F64} {r : ℝ} (h : RIs x r) : ∃ q : ℚ, Spec.value x = some q ∧ (q : ℝ) = r := by
  obtain ⟨m, rfl, rfl⟩ := h
  refine ⟨(m : ℚ) / 2 ^ 1074, rfl, ?_⟩
  have := Props.one_rat
  push_cast
  congr 1
  have e : ((F64.one : ℚ) : ℝ) = ((2 ^ 1074 : ℚ) : ℝ) := by rw [← this]
  push_cast at e
  exact e.symm

theorem value_pos {x : F64} {q : ℚ} (h : Spec.value x = some q) (hq : 0 < q) : RIs x q := by
  obtain ⟨m, hm⟩ : ∃ m, x = .fin false m := by
    cases x with
    | nan => simp [Spec.value] at h
    | inf s => simp [Spec.value] at h
    | fin s m =>
      cases s with
      | false => exact ⟨m, rfl⟩
      | true =>
        exfalso
        have e := Option.some.inj h
        rw [if_pos rfl] at e
        rw [← e] at hq
        have : -(m : ℚ) / 2 ^ 1074 ≤ 0 := div_nonpos_of_nonpos_of_nonneg (by simp) (by positivity)
        exact absurd hq (not_lt.2 this)
  subst hm
  refine ⟨m, rfl, ?_⟩
  obtain ⟨q', e1, e2⟩ := RIs.value (x := .fin false m) ⟨m, rfl, rfl⟩
  rw [h] at e1
  rw [Option.some.inj e1, e2]


theorem one_big : (2 : ℝ) ^ 200 ≤ (one : ℝ) := by
  have : 2 ^ 200 ≤ one := by rw [one_eq]; exact Nat.pow_le_pow_right (by omega) (by rw [expOne_eq]; omega)
  exact_mod_cast this

/-- a relative error of `2^-53` in the argument changes the logarithm by at most `2^-52` -/
theorem log_perturb {q y : ℝ} (hy : 0 < y) (h : |q - y| ≤ y / 2 ^ 53) : |Real.log q - Real.log y| ≤ 1 / 2 ^ 52 := by
  have h1 := abs_le.1 h
  have hq : 0 < q := by
    have : y / 2 ^ 53 ≤ y / 2 := by apply div_le_div_of_nonneg_left hy.le <;> norm_num
    linarith [h1.1]
  rw [← Real.log_div hq.ne' hy.ne']
  have hr : 0 < q / y := div_pos hq hy
  have u1 := Real.log_le_sub_one_of_pos hr
  have u2 := Real.one_sub_inv_le_log_of_pos hr
  have b1 : q / y ≤ 1 + 1 / 2 ^ 53 := by
    rw [div_le_iff₀ hy]; linarith [h1.2]
  have b2 : 1 - 1 / 2 ^ 53 ≤ q / y := by
    rw [le_div_iff₀ hy]; linarith [h1.1]
  have b3 : (q / y)⁻¹ ≤ 1 + 1 / 2 ^ 52 := by
    rw [inv_le_comm₀ hr (by positivity)]
    refine le_trans ?_ b2
    rw [inv_le_comm₀ (by positivity) (by norm_num)]
    norm_num
  rw [abs_le]
  constructor
  · linarith
  · have : (1 : ℝ) / 2 ^ 53 ≤ 1 / 2 ^ 52 := by norm_num
    linarith

theorem quot_double {m v : Nat} (hm : m ≤ 2 ^ 18) (hv : 1 ≤ v) (hvm : v ≤ m) :
    ∃ q, RIs (F64.div (F64.ofInt (m : Int)) (F64.ofNat v)) q ∧ |q - (m : ℝ) / v| ≤ (m : ℝ) / v / 2 ^ 53 := by
  rw [ofInt_is (by omega), ofNat_is (by omega), F64.div, if_neg (Nat.mul_ne_zero (by omega) F64.one_pos.ne')]
  have hov : 0 < v * one := Nat.mul_pos (by omega) F64.one_pos
  have h52 : 2 ^ 52 ≤ one := by rw [one_eq]; exact Nat.pow_le_pow_right (by omega) (by rw [expOne_eq]; omega)
  obtain ⟨r, h1, h2⟩ := mk_rel (a := m * one * one) hov
    (Nat.mul_le_mul (Nat.mul_le_mul_right _ hvm) h52)
    (by
      calc m * one * one ≤ (v * 2 ^ 100) * one * one := by
            refine Nat.mul_le_mul_right _ (Nat.mul_le_mul_right _ ?_); omega
        _ = _ := by ring)
  refine ⟨r, h1, ?_⟩
  have ho := one_real_pos
  have hv0 : (0 : ℝ) < v := by exact_mod_cast hv
  have e : ((m * one * one : Nat) : ℝ) / ((v * one : Nat) : ℝ) / one = (m : ℝ) / v := by
    push_cast; field_simp
  rw [e] at h2
  exact h2

/-- the estimate of linear counting, computed with doubles -/
theorem linear_bound {log : F64 → F64} (hl : LogOk log) {p v : Nat} (hp : p ≤ 18) (hv : 1 ≤ v) (hvm : v < 2 ^ p) :
    ∃ x, RIs (F64.mul (F64.ofInt ((2 ^ p : Nat) : Int)) (log (F64.div (F64.ofInt ((2 ^ p : Nat) : Int)) (F64.ofNat v)))) x ∧
      |x - linearEstimate p v| ≤ linearEstimate p v / 2 ^ 33 := by
  have hm18 : 2 ^ p ≤ 2 ^ 18 := Nat.pow_le_pow_right (by omega) hp
  unfold linearEstimate
  have ecast : ((2 ^ p : Nat) : ℝ) = 2 ^ p := by push_cast; rfl
  rw [← ecast]
  generalize hm : 2 ^ p = m at *
  obtain ⟨q, hq1, hq2⟩ := quot_double hm18 hv (by omega)
  have ho := one_real_pos
  have hv0 : (0 : ℝ) < v := by exact_mod_cast hv
  have hm0 : (0 : ℝ) < m := by exact_mod_cast (by omega : 0 < m)
  have hmle : (m : ℝ) ≤ 2 ^ 18 := by exact_mod_cast hm18
  have hv1 : (1 : ℝ) ≤ v := by exact_mod_cast hv
  have hvm' : (v : ℝ) + 1 ≤ m := by exact_mod_cast hvm
  have hy : (0 : ℝ) < (m : ℝ) / v := div_pos hm0 hv0
  have hyle : (m : ℝ) / v ≤ 2 ^ 18 := by
    rw [div_le_iff₀ hv0]; nlinarith
  have hlog := log_perturb hy hq2
  have hell : 1 / (m : ℝ) ≤ Real.log ((m : ℝ) / v) := by
    refine le_trans ?_ (Real.one_sub_inv_le_log_of_pos hy)
    rw [inv_div]
    rw [le_sub_iff_add_le, ← add_div, div_le_one hm0]
    linarith
  have hell2 := Real.log_le_sub_one_of_pos hy
  have h18 : (1 : ℝ) / 2 ^ 18 ≤ 1 / m := one_div_le_one_div_of_le hm0 hmle
  generalize hℓ : Real.log ((m : ℝ) / v) = ell at *
  have hq0 : 0 < q := by
    have h1 := (abs_le.1 hq2).1
    have : (m : ℝ) / v / 2 ^ 53 ≤ (m : ℝ) / v / 2 := by apply div_le_div_of_nonneg_left hy.le <;> norm_num
    linarith
  obtain ⟨q', eq', hqq⟩ := hq1.value
  have hq'0 : 0 < q' := by rw [← hqq] at hq0; exact_mod_cast hq0
  obtain ⟨r, er, hr⟩ := hl _ q' (Props.isDouble_iff.2 wf_div) eq' hq'0
  rw [hqq] at hr
  have hellpos : 0 < ell := lt_of_lt_of_le (by positivity) (le_trans h18 hell)
  have hA : |Real.log q - ell| ≤ ell / 2 ^ 34 := by
    refine le_trans hlog ?_
    have : (1 : ℝ) / 2 ^ 18 ≤ ell := le_trans h18 hell
    rw [div_le_div_iff₀ (by positivity) (by positivity)]
    norm_num at this ⊢
    linarith
  have hB : |Real.log q| ≤ ell * (1 + 1 / 2 ^ 34) := by
    have := abs_sub_abs_le_abs_sub (Real.log q) ell
    rw [abs_of_pos hellpos] at this
    have e : ell * (1 + 1 / 2 ^ 34) = ell + ell / 2 ^ 34 := by ring
    rw [e]; linarith
  have hC : |(r : ℝ) - ell| ≤ ell * (1 / 2 ^ 34 + (1 + 1 / 2 ^ 34) / 2 ^ 50) := by
    have e : (r : ℝ) - ell = (r - Real.log q) + (Real.log q - ell) := by ring
    rw [e]
    refine le_trans (abs_add_le _ _) ?_
    have : |(r : ℝ) - Real.log q| ≤ ell * (1 + 1 / 2 ^ 34) / 2 ^ 50 :=
      le_trans hr (div_le_div_of_nonneg_right hB (by positivity))
    have e2 : ell * (1 / 2 ^ 34 + (1 + 1 / 2 ^ 34) / 2 ^ 50) = ell * (1 + 1 / 2 ^ 34) / 2 ^ 50 + ell / 2 ^ 34 := by ring
    rw [e2]; linarith
  have hC1 := abs_le.1 hC
  have hrlo : ell / 2 ≤ r := by
    have : ell * (1 / 2 ^ 34 + (1 + 1 / 2 ^ 34) / 2 ^ 50) ≤ ell / 2 := by norm_num at *; linarith
    linarith [hC1.1]
  have hrhi : (r : ℝ) ≤ 2 * ell := by
    have : ell * (1 / 2 ^ 34 + (1 + 1 / 2 ^ 34) / 2 ^ 50) ≤ ell := by norm_num at *; linarith
    linarith [hC1.2]
  have hr0 : (0 : ℚ) < r := by
    have : (0 : ℝ) < r := lt_of_lt_of_le (by positivity) hrlo
    exact_mod_cast this
  obtain ⟨R, eR, hR⟩ := value_pos er hr0
  rw [eR, ofInt_is (by omega), F64.mul]
  have hR' : (R : ℝ) = r * one := by rw [hR]; field_simp
  have hobig := one_big
  have hmell : 1 ≤ (m : ℝ) * ell := by
    rw [div_le_iff₀ hm0] at hell; linarith
  have hbig : 2 ^ 52 ≤ m * R := by
    have : (2 : ℝ) ^ 52 ≤ (m : ℝ) * R := by
      rw [hR']
      have h1 : (1 : ℝ) / 2 ≤ m * r := by nlinarith
      calc (2 : ℝ) ^ 52 ≤ 1 / 2 * 2 ^ 200 := by norm_num
        _ ≤ ((m : ℝ) * (r : ℝ)) * (one : ℝ) := mul_le_mul h1 hobig (by positivity) (by linarith)
        _ = _ := by ring
    exact_mod_cast this
  have hsmall : m * R ≤ 2 ^ 100 * one := by
    have : (m : ℝ) * R ≤ 2 ^ 100 * one := by
      rw [hR', ← mul_assoc]
      refine mul_le_mul_of_nonneg_right ?_ ho.le
      have h1 : (r : ℝ) ≤ 2 * 2 ^ 18 := by linarith
      have h2 : (0 : ℝ) ≤ r := by linarith
      calc (m : ℝ) * r ≤ 2 ^ 18 * (2 * 2 ^ 18) := mul_le_mul hmle h1 h2 (by positivity)
        _ ≤ _ := by norm_num
    exact_mod_cast this
  obtain ⟨x, hx1, hx2⟩ := mk_rel (a := m * one * R) F64.one_pos
    (by
      calc one * 2 ^ 52 ≤ one * (m * R) := Nat.mul_le_mul_left _ hbig
        _ = _ := by ring)
    (by
      calc m * one * R = one * (m * R) := by ring
        _ ≤ one * (2 ^ 100 * one) := Nat.mul_le_mul_left _ hsmall
        _ = _ := by ring)
  refine ⟨x, hx1, ?_⟩
  have e : ((m * one * R : Nat) : ℝ) / (one : ℝ) / one = m * r := by
    rw [hR]; push_cast; field_simp
  rw [e] at hx2
  have e2 : x - (m : ℝ) * ell = (x - m * r) + m * (r - ell) := by ring
  rw [e2]
  refine le_trans (abs_add_le _ _) ?_
  rw [abs_mul, abs_of_pos hm0]
  have h3 : (m : ℝ) * |(r : ℝ) - ell| ≤ m * (ell * (1 / 2 ^ 34 + (1 + 1 / 2 ^ 34) / 2 ^ 50)) := mul_le_mul_of_nonneg_left hC hm0.le
  have h4 : (m : ℝ) * r / 2 ^ 53 ≤ m * (2 * ell) / 2 ^ 53 :=
    div_le_div_of_nonneg_right (mul_le_mul_of_nonneg_left hrhi hm0.le) (by positivity)
  generalize (m : ℝ) * ell = L at *
  have e5 : (m : ℝ) * (2 * ell) / 2 ^ 53 = m * ell * (2 / 2 ^ 53) := by ring
  have e6 : (m : ℝ) * (ell * (1 / 2 ^ 34 + (1 + 1 / 2 ^ 34) / 2 ^ 50)) = m * ell * (1 / 2 ^ 34 + (1 + 1 / 2 ^ 34) / 2 ^ 50) := by ring
  rw [e5] at h4; rw [e6] at h3
  norm_num at *
  linarith


theorem threshold_eq (p : Byte) (h4 : 4 ≤ p.toNat) (h18 : p.toNat ≤ 18) :
    threshold p = F64.ofNat (linearThreshold p.toNat) ∧ 10 ≤ linearThreshold p.toNat ∧ linearThreshold p.toNat ≤ 350000 := by
  unfold threshold
  generalize p.toNat = k at *
  obtain ⟨j, rfl⟩ : ∃ j, k = j + 4 := ⟨k - 4, by omega⟩
  have : j < 15 := by omega
  clear h4 h18
  interval_cases j <;> refine ⟨rfl, ?_, ?_⟩ <;> decide

/-- `math.Ceil` of a non-negative number -/
theorem ceil_is {x : F64} {r : ℝ} (h : RIs x r) : F64.ceil x = .fin false (⌈r⌉₊ * one) := by
  obtain ⟨m, rfl, rfl⟩ := h
  have ho := F64.one_pos
  have ho' := one_real_pos
  rw [F64.ceil]
  by_cases hd : m % one = 0
  · rw [if_pos hd]
    have e : m = m / one * one := by have := Nat.div_add_mod m one; rw [hd, Nat.add_zero, Nat.mul_comm] at this; omega
    have e2 : (m : ℝ) / one = ((m / one : Nat) : ℝ) := by
      rw [div_eq_iff ho'.ne']; exact_mod_cast e
    rw [e2, Nat.ceil_natCast, ← e]
  · rw [if_neg hd]
    simp only [Bool.false_eq_true, if_false]
    congr 2
    symm
    rw [Nat.ceil_eq_iff (Nat.succ_ne_zero _)]
    have h1 := Nat.div_add_mod m one
    have h2 := Nat.mod_lt m ho
    constructor
    · rw [lt_div_iff₀ ho']
      have : (m / one) * one < m := by rw [Nat.mul_comm]; omega
      rw [Nat.succ_sub_one]
      exact_mod_cast this
    · rw [div_le_iff₀ ho']
      have : m ≤ (m / one + 1) * one := by rw [Nat.add_mul, Nat.mul_comm (m / one)]; omega
      exact_mod_cast this

theorem toInt64_is (k : Nat) (h : k < 2 ^ 63) (s : Bool) (hs : k = 0 ∨ s = false) : F64.toInt64 (.fin s (k * one)) = k := by
  have e : signed s (k * one / one) = (k : Int) := by
    rw [Nat.mul_div_cancel _ F64.one_pos]
    rcases hs with rfl | rfl
    · cases s <;> rfl
    · rfl
  rw [F64.toInt64, e, if_neg (by omega)]

/-- `Count` when linear counting applies -/
theorem count_linear {log : F64 → F64} (hl : LogOk log) {c : Counter} (h : WF c) {v : Nat}
    (hv : Bitbucket.countN c.bits 0#8 = .val v) (hv1 : 1 ≤ v) (hvm : v ≤ 2 ^ c.p.toNat)
    (hT : linearEstimate c.p.toNat v * (1 + 1 / 2 ^ 33) ≤ linearThreshold c.p.toNat) :
    ∃ n : Int, count log c = .val n ∧ linearEstimate c.p.toNat v * (1 - 1 / 2 ^ 33) ≤ n ∧
      n < linearEstimate c.p.toNat v * (1 + 1 / 2 ^ 33) + 1 := by
  obtain ⟨t1, t2, t3⟩ := threshold_eq c.p h.p4 h.p18
  have hp := h.p18
  unfold count
  rw [hv, Out.bind_val, t1]
  unfold linear
  rw [mInt_eq c.p h.p18]
  generalize c.p.toNat = p at *
  generalize linearThreshold p = T at *
  by_cases hvm' : v < 2 ^ p
  · obtain ⟨x, hx1, hx2⟩ := linear_bound hl hp hv1 hvm'
    have hx0 : 0 ≤ x := by
      obtain ⟨m, _, rfl⟩ := hx1
      positivity
    rw [ceil_is hx1]
    have hab := abs_le.1 hx2
    have hxT : ⌈x⌉₊ ≤ T := by
      rw [Nat.ceil_le]
      refine le_trans ?_ hT
      have e : linearEstimate p v * (1 + 1 / 2 ^ 33) = linearEstimate p v + linearEstimate p v / 2 ^ 33 := by ring
      rw [e]; linarith [hab.2]
    have hle : F64.le (.fin false (⌈x⌉₊ * one)) (F64.ofNat T) = true := by
      rw [ofNat_is (by omega)]
      refine (Is.le_iff (z := ((⌈x⌉₊ * one : Nat) : Int)) (w := ((T * one : Nat) : Int)) ⟨_, _, rfl, rfl⟩ ⟨_, _, rfl, rfl⟩).2 ?_
      exact_mod_cast Nat.mul_le_mul_right _ hxT
    rw [if_pos ⟨hv1, hle⟩, toInt64_is _ (by omega) _ (.inr rfl)]
    refine ⟨_, rfl, ?_, ?_⟩
    · have := Nat.le_ceil x
      rw [Int.cast_natCast]
      have e : linearEstimate p v * (1 - 1 / 2 ^ 33) = linearEstimate p v - linearEstimate p v / 2 ^ 33 := by ring
      rw [e]; linarith [hab.1]
    · have := Nat.ceil_lt_add_one hx0
      rw [Int.cast_natCast]
      have e : linearEstimate p v * (1 + 1 / 2 ^ 33) = linearEstimate p v + linearEstimate p v / 2 ^ 33 := by ring
      rw [e]; linarith [hab.2]
  · have hveq : v = 2 ^ p := by omega
    have hmpos : 0 < 2 ^ p := Nat.two_pow_pos p
    have h18 : 2 ^ p ≤ 2 ^ 18 := Nat.pow_le_pow_right (by omega) hp
    have e0 : linearEstimate p v = 0 := by
      unfold linearEstimate
      rw [hveq]
      push_cast
      rw [div_self (by positivity), Real.log_one, mul_zero]
    rw [e0]
    have hdiv : F64.div (F64.ofInt ((2 ^ p : Nat) : Int)) (F64.ofNat v) = .fin false one := by
      have := quot_is hp (Nat.le_refl (2 ^ p))
      rw [hveq, ofNat_is (by omega)]
      rw [ofInt_is (by omega)] at this ⊢
      rw [this, pow_split hp]
    have hval : Spec.value (.fin false one) = some 1 := by
      have := (Props.value_int (x := .fin false one) (k := 1)).1 ⟨false, one, rfl, by simp [signed]⟩
      rw [this]; norm_cast
    have hwf : Wf (.fin false one) := by rw [← hdiv]; exact wf_div
    obtain ⟨r, er, hr⟩ := hl _ 1 (Props.isDouble_iff.2 hwf) hval (by norm_num)
    rw [Rat.cast_one, Real.log_one] at hr
    have hr0 : r = 0 := by
      simp only [sub_zero, abs_zero, zero_div] at hr
      have := abs_nonpos_iff.1 hr
      exact_mod_cast this
    obtain ⟨s, hs⟩ : ∃ s, log (.fin false one) = .fin s 0 := by
      rw [hr0] at er
      obtain ⟨s, m, e, hz⟩ := (Props.value_iff (z := 0)).2 (by rw [er]; norm_num)
      refine ⟨s, ?_⟩
      have := signed_natAbs s m
      rw [hz] at this
      rw [e, ← this]; rfl
    have hmul : F64.ceil (F64.mul (F64.ofInt ((2 ^ p : Nat) : Int)) (log (F64.div (F64.ofInt ((2 ^ p : Nat) : Int)) (F64.ofNat v))))
        = .fin s 0 := by
      rw [hdiv, hs, ofInt_is (by omega), F64.mul, Nat.mul_zero, mk, rnd_zero _ F64.one_pos, if_pos limit_pos, F64.ceil,
        if_pos (Nat.zero_mod _)]
      cases s <;> rfl
    rw [hmul]
    have hle : F64.le (.fin s 0) (F64.ofNat T) = true := by
      rw [ofNat_is (by omega)]
      refine (Is.le_iff (z := 0) (w := ((T * one : Nat) : Int)) ⟨_, _, rfl, by cases s <;> rfl⟩ ⟨_, _, rfl, rfl⟩).2 ?_
      exact Int.natCast_nonneg _
    rw [if_pos ⟨hv1, hle⟩]
    have := toInt64_is 0 (by omega) s (.inl rfl)
    rw [Nat.zero_mul] at this
    rw [this]
    exact ⟨_, rfl, by norm_num, by norm_num⟩


/-- `Count` when linear counting does not apply -/
theorem count_beyond {log : F64 → F64} (hl : LogOk log) {c : Counter} (h : WF c) {v : Nat}
    (hv : Bitbucket.countN c.bits 0#8 = .val v) (hv1 : 1 ≤ v) (hvm : v < 2 ^ c.p.toNat)
    (hT : linearThreshold c.p.toNat < linearEstimate c.p.toNat v * (1 - 1 / 2 ^ 33)) :
    count log c = countLarge c := by
  obtain ⟨t1, t2, t3⟩ := threshold_eq c.p h.p4 h.p18
  have hp := h.p18
  unfold count
  rw [hv, Out.bind_val, t1]
  unfold linear
  rw [mInt_eq c.p h.p18]
  generalize c.p.toNat = p at *
  generalize linearThreshold p = T at *
  obtain ⟨x, hx1, hx2⟩ := linear_bound hl hp hv1 hvm
  rw [ceil_is hx1]
  have hab := abs_le.1 hx2
  have hxT : T < ⌈x⌉₊ := by
    rw [Nat.lt_ceil]
    refine lt_of_lt_of_le hT ?_
    have e : linearEstimate p v * (1 - 1 / 2 ^ 33) = linearEstimate p v - linearEstimate p v / 2 ^ 33 := by ring
    rw [e]; linarith [hab.1]
  have hle : ¬ F64.le (.fin false (⌈x⌉₊ * one)) (F64.ofNat T) = true := by
    rw [ofNat_is (by omega)]
    rw [Is.le_iff (z := ((⌈x⌉₊ * one : Nat) : Int)) (w := ((T * one : Nat) : Int)) ⟨_, _, rfl, rfl⟩ ⟨_, _, rfl, rfl⟩]
    have := Nat.mul_lt_mul_of_pos_right hxT F64.one_pos
    omega
  rw [if_neg (fun hc => hle hc.2)]

end Starbow.Hll
