import Verif.Proof.BloomBits
import Verif.Proof.HllLin
import Verif.Props.HllEst
import Mathlib.Analysis.SpecialFunctions.Log.Deriv
/-
Rounding analysis of the size and estimate formulas of the bloom filter.
-/
namespace Starbow.Bloom
open Starbow F64 Spec Hll
open Starbow.Props (away_from_one)

/-! ### relative errors -/

theorem RIs.nonneg {x : F64} {r : ℝ} (h : RIs x r) : 0 ≤ r := by
  obtain ⟨m, _, rfl⟩ := h; positivity

theorem RIs.uniq {x : F64} {r s : ℝ} (h : RIs x r) (h' : RIs x s) : r = s := by
  obtain ⟨m, e, rfl⟩ := h
  obtain ⟨m', e', rfl⟩ := h'
  rw [e] at e'
  simp only [F64.fin.injEq, true_and] at e'
  rw [e']

theorem ris_nat {n : Nat} (h : n ≤ 2 ^ 53) : RIs (F64.ofNat n) n := by
  refine ⟨n * one, ofNat_is h, ?_⟩
  have := one_real_pos
  push_cast; field_simp

theorem ris_int {n : Nat} (h : n ≤ 2 ^ 53) : RIs (F64.ofInt (n : Int)) n := by
  refine ⟨n * one, ofInt_is h, ?_⟩
  have := one_real_pos
  push_cast; field_simp

/-- product -/
theorem RIs.mul {x y : F64} {r s : ℝ} (hx : RIs x r) (hy : RIs y s) (lo : 1 / 2 ^ 100 ≤ r * s) (hi : r * s ≤ 2 ^ 100) :
    ∃ t, RIs (F64.mul x y) t ∧ |t - r * s| ≤ r * s / 2 ^ 53 := by
  obtain ⟨a, rfl, ha⟩ := hx
  obtain ⟨b, rfl, hb⟩ := hy
  have ho := one_real_pos
  have hobig := one_big
  have e : ((a * b : Nat) : ℝ) / (one : ℝ) / one = r * s := by
    rw [ha, hb]; push_cast; field_simp
  have hm : F64.mul (.fin false a) (.fin false b) = F64.mk false (a * b) one := rfl
  have hcast : ((a * b : Nat) : ℝ) = r * s * (one : ℝ) * (one : ℝ) := by rw [← e]; field_simp
  obtain ⟨t, h1, h2⟩ := mk_rel (a := a * b) (b := one) F64.one_pos
    (by
      have : (one : ℝ) * 2 ^ 52 ≤ ((a * b : Nat) : ℝ) := by
        rw [hcast]
        have : (2 : ℝ) ^ 52 ≤ r * s * one := by
          calc (2 : ℝ) ^ 52 ≤ 1 / 2 ^ 100 * 2 ^ 200 := by norm_num
            _ ≤ r * s * one := mul_le_mul lo hobig (by positivity) (le_trans (by positivity) lo)
        calc (one : ℝ) * 2 ^ 52 ≤ one * (r * s * one) := mul_le_mul_of_nonneg_left this ho.le
          _ = _ := by ring
      exact_mod_cast this)
    (by
      have : ((a * b : Nat) : ℝ) ≤ (one : ℝ) * 2 ^ 100 * one := by
        rw [hcast]
        calc r * s * one * one ≤ 2 ^ 100 * one * one := by
              apply mul_le_mul_of_nonneg_right _ ho.le
              exact mul_le_mul_of_nonneg_right hi ho.le
          _ = _ := by ring
      exact_mod_cast this)
  rw [e] at h2
  exact ⟨t, by rw [hm]; exact h1, h2⟩

/-- quotient -/
theorem RIs.div {x y : F64} {r s : ℝ} (hx : RIs x r) (hy : RIs y s) (hs : 0 < s) (lo : 1 / 2 ^ 100 ≤ r / s) (hi : r / s ≤ 2 ^ 100) :
    ∃ t, RIs (F64.div x y) t ∧ |t - r / s| ≤ r / s / 2 ^ 53 := by
  obtain ⟨a, rfl, ha⟩ := hx
  obtain ⟨b, rfl, hb⟩ := hy
  have ho := one_real_pos
  have hobig := one_big
  have hb0 : 0 < b := by
    rcases Nat.eq_zero_or_pos b with h | h
    · rw [h] at hb; simp at hb; linarith
    · exact h
  have hb0' : (0 : ℝ) < b := by exact_mod_cast hb0
  have e : ((a * one : Nat) : ℝ) / (b : ℝ) / one = r / s := by
    rw [ha, hb]; push_cast; field_simp
  have hm : F64.div (.fin false a) (.fin false b) = F64.mk false (a * one) b := by
    rw [F64.div, if_neg hb0.ne']; rfl
  have hcast : ((a * one : Nat) : ℝ) = r / s * (b : ℝ) * (one : ℝ) := by rw [← e]; field_simp
  obtain ⟨t, h1, h2⟩ := mk_rel (a := a * one) (b := b) hb0
    (by
      have : (b : ℝ) * 2 ^ 52 ≤ ((a * one : Nat) : ℝ) := by
        rw [hcast]
        have : (2 : ℝ) ^ 52 ≤ r / s * one := by
          calc (2 : ℝ) ^ 52 ≤ 1 / 2 ^ 100 * 2 ^ 200 := by norm_num
            _ ≤ r / s * one := mul_le_mul lo hobig (by positivity) (le_trans (by positivity) lo)
        calc (b : ℝ) * 2 ^ 52 ≤ b * (r / s * one) := mul_le_mul_of_nonneg_left this hb0'.le
          _ = _ := by ring
      exact_mod_cast this)
    (by
      have : ((a * one : Nat) : ℝ) ≤ (b : ℝ) * 2 ^ 100 * one := by
        rw [hcast]
        calc r / s * b * one ≤ 2 ^ 100 * b * one := by
              apply mul_le_mul_of_nonneg_right _ ho.le
              exact mul_le_mul_of_nonneg_right hi hb0'.le
          _ = _ := by ring
      exact_mod_cast this)
  rw [e] at h2
  exact ⟨t, by rw [hm]; exact h1, h2⟩

/-- `1 - x` for `x` below 1 -/
theorem RIs.one_sub {x : F64} {r : ℝ} (hx : RIs x r) (hr : r ≤ 1 - 1 / 2 ^ 100) :
    ∃ t, RIs (F64.sub (F64.ofNat 1) x) t ∧ |t - (1 - r)| ≤ (1 - r) / 2 ^ 53 := by
  obtain ⟨a, rfl, ha⟩ := hx
  have ho := one_real_pos
  have hobig := one_big
  have hle : a < one := by
    have : (a : ℝ) < one := by
      have h1 : (a : ℝ) = r * one := by rw [ha]; field_simp
      rw [h1]
      have : r < 1 := lt_of_le_of_lt hr (by norm_num)
      nlinarith
    exact_mod_cast this
  have e0 : F64.sub (F64.ofNat 1) (.fin false a) = F64.mk false (one - a) 1 := by
    have e : signed false one + signed true a = ((one - a : Nat) : Int) := by
      simp only [signed, Bool.false_eq_true, if_false, if_true]; omega
    rw [ofNat_is (by omega), Nat.one_mul, F64.sub, F64.neg, Bool.not_false, F64.add, e, if_neg (by omega), Int.natAbs_natCast,
      decide_eq_false (by omega)]
  have e : ((one - a : Nat) : ℝ) / ((1 : Nat) : ℝ) / one = 1 - r := by
    rw [Nat.cast_sub hle.le, ha, Nat.cast_one]; field_simp
  have hcast : ((one - a : Nat) : ℝ) = (1 - r) * (one : ℝ) := by rw [← e]; push_cast; field_simp
  obtain ⟨t, h1, h2⟩ := mk_rel (a := one - a) (b := 1) (by omega)
    (by
      have : (2 : ℝ) ^ 52 ≤ ((one - a : Nat) : ℝ) := by
        rw [hcast]
        calc (2 : ℝ) ^ 52 ≤ 1 / 2 ^ 100 * 2 ^ 200 := by norm_num
          _ ≤ (1 - r) * one := mul_le_mul (by linarith) hobig (by positivity) (by linarith [show (0:ℝ) ≤ 1 / 2 ^ 100 by positivity])
      have : 2 ^ 52 ≤ one - a := by exact_mod_cast this
      omega)
    (by
      have : 1 ≤ 2 ^ 100 := Nat.one_le_two_pow
      calc one - a ≤ one := Nat.sub_le _ _
        _ = 1 * 1 * one := by ring
        _ ≤ _ := Nat.mul_le_mul_right _ (Nat.mul_le_mul_left _ this))
  rw [e] at h2
  exact ⟨t, by rw [e0]; exact h1, h2⟩

/-- a negative double -/
theorem value_neg {x : F64} {q : ℚ} (h : Spec.value x = some q) (hq : q < 0) : RIs (F64.neg x) (-(q : ℝ)) := by
  cases x with
  | nan => simp [Spec.value] at h
  | inf s => simp [Spec.value] at h
  | fin s m =>
    have : Spec.value (F64.neg (.fin s m)) = some (-q) := by
      simp only [Spec.value, F64.neg, Option.some.injEq] at h ⊢
      rw [← h]
      cases s <;> simp [neg_div]
    have := value_pos this (by linarith)
    rwa [Rat.cast_neg] at this

theorem ceil_int {x : F64} {r : ℝ} (h : RIs x r) (hr : r ≤ 2 ^ 62) : F64.toInt64 (F64.ceil x) = (⌈r⌉₊ : Int) := by
  rw [ceil_is h]
  apply toInt64_is _ _ _ (.inr rfl)
  have : ⌈r⌉₊ ≤ 2 ^ 62 := by
    rw [Nat.ceil_le, Nat.cast_pow, Nat.cast_ofNat]; exact hr
  omega


/-! ### Count -/

/-- three successive relative errors -/
theorem chain3 {U L P e : ℝ} (hU : 0 ≤ U) (h1 : |L - U| ≤ U / 2 ^ 50) (h2 : |P - L| ≤ L / 2 ^ 53) (h3 : |e - P| ≤ P / 2 ^ 53) :
    |e - U| ≤ U / 2 ^ 49 := by
  rw [abs_le] at *
  obtain ⟨a1, a2⟩ := h1
  obtain ⟨b1, b2⟩ := h2
  obtain ⟨c1, c2⟩ := h3
  norm_num at *
  constructor <;> linarith

/-- an absolute error in the argument of a logarithm -/
theorem log_abs_perturb {y z d : ℝ} (hz : 0 < z) (h : |y - z| ≤ d) (hd : 2 * d ≤ z) : |Real.log y - Real.log z| ≤ 2 * d / z := by
  rw [abs_le] at h
  have hd0 : 0 ≤ d := by linarith [h.1, h.2]
  have hy : z / 2 ≤ y := by linarith [h.1]
  have hy0 : 0 < y := by linarith
  rw [← Real.log_div hy0.ne' hz.ne']
  have hr : 0 < y / z := div_pos hy0 hz
  have u1 := Real.log_le_sub_one_of_pos hr
  have u2 := Real.one_sub_inv_le_log_of_pos hr
  rw [inv_div] at u2
  have b1 : y / z - 1 ≤ 2 * d / z := by
    rw [div_sub_one hz.ne', div_le_div_iff_of_pos_right hz]; linarith [h.2]
  have b2 : z / y - 1 ≤ 2 * d / z := by
    rw [div_sub_one hy0.ne', div_le_div_iff₀ hy0 hz]
    have : z - y ≤ d := by linarith [h.1]
    nlinarith
  rw [abs_le]
  constructor <;> linarith

set_option maxHeartbeats 1000000 in
/-- the estimate of `Count`, computed with doubles, for a filter with some but not all bits set -/
theorem items_bound {log : F64 → F64} (hl : LogOk log) {m k x : Nat} (hm : m ≤ 2 ^ 36) (hx1 : 1 ≤ x) (hxm : x < m) (hk : 1 ≤ k)
    (hk8 : k ≤ 255) :
    ∃ e, RIs (F64.div (F64.mul (F64.neg (log (F64.sub (F64.ofNat 1) (F64.div (F64.ofInt (x : Int)) (F64.ofInt (m : Int))))))
        (F64.ofInt (m : Int))) (F64.ofNat k)) e ∧
      |e - itemsFor m k x| ≤ (m : ℝ) ^ 2 / (k * ((m : ℝ) - x)) / 2 ^ 50 + itemsFor m k x / 2 ^ 48 ∧ e ≤ 2 ^ 62 := by
  have hM0 : (0 : ℝ) < m := by exact_mod_cast (by omega : 0 < m)
  have hM : (m : ℝ) ≤ 2 ^ 36 := by exact_mod_cast hm
  have hX1 : (1 : ℝ) ≤ x := by exact_mod_cast hx1
  have hXM : (x : ℝ) + 1 ≤ m := by exact_mod_cast hxm
  have hK1 : (1 : ℝ) ≤ k := by exact_mod_cast hk
  have hK8 : (k : ℝ) ≤ 255 := by exact_mod_cast hk8
  have rm : RIs (F64.ofInt (m : Int)) m := ris_int (by omega)
  have rx : RIs (F64.ofInt (x : Int)) x := ris_int (by omega)
  have rk : RIs (F64.ofNat k) k := ris_nat (by omega)
  unfold itemsFor
  generalize (m : ℝ) = M at *
  generalize (x : ℝ) = X at *
  generalize (k : ℝ) = K at *
  have hinv : 1 / 2 ^ 36 ≤ 1 / M := one_div_le_one_div_of_le hM0 hM
  have hz1 : X / M ≤ 1 - 1 / M := by
    rw [div_le_iff₀ hM0, sub_mul, one_div_mul_cancel hM0.ne']; linarith
  have hz2 : 1 / M ≤ X / M := div_le_div_of_nonneg_right hX1 hM0.le
  obtain ⟨t, rt, ht⟩ := RIs.div rx rm hM0
    (by refine le_trans ?_ hz2; refine le_trans ?_ hinv; norm_num)
    (by refine le_trans hz1 ?_; have : 0 ≤ 1 / M := by positivity
        norm_num at *; linarith)
  have hzdef : (M - X) / M = 1 - X / M := by rw [sub_div, div_self hM0.ne']
  have ht0 := RIs.nonneg rt
  have ht' := abs_le.1 ht
  have hxm53 : X / M / 2 ^ 53 ≤ 1 / 2 ^ 53 := by
    apply div_le_div_of_nonneg_right _ (by positivity)
    have : 0 ≤ 1 / M := by positivity
    linarith
  obtain ⟨y, ry, hy⟩ := RIs.one_sub rt (by norm_num at *; linarith)
  have hy' := abs_le.1 hy
  have hyz : |y - (M - X) / M| ≤ 1 / 2 ^ 52 := by
    rw [hzdef, abs_le]
    have : (1 - t) / 2 ^ 53 ≤ 1 / 2 ^ 53 := by
      apply div_le_div_of_nonneg_right _ (by positivity); linarith
    norm_num at *
    constructor <;> linarith
  have hz0 : 0 < (M - X) / M := by apply div_pos <;> linarith
  have hzlo : 1 / M ≤ (M - X) / M := div_le_div_of_nonneg_right (by linarith) hM0.le
  have hyz' := abs_le.1 hyz
  have hlz := log_abs_perturb hz0 hyz (by norm_num at *; linarith)
  have hy0 : 0 < y := by norm_num at *; linarith
  have hy1 : y ≤ 1 - 1 / M + 1 / 2 ^ 52 := by rw [hzdef] at hyz'; linarith
  obtain ⟨q, eq, hq⟩ := ry.value
  have hq0 : 0 < q := by rw [← hq] at hy0; exact_mod_cast hy0
  obtain ⟨r, er, hr⟩ := hl _ q (Props.isDouble_iff.2 wf_sub) eq hq0
  rw [hq] at hr
  have ha1 : 1 / M / 2 ≤ -Real.log y := by
    have := Real.log_le_sub_one_of_pos hy0
    norm_num at *
    linarith
  have ha2 : -Real.log y ≤ 40 := by
    have h2 : y⁻¹ ≤ 2 ^ 40 := by
      rw [inv_le_comm₀ hy0 (by positivity)]
      norm_num at *
      linarith
    rw [← Real.log_inv]
    refine le_trans (Real.log_le_log (inv_pos.2 hy0) h2) ?_
    rw [Real.log_pow]
    have := Real.log_le_sub_one_of_pos (x := 2) (by norm_num)
    norm_num at *
    linarith
  have habs : |Real.log y| = -Real.log y := abs_of_nonpos (by have : 0 ≤ 1 / M / 2 := by positivity
                                                              linarith)
  rw [habs] at hr
  have hr' := abs_le.1 hr
  generalize hA : -Real.log y = a at *
  have hly : Real.log y = -a := by rw [← hA]; ring
  rw [hly] at hr hr' hlz
  have ha0 : 0 < a := lt_of_lt_of_le (by positivity) ha1
  have hr0 : (r : ℝ) < 0 := by
    have : a / 2 ^ 50 ≤ a / 2 := by apply div_le_div_of_nonneg_left ha0.le <;> norm_num
    linarith [hr'.2]
  have rl := value_neg er (by exact_mod_cast hr0)
  have hell : |-(r : ℝ) - a| ≤ a / 2 ^ 50 := by
    rw [abs_le]; constructor <;> linarith [hr'.1, hr'.2]
  generalize -(r : ℝ) = ell at *
  have hell' := abs_le.1 hell
  have hl1 : a / 2 ≤ ell := by norm_num at *; linarith
  have hl2 : ell ≤ 2 * a := by norm_num at *; linarith
  have hlM1 : 1 / 4 ≤ ell * M := by
    have : 1 / 4 = 1 / M / 2 / 2 * M := by field_simp; norm_num
    rw [this]; apply mul_le_mul_of_nonneg_right _ hM0.le; linarith
  have hlM2 : ell * M ≤ 2 ^ 77 := by
    calc ell * M ≤ (2 * 40) * 2 ^ 36 := mul_le_mul (by linarith) hM hM0.le (by positivity)
      _ ≤ _ := by norm_num
  obtain ⟨p, rp, hp⟩ := RIs.mul rl rm (by refine le_trans ?_ hlM1; norm_num) (by refine le_trans hlM2 ?_; norm_num)
  have hp' := abs_le.1 hp
  have hK0 : 0 < K := by linarith
  have hp1 : 1 / 8 ≤ p := by norm_num at *; linarith
  have hp2 : p ≤ 2 ^ 78 := by norm_num at *; linarith
  have hpk1 : 1 / 8 / 255 ≤ p / K := div_le_div₀ (by linarith) hp1 hK0 hK8
  have hpk2 : p / K ≤ 2 ^ 78 := by
    rw [div_le_iff₀ hK0]; nlinarith
  obtain ⟨e, re, he⟩ := RIs.div rp rk hK0 (by refine le_trans ?_ hpk1; norm_num) (by refine le_trans hpk2 ?_; norm_num)
  have hMK : 0 < M / K := div_pos hM0 hK0
  have hch := chain3 (U := a * (M / K)) (L := ell * (M / K)) (P := p / K) (e := e) (by positivity)
    (by rw [← sub_mul, abs_mul, abs_of_pos hMK]
        calc _ ≤ a / 2 ^ 50 * (M / K) := mul_le_mul_of_nonneg_right hell hMK.le
          _ = _ := by ring)
    (by
      have e1 : p / K - ell * (M / K) = (p - ell * M) / K := by ring
      rw [e1, abs_div, abs_of_pos hK0]
      calc _ ≤ ell * M / 2 ^ 53 / K := div_le_div_of_nonneg_right hp hK0.le
        _ = _ := by ring)
    he
  have hb : -Real.log ((M - X) / M) = Real.log (M / (M - X)) := by
    rw [← Real.log_inv, inv_div]
  have hlz' : |a - Real.log (M / (M - X))| ≤ 2 * (1 / 2 ^ 52) / ((M - X) / M) := by
    rw [← hb]
    have : a - -Real.log ((M - X) / M) = -(-a - Real.log ((M - X) / M)) := by ring
    rw [this, abs_neg]; exact hlz
  generalize Real.log (M / (M - X)) = b at *
  have hMX : 0 < M - X := by linarith
  have hG : 2 * (1 / 2 ^ 52) / ((M - X) / M) * (M / K) = M ^ 2 / (K * (M - X)) / 2 ^ 51 := by
    field_simp
  have hfin : |a * (M / K) - M / K * b| ≤ M ^ 2 / (K * (M - X)) / 2 ^ 51 := by
    have : a * (M / K) - M / K * b = (a - b) * (M / K) := by ring
    rw [this, abs_mul, abs_of_pos hMK, ← hG]
    exact mul_le_mul_of_nonneg_right hlz' hMK.le
  have hgpos : 0 ≤ M ^ 2 / (K * (M - X)) := by positivity
  have hUub : a * (M / K) ≤ 40 * 2 ^ 36 := by
    have : M / K ≤ 2 ^ 36 := le_trans (div_le_self hM0.le hK1) hM
    exact mul_le_mul ha2 this hMK.le (by positivity)
  refine ⟨e, re, ?_, ?_⟩
  · generalize M ^ 2 / (K * (M - X)) = g at *
    generalize a * (M / K) = U at *
    generalize M / K * b = E at *
    rw [abs_le] at hch hfin ⊢
    obtain ⟨c1, c2⟩ := hch
    obtain ⟨f1, f2⟩ := hfin
    clear * - c1 c2 f1 f2 hgpos
    norm_num at *
    constructor <;> linarith
  · generalize a * (M / K) = U at *
    have := (abs_le.1 hch).2
    clear * - this hUub
    norm_num at *
    linarith


/-! ### choosing a size -/

theorem dec_rel {n d : Nat} (hd : 0 < d) (lo : (1 : ℝ) / 2 ^ 100 ≤ (n : ℝ) / d) (hi : (n : ℝ) / d ≤ 2 ^ 100) :
    ∃ r, RIs (F64.dec n d) r ∧ |r - (n : ℝ) / d| ≤ (n : ℝ) / d / 2 ^ 53 := by
  have ho := one_real_pos
  have hobig := one_big
  have hd' : (0 : ℝ) < d := by exact_mod_cast hd
  have e : ((n * one : Nat) : ℝ) / (d : ℝ) / one = (n : ℝ) / d := by push_cast; field_simp
  have hcast : ((n * one : Nat) : ℝ) = (n : ℝ) / d * (d : ℝ) * (one : ℝ) := by rw [← e]; field_simp
  obtain ⟨t, h1, h2⟩ := mk_rel (a := n * one) (b := d) hd
    (by
      have : (d : ℝ) * 2 ^ 52 ≤ ((n * one : Nat) : ℝ) := by
        rw [hcast]
        have : (2 : ℝ) ^ 52 ≤ (n : ℝ) / d * one := by
          calc (2 : ℝ) ^ 52 ≤ 1 / 2 ^ 100 * 2 ^ 200 := by norm_num
            _ ≤ (n : ℝ) / d * one := mul_le_mul lo hobig (by positivity) (le_trans (by positivity) lo)
        calc (d : ℝ) * 2 ^ 52 ≤ d * ((n : ℝ) / d * one) := mul_le_mul_of_nonneg_left this hd'.le
          _ = _ := by ring
      exact_mod_cast this)
    (by
      have : ((n * one : Nat) : ℝ) ≤ (d : ℝ) * 2 ^ 100 * one := by
        rw [hcast]
        calc (n : ℝ) / d * d * one ≤ 2 ^ 100 * d * one := by
              apply mul_le_mul_of_nonneg_right _ ho.le
              exact mul_le_mul_of_nonneg_right hi hd'.le
          _ = _ := by ring
      exact_mod_cast this)
  rw [e] at h2
  exact ⟨t, h1, h2⟩

theorem ofInt_dec (m : Nat) : F64.ofInt (m : Int) = F64.dec m 1 := by
  rw [F64.ofInt, F64.dec, Int.natAbs_natCast, decide_eq_false (by omega)]

/-- the constant `math.Ln2` -/
theorem ln2Num_near : |(ln2Num : ℝ) / 10 ^ 63 - Real.log 2| ≤ 1 / 2 ^ 60 := by
  have h := Real.abs_log_sub_add_sum_range_le (x := 1 / 2) (by rw [abs_of_pos (by norm_num)]; norm_num) 63
  have e : (1 : ℝ) - 1 / 2 = 2⁻¹ := by norm_num
  rw [e, Real.log_inv, abs_of_pos (show (0 : ℝ) < 1 / 2 by norm_num)] at h
  simp only [Finset.sum_range_succ, Finset.sum_range_zero] at h
  norm_num [ln2Num] at h ⊢
  rw [abs_le] at *
  constructor <;> linarith [h.1, h.2]


theorem ln2_bounds : (69 : ℝ) / 100 ≤ Real.log 2 ∧ Real.log 2 ≤ 70 / 100 := by
  have h := abs_le.1 ln2Num_near
  norm_num [ln2Num] at h
  norm_num
  constructor <;> linarith [h.1, h.2]

theorem ln2_is : ∃ c, RIs ln2 c ∧ |c - Real.log 2| ≤ Real.log 2 / 2 ^ 52 := by
  have h := ln2Num_near
  have hb := ln2_bounds
  have hc : ((10 ^ 63 : Nat) : ℝ) = 10 ^ 63 := by norm_num
  rw [← hc] at h
  have h' := abs_le.1 h
  obtain ⟨c, h1, h2⟩ := dec_rel (n := ln2Num) (d := 10 ^ 63) (by norm_num)
    (by refine le_trans (b := 1 / 2) (by norm_num) ?_; norm_num at *; linarith)
    (by refine le_trans (b := 1) ?_ (by norm_num); norm_num at *; linarith)
  refine ⟨c, h1, ?_⟩
  generalize (ln2Num : ℝ) / ((10 ^ 63 : Nat) : ℝ) = L at *
  rw [abs_le] at *
  norm_num at *
  constructor <;> linarith

theorem ln2Sq_is : ∃ c, RIs ln2Sq c ∧ |c - Real.log 2 ^ 2| ≤ Real.log 2 ^ 2 / 2 ^ 51 := by
  have h := ln2Num_near
  have hb := ln2_bounds
  have hc : ((10 ^ 126 : Nat) : ℝ) = 10 ^ 126 := by norm_num
  have hsq : ((ln2Num * ln2Num : Nat) : ℝ) / ((10 ^ 126 : Nat) : ℝ) = ((ln2Num : ℝ) / 10 ^ 63) ^ 2 := by
    rw [hc, Nat.cast_mul, div_pow, sq, ← pow_mul]
  have h' := abs_le.1 h
  generalize (ln2Num : ℝ) / 10 ^ 63 = L at *
  have hL1 : 1 / 2 ≤ L := by norm_num at *; linarith
  have hL2 : L ≤ 1 := by norm_num at *; linarith
  obtain ⟨c, h1, h2⟩ := dec_rel (n := ln2Num * ln2Num) (d := 10 ^ 126) (by norm_num)
    (by rw [hsq]; refine le_trans (b := 1 / 4) (by norm_num) ?_; nlinarith)
    (by rw [hsq]; refine le_trans (b := 1) ?_ (by norm_num); nlinarith)
  refine ⟨c, h1, ?_⟩
  rw [hsq] at h2
  have h3 : |L ^ 2 - Real.log 2 ^ 2| ≤ 1 / 2 ^ 59 := by
    have : L ^ 2 - Real.log 2 ^ 2 = (L - Real.log 2) * (L + Real.log 2) := by ring
    rw [this, abs_mul]
    calc _ ≤ 1 / 2 ^ 60 * 2 := mul_le_mul h (by rw [abs_of_pos] <;> linarith) (abs_nonneg _) (by positivity)
      _ = _ := by norm_num
  have h4 : (2 : ℝ) / 5 ≤ Real.log 2 ^ 2 := by nlinarith
  generalize Real.log 2 ^ 2 = S at *
  generalize L ^ 2 = L2 at *
  rw [abs_le] at *
  norm_num at *
  constructor <;> linarith

theorem mul_neg_swap {x y : F64} {a b : Nat} {s t : Bool} (hx : x = .fin s a) (hy : y = .fin t b) :
    F64.mul (F64.neg x) y = F64.mul x (F64.neg y) := by
  rw [hx, hy]; cases s <;> cases t <;> rfl

theorem log_unit_bounds {p : F64} {q : ℚ} (hd : IsDouble p) (hv : value p = some q) (h0 : 0 < q) (h1 : q < 1) :
    1 / 2 ^ 54 ≤ -Real.log q ∧ -Real.log q ≤ 1074 := by
  obtain ⟨m, hx, hqm⟩ := value_pos hv h0
  have ho := one_real_pos
  have hwf := Props.isDouble_iff.1 hd
  rw [hx] at hwf
  have h1' : (q : ℝ) < 1 := by exact_mod_cast h1
  have h0' : (0 : ℝ) < q := by exact_mod_cast h0
  have hmlt : m < one := by
    rw [hqm, div_lt_one ho] at h1'; exact_mod_cast h1'
  constructor
  · have haway : m + 2 ^ (expOne - 53) ≤ one := by
      rcases away_from_one hwf.1 (by omega) with h | h
      · exact h
      · have := Nat.two_pow_pos (expOne - 53); omega
    have hu : ((2 ^ (expOne - 53) : Nat) : ℝ) = one / 2 ^ 53 := by
      have : one = 2 ^ (expOne - 53) * 2 ^ 53 := by rw [one_eq, ← Nat.pow_add, expOne_eq]
      rw [eq_div_iff (by positivity)]
      have h2 := congrArg (Nat.cast : ℕ → ℝ) this
      rw [Nat.cast_mul, Nat.cast_pow 2 53, Nat.cast_ofNat] at h2
      exact h2.symm
    have h' : (m : ℝ) + ((2 ^ (expOne - 53) : Nat) : ℝ) ≤ one := by exact_mod_cast haway
    rw [hu] at h'
    have hq1 : (q : ℝ) ≤ 1 - 1 / 2 ^ 53 := by
      rw [hqm, div_le_iff₀ ho, sub_mul]
      have : (1 : ℝ) / 2 ^ 53 * one = one / 2 ^ 53 := by ring
      rw [this]; linarith
    have := Real.log_le_sub_one_of_pos h0'
    norm_num at *
    linarith
  · have hm1 : 1 ≤ m := by
      rcases Nat.eq_zero_or_pos m with h | h
      · rw [h] at hqm; simp at hqm; rw [hqm] at h0; exact absurd h0 (lt_irrefl _)
      · exact h
    have hm1' : (1 : ℝ) ≤ m := by exact_mod_cast hm1
    rw [← Real.log_inv, hqm, inv_div]
    have hle : (one : ℝ) / m ≤ one := div_le_self ho.le hm1'
    refine le_trans (Real.log_le_log (by positivity) hle) ?_
    have e : (one : ℝ) = 2 ^ 1074 := by
      have := Props.one_rat
      exact_mod_cast this
    rw [e, Real.log_pow]
    have := ln2_bounds.2
    have e2 : ((1074 : Nat) : ℝ) = 1074 := by norm_num
    rw [e2]; linarith

/-- the number of bits, computed with doubles -/
theorem size_bound {log : F64 → F64} (hl : LogOk log) {n : Nat} (hn1 : 1 ≤ n) (hn : n ≤ 2 ^ 53) {p : F64} {q : ℚ} (hd : IsDouble p)
    (hv : value p = some q) (h0 : 0 < q) (h1 : q < 1) :
    ∃ d, RIs (F64.div (F64.mul (F64.neg (F64.ofInt (n : Int))) (log p)) ln2Sq) d ∧
      |d - bitsFor n q| ≤ bitsFor n q / 2 ^ 48 ∧ 0 < bitsFor n q := by
  obtain ⟨b1, b2⟩ := log_unit_bounds hd hv h0 h1
  obtain ⟨r, er, hr⟩ := hl p q hd hv h0
  obtain ⟨c, rc, hc⟩ := ln2Sq_is
  have hb := ln2_bounds
  have hn1' : (1 : ℝ) ≤ n := by exact_mod_cast hn1
  have hn' : (n : ℝ) ≤ 2 ^ 53 := by exact_mod_cast hn
  have rn : RIs (F64.ofInt (n : Int)) n := ris_int hn
  unfold bitsFor
  have e1 : Real.log (1 / (q : ℝ)) = -Real.log q := by rw [one_div, Real.log_inv]
  rw [e1]
  have habs : |Real.log (q : ℝ)| = -Real.log q := abs_of_nonpos (by linarith [show (0 : ℝ) ≤ 1 / 2 ^ 54 by positivity])
  rw [habs] at hr
  have hr' := abs_le.1 hr
  generalize hA : -Real.log (q : ℝ) = a at *
  have hly : Real.log (q : ℝ) = -a := by rw [← hA]; ring
  rw [hly] at hr hr'
  have ha0 : 0 < a := lt_of_lt_of_le (by positivity) b1
  have hr0 : (r : ℝ) < 0 := by
    have : a / 2 ^ 50 ≤ a / 2 := by apply div_le_div_of_nonneg_left ha0.le <;> norm_num
    linarith [hr'.2]
  have rl := value_neg er (by exact_mod_cast hr0)
  have hsw : F64.mul (F64.neg (F64.ofInt (n : Int))) (log p) = F64.mul (F64.ofInt (n : Int)) (F64.neg (log p)) := by
    obtain ⟨A, eA, _⟩ := rn
    have : ∃ t B, log p = .fin t B := by
      cases hlp : log p with
      | nan => rw [hlp] at er; simp [Spec.value] at er
      | inf s => rw [hlp] at er; simp [Spec.value] at er
      | fin t B => exact ⟨t, B, rfl⟩
    obtain ⟨t, B, eB⟩ := this
    exact mul_neg_swap eA eB
  rw [hsw]
  have hell : |-(r : ℝ) - a| ≤ a / 2 ^ 50 := by
    rw [abs_le]; constructor <;> linarith [hr'.1, hr'.2]
  generalize -(r : ℝ) = ell at *
  have hell' := abs_le.1 hell
  have hl1 : a / 2 ≤ ell := by
    have : a / 2 ^ 50 ≤ a / 2 := by apply div_le_div_of_nonneg_left ha0.le <;> norm_num
    linarith [hell'.1]
  have hl2 : ell ≤ 2 * a := by
    have : a / 2 ^ 50 ≤ a := div_le_self ha0.le (by norm_num)
    linarith [hell'.2]
  generalize (n : ℝ) = N at *
  have hN0 : 0 < N := by linarith
  have hP1 : 1 / 2 ^ 55 ≤ N * ell := by
    calc (1 : ℝ) / 2 ^ 55 = 1 * (1 / 2 ^ 54 / 2) := by norm_num
      _ ≤ N * ell := mul_le_mul hn1' (by linarith) (by positivity) hN0.le
  have hP2 : N * ell ≤ 2 ^ 65 := by
    calc N * ell ≤ 2 ^ 53 * (2 * 1074) := mul_le_mul hn' (by linarith) (by linarith) (by positivity)
      _ ≤ _ := by norm_num
  obtain ⟨P, rP, hP⟩ := RIs.mul rn rl (le_trans (by norm_num) hP1) (le_trans hP2 (by norm_num))
  have hP' := abs_le.1 hP
  have hPlo : 1 / 2 ^ 56 ≤ P := by norm_num at *; linarith
  have hPhi : P ≤ 2 ^ 66 := by norm_num at *; linarith
  have hS1 : (2 : ℝ) / 5 ≤ Real.log 2 ^ 2 := by nlinarith
  have hS2 : Real.log 2 ^ 2 ≤ 1 := by nlinarith
  generalize Real.log 2 ^ 2 = S at *
  have hc' := abs_le.1 hc
  have hc1 : 1 / 5 ≤ c := by norm_num at *; linarith
  have hc2 : c ≤ 2 := by norm_num at *; linarith
  have hc0 : 0 < c := by linarith
  have hD1 : 1 / 2 ^ 57 ≤ P / c := by
    rw [le_div_iff₀ hc0]
    norm_num at *; linarith
  have hD2 : P / c ≤ 2 ^ 70 := by
    rw [div_le_iff₀ hc0]
    norm_num at *; linarith
  obtain ⟨d, rd, hdd⟩ := RIs.div rP rc hc0 (le_trans (by norm_num) hD1) (le_trans hD2 (by norm_num))
  refine ⟨d, rd, ?_, by positivity⟩
  have hS0 : 0 < S := by linarith
  -- relative errors
  have hPU : |P - N * a| ≤ N * a / 2 ^ 49 := by
    have h1 : |N * ell - N * a| ≤ N * a / 2 ^ 50 := by
      rw [← mul_sub, abs_mul, abs_of_pos hN0, mul_div_assoc]
      exact mul_le_mul_of_nonneg_left hell hN0.le
    have hNa : 0 ≤ N * a := by positivity
    generalize N * ell = V at *
    generalize N * a = W at *
    clear * - hNa h1 hP
    rw [abs_le] at *
    norm_num at *
    constructor <;> linarith
  have hNa : 0 < N * a := by positivity
  generalize N * a = W at *
  have hPd : d * c ≤ P * (1 + 1 / 2 ^ 53) ∧ P * (1 - 1 / 2 ^ 53) ≤ d * c := by
    have h1 := abs_le.1 hdd
    have e : P / c * c = P := by field_simp
    constructor
    · have : d ≤ P / c * (1 + 1 / 2 ^ 53) := by linarith [h1.2]
      calc d * c ≤ P / c * (1 + 1 / 2 ^ 53) * c := mul_le_mul_of_nonneg_right this hc0.le
        _ = P / c * c * (1 + 1 / 2 ^ 53) := by ring
        _ = _ := by rw [e]
    · have : P / c * (1 - 1 / 2 ^ 53) ≤ d := by linarith [h1.1]
      calc P * (1 - 1 / 2 ^ 53) = P / c * c * (1 - 1 / 2 ^ 53) := by rw [e]
        _ = P / c * (1 - 1 / 2 ^ 53) * c := by ring
        _ ≤ d * c := mul_le_mul_of_nonneg_right this hc0.le
  have hd0 : 0 ≤ d := RIs.nonneg rd
  have hPU' := abs_le.1 hPU
  have up : d * S ≤ W * (1 + 1 / 2 ^ 48) := by
    have h1 : S * (1 - 1 / 2 ^ 51) ≤ c := by linarith [hc'.1]
    have h2 : d * (S * (1 - 1 / 2 ^ 51)) ≤ d * c := mul_le_mul_of_nonneg_left h1 hd0
    have h3 : P ≤ W * (1 + 1 / 2 ^ 49) := by linarith [hPU'.2]
    have h4 : d * S * (1 - 1 / 2 ^ 51) ≤ W * (1 + 1 / 2 ^ 49) * (1 + 1 / 2 ^ 53) := by
      calc d * S * (1 - 1 / 2 ^ 51) = d * (S * (1 - 1 / 2 ^ 51)) := by ring
        _ ≤ P * (1 + 1 / 2 ^ 53) := le_trans h2 hPd.1
        _ ≤ _ := mul_le_mul_of_nonneg_right h3 (by norm_num)
    generalize d * S = D at *
    clear * - h4 hNa
    norm_num at *
    linarith
  have dn : W * (1 - 1 / 2 ^ 48) ≤ d * S := by
    have h1 : c ≤ S * (1 + 1 / 2 ^ 51) := by linarith [hc'.2]
    have h2 : d * c ≤ d * (S * (1 + 1 / 2 ^ 51)) := mul_le_mul_of_nonneg_left h1 hd0
    have h3 : W * (1 - 1 / 2 ^ 49) ≤ P := by linarith [hPU'.1]
    have h4 : W * (1 - 1 / 2 ^ 49) * (1 - 1 / 2 ^ 53) ≤ d * S * (1 + 1 / 2 ^ 51) := by
      calc W * (1 - 1 / 2 ^ 49) * (1 - 1 / 2 ^ 53) ≤ P * (1 - 1 / 2 ^ 53) := mul_le_mul_of_nonneg_right h3 (by norm_num)
        _ ≤ d * (S * (1 + 1 / 2 ^ 51)) := le_trans hPd.2 h2
        _ = _ := by ring
    generalize d * S = D at *
    clear * - h4 hNa
    norm_num at *
    linarith
  have e3 : W / S / 2 ^ 48 = W * (1 / 2 ^ 48) / S := by ring
  rw [abs_le, e3, ← neg_div]
  constructor
  · rw [le_sub_iff_add_le, ← add_div, div_le_iff₀ hS0]; linarith
  · rw [sub_le_iff_le_add, ← add_div, le_div_iff₀ hS0]; linarith


/-- the number of hash functions, computed with doubles -/
theorem hashes_bound {m n : Nat} (hm1 : 1 ≤ m) (hm : m ≤ 2 ^ 62) (hn1 : 1 ≤ n) (hn : n ≤ 2 ^ 53) :
    ∃ e, RIs (F64.div (F64.mul ln2 (F64.ofInt (m : Int))) (F64.ofInt (n : Int))) e ∧
      |e - Real.log 2 * m / n| ≤ Real.log 2 * m / n / 2 ^ 49 ∧ 0 < Real.log 2 * m / n := by
  obtain ⟨c, rc, hc⟩ := ln2_is
  have hb := ln2_bounds
  have hn1' : (1 : ℝ) ≤ n := by exact_mod_cast hn1
  have hn' : (n : ℝ) ≤ 2 ^ 53 := by exact_mod_cast hn
  have hm1' : (1 : ℝ) ≤ m := by exact_mod_cast hm1
  have hm' : (m : ℝ) ≤ 2 ^ 62 := by exact_mod_cast hm
  have rn : RIs (F64.ofInt (n : Int)) n := ris_int hn
  obtain ⟨u, ru, hu⟩ := dec_rel (n := m) (d := 1) (by omega)
    (by rw [Nat.cast_one, div_one]; exact le_trans (by norm_num) hm1')
    (by rw [Nat.cast_one, div_one]; exact le_trans hm' (by norm_num))
  rw [← ofInt_dec] at ru
  rw [Nat.cast_one, div_one] at hu
  generalize (m : ℝ) = M at *
  generalize (n : ℝ) = N at *
  have hN0 : 0 < N := by linarith
  generalize Real.log 2 = l at *
  have hc' := abs_le.1 hc
  have hu' := abs_le.1 hu
  have hcu : |c * u - l * M| ≤ l * M * (1 / 2 ^ 52 + 1 / 2 ^ 53 + 1 / 2 ^ 105) := by
    have e : c * u - l * M = (c - l) * M + c * (u - M) := by ring
    rw [e]
    refine le_trans (abs_add_le _ _) ?_
    rw [abs_mul, abs_mul, abs_of_pos (by linarith : 0 < M)]
    have hc0 : 0 ≤ c := RIs.nonneg rc
    rw [abs_of_nonneg hc0]
    have h1 : |c - l| * M ≤ l / 2 ^ 52 * M := mul_le_mul_of_nonneg_right hc (by linarith)
    have h2 : c * |u - M| ≤ (l + l / 2 ^ 52) * (M / 2 ^ 53) :=
      mul_le_mul (by linarith [hc'.2]) hu (abs_nonneg _) (by linarith)
    calc _ ≤ l / 2 ^ 52 * M + (l + l / 2 ^ 52) * (M / 2 ^ 53) := add_le_add h1 h2
      _ = _ := by ring
  have hlM1 : 1 / 2 ≤ l * M := by nlinarith
  have hlM2 : l * M ≤ 2 ^ 62 := by nlinarith
  have hcu' := abs_le.1 hcu
  have hx1 : 1 / 4 ≤ c * u := by
    generalize c * u = x at *; generalize l * M = y at *
    clear * - hcu' hlM1
    norm_num at *; linarith [hcu'.1]
  have hx2 : c * u ≤ 2 ^ 63 := by
    generalize c * u = x at *; generalize l * M = y at *
    clear * - hcu' hlM2 hlM1
    norm_num at *; linarith [hcu'.2]
  obtain ⟨P, rP, hP⟩ := RIs.mul rc ru (le_trans (by norm_num) hx1) (le_trans hx2 (by norm_num))
  have hP' := abs_le.1 hP
  generalize c * u = x at *
  have hP1 : 1 / 8 ≤ P := by
    clear * - hP' hx1
    norm_num at *; linarith [hP'.1]
  have hP2 : P ≤ 2 ^ 64 := by
    clear * - hP' hx2 hx1
    norm_num at *; linarith [hP'.2]
  have hq1 : 1 / 2 ^ 56 ≤ P / N := by
    rw [le_div_iff₀ hN0]; nlinarith
  have hq2 : P / N ≤ 2 ^ 64 := le_trans (div_le_self (by linarith) hn1') hP2
  obtain ⟨e, re, he⟩ := RIs.div rP rn hN0 (le_trans (by norm_num) hq1) (le_trans hq2 (by norm_num))
  have hlM : 0 < l * M := by linarith
  refine ⟨e, re, ?_, by positivity⟩
  have e1 : |P / N - l * M / N| ≤ l * M / N / 2 ^ 50 := by
    have h1 : |P - l * M| ≤ l * M / 2 ^ 50 := by
      generalize l * M = y at *
      clear * - hcu hP hlM
      rw [abs_le] at *
      norm_num at *
      constructor <;> linarith
    rw [← sub_div, abs_div, abs_of_pos hN0]
    calc _ ≤ l * M / 2 ^ 50 / N := div_le_div_of_nonneg_right h1 hN0.le
      _ = _ := by ring
  have h0 : 0 < l * M / N := by positivity
  generalize l * M / N = y at *
  generalize P / N = z at *
  clear * - he e1 h0
  rw [abs_le] at *
  norm_num at *
  constructor <;> linarith

/-- what `mk` chooses -/
theorem mk_spec {lib : MathLib} (hl : LogOk lib.log) {n : Nat} (hn1 : 1 ≤ n) (hn : n ≤ 2 ^ 53) {p : F64} {q : ℚ} (hd : IsDouble p)
    (hv : value p = some q) (h0 : 0 < q) (h1 : q < 1) (hfit : bitsFor n q ≤ 2 ^ 61) :
    ∃ (d e : ℝ) (m k : Nat), mk lib n p = ((m : Int), BitVec.ofNat 8 k) ∧ m = ⌈d⌉₊ ∧ k = min ⌈e⌉₊ 255 ∧ 1 ≤ m ∧ 1 ≤ k ∧ m ≤ 2 ^ 62 ∧
      |d - bitsFor n q| ≤ bitsFor n q / 2 ^ 48 ∧ |e - Real.log 2 * m / n| ≤ Real.log 2 * m / n / 2 ^ 49 := by
  obtain ⟨d, rd, hdd, hb0⟩ := size_bound hl hn1 hn hd hv h0 h1
  have hd' := abs_le.1 hdd
  have hd0 : 0 < d := by
    generalize bitsFor n (q : ℝ) = B at *
    clear * - hd' hb0
    norm_num at *; linarith [hd'.1]
  have hd62 : d ≤ 2 ^ 62 := by
    generalize bitsFor n (q : ℝ) = B at *
    clear * - hd' hb0 hfit
    norm_num at *; linarith [hd'.2]
  have em : F64.toInt64 (F64.ceil (F64.div (F64.mul (F64.neg (F64.ofInt (n : Int))) (lib.log p)) ln2Sq)) = ((⌈d⌉₊ : Nat) : Int) :=
    ceil_int rd hd62
  have hm1 : 1 ≤ ⌈d⌉₊ := Nat.one_le_iff_ne_zero.2 (Nat.ceil_pos.2 hd0).ne'
  have hm62 : ⌈d⌉₊ ≤ 2 ^ 62 := by rw [Nat.ceil_le, Nat.cast_pow, Nat.cast_ofNat]; exact hd62
  obtain ⟨e, re, he, he0⟩ := hashes_bound hm1 hm62 hn1 hn
  have he' := abs_le.1 he
  have hep : 0 < e := by
    generalize Real.log 2 * (⌈d⌉₊ : ℝ) / n = B at *
    clear * - he' he0
    norm_num at *; linarith [he'.1]
  have hk1 : 1 ≤ ⌈e⌉₊ := Nat.one_le_iff_ne_zero.2 (Nat.ceil_pos.2 hep).ne'
  refine ⟨d, e, ⌈d⌉₊, min ⌈e⌉₊ 255, ?_, rfl, rfl, hm1, by omega, hm62, hdd, he⟩
  simp only [mk]
  rw [em, ceil_is re]
  congr 1
  have hlt : F64.lt (.fin false (⌈e⌉₊ * one)) (F64.ofNat 255) = true ↔ ⌈e⌉₊ < 255 := by
    rw [ofNat_is (by omega)]
    rw [Is.lt_iff (z := ((⌈e⌉₊ * one : Nat) : Int)) (w := ((255 * one : Nat) : Int)) ⟨_, _, rfl, rfl⟩ ⟨_, _, rfl, rfl⟩]
    rw [Int.ofNat_lt]
    exact Nat.mul_lt_mul_right F64.one_pos
  by_cases h : ⌈e⌉₊ < 255
  · rw [if_pos (hlt.2 h), toInt64_is _ (by omega) _ (.inr rfl), BitVec.ofInt_natCast, Nat.min_eq_left (by omega)]
  · rw [if_neg (fun x => h (hlt.1 x)), Nat.min_eq_right (by omega)]

/-! ### the estimate of a filter -/

theorem HoldsBits.count_eq {b : Filter} {m : Nat} {vs : List Bytes} (h : HoldsBits b m vs) (lib : MathLib) :
    count lib b = .val (F64.toInt64 (F64.ceil (F64.div (F64.mul (F64.neg (lib.log (F64.sub (F64.ofNat 1)
      (F64.div (F64.ofInt ((bloomBits m b.k.toNat vs).length : Int)) (F64.ofInt (m : Int)))))) (F64.ofInt (m : Int)))
      (F64.ofNat b.k.toNat)))) := by
  unfold count
  rw [h.countN, Out.bind_val, h.bm]
  rfl

/-- no bit set -/
theorem count_none {log : F64 → F64} (hl : LogOk log) {m k : Nat} (hm1 : 1 ≤ m) (hm : m ≤ 2 ^ 53) (hk : 1 ≤ k) (hk8 : k ≤ 255) :
    F64.toInt64 (F64.ceil (F64.div (F64.mul (F64.neg (log (F64.sub (F64.ofNat 1)
      (F64.div (F64.ofInt ((0 : Nat) : Int)) (F64.ofInt (m : Int)))))) (F64.ofInt (m : Int))) (F64.ofNat k))) = 0 := by
  have ho := F64.one_pos
  have e1 : F64.div (F64.ofInt ((0 : Nat) : Int)) (F64.ofInt (m : Int)) = .fin false 0 := by
    rw [ofInt_is (by omega), ofInt_is hm, F64.div, if_neg (Nat.mul_ne_zero (by omega) ho.ne'), Nat.zero_mul, Nat.zero_mul, F64.mk,
      rnd_zero _ (Nat.mul_pos (by omega) ho), if_pos limit_pos]
    rfl
  have e2 : F64.sub (F64.ofNat 1) (.fin false 0) = .fin false one := by
    have hol : one < limit := by have := pow_one_lt (k := 0) (by omega); omega
    rw [ofNat_is (by omega), Nat.one_mul, F64.sub, F64.neg, Bool.not_false, F64.add]
    have e : signed false one + signed true 0 = (one : Int) := by simp [signed]
    rw [e, if_neg (by omega), F64.mk, Int.natAbs_natCast, rnd_exact_one rep_one, if_pos hol, decide_eq_false (by omega)]
  have hval : Spec.value (.fin false one) = some 1 := by
    have := (Props.value_int (x := .fin false one) (k := 1)).1 ⟨false, one, rfl, by simp [signed]⟩
    rw [this]; norm_cast
  have hwf : Wf (.fin false one) := by rw [← e2]; exact wf_sub
  obtain ⟨r, er, hr⟩ := hl _ 1 (Props.isDouble_iff.2 hwf) hval (by norm_num)
  rw [Rat.cast_one, Real.log_one] at hr
  have hr0 : r = 0 := by
    simp only [sub_zero, abs_zero, zero_div] at hr
    have := abs_nonpos_iff.1 hr
    exact_mod_cast this
  obtain ⟨s, hs⟩ : ∃ s, log (.fin false one) = .fin s 0 := by
    rw [hr0] at er
    obtain ⟨s, m, e, hz⟩ := (Props.value_iff (z := 0)).2 (by rw [er]; norm_num)
    refine ⟨s, ?_⟩
    have := signed_natAbs s m
    rw [hz] at this
    rw [e, ← this]; rfl
  have hz : ∀ t : Bool, F64.toInt64 (.fin t 0) = 0 := by
    intro t
    have := toInt64_is 0 (by omega) t (.inl rfl)
    rwa [Nat.zero_mul] at this
  rw [e1, e2, hs, ofInt_is hm, ofNat_is (by omega), F64.neg, F64.mul, Nat.zero_mul, F64.mk, rnd_zero _ ho, if_pos limit_pos, F64.div,
    if_neg (Nat.mul_ne_zero (by omega) ho.ne'), Nat.zero_mul, F64.mk, rnd_zero _ (Nat.mul_pos (by omega) ho), if_pos limit_pos,
    F64.ceil, if_pos (Nat.zero_mod _), hz]

/-- all bits set: the logarithm of 0 is minus infinity, which the conversion to int64 turns into the smallest number -/
theorem count_all {log : F64 → F64} (h0 : log F64.zero = .inf true) {m k : Nat} (hm1 : 1 ≤ m) (hm : m ≤ 2 ^ 53) (hk8 : k ≤ 255) :
    F64.toInt64 (F64.ceil (F64.div (F64.mul (F64.neg (log (F64.sub (F64.ofNat 1)
      (F64.div (F64.ofInt (m : Int)) (F64.ofInt (m : Int)))))) (F64.ofInt (m : Int))) (F64.ofNat k))) = -2 ^ 63 := by
  have ho := F64.one_pos
  have hol : one < limit := by have := pow_one_lt (k := 0) (by omega); omega
  have hmo := Nat.mul_pos (show 0 < m by omega) ho
  have e1 : F64.div (F64.ofInt (m : Int)) (F64.ofInt (m : Int)) = .fin false one := by
    rw [ofInt_is hm, F64.div, if_neg hmo.ne', F64.mk, Nat.mul_comm (m * one) one, rnd_exact hmo rep_one, if_pos hol]
    rfl
  have e2 : F64.sub (F64.ofNat 1) (.fin false one) = F64.zero := by
    rw [ofNat_is (by omega), Nat.one_mul, F64.sub, F64.neg, Bool.not_false, F64.add]
    have e : signed false one + signed true one = 0 := by simp [signed]
    rw [e, if_pos rfl]; rfl
  have e3 : F64.mul (F64.neg (.inf true)) (.fin false (m * one)) = .inf false := by
    show F64.mul (.inf false) (.fin false (m * one)) = .inf false
    simp only [F64.mul]
    rw [if_neg hmo.ne']; rfl
  rw [e1, e2, h0, ofInt_is hm, e3, ofNat_is (by omega)]
  rfl

end Starbow.Bloom
