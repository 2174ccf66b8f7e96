import Verif.Proof.BloomEst
import Mathlib.Algebra.Order.Ring.GeomSum
import Mathlib.Analysis.Calculus.MeanValue
/-
Rounding analysis of `ErrorRate`.
-/
namespace Starbow.Bloom
open Starbow F64 Spec Hll

theorem mk_true (a b : Nat) : F64.mk true a b = F64.neg (F64.mk false a b) := by
  unfold F64.mk
  split <;> rfl

theorem neg_arg {k x m : Nat} (hk : k ≤ 2 ^ 53) (hx : x ≤ 2 ^ 53) (hm : m ≤ 2 ^ 53) (hm1 : 1 ≤ m) (hkx : k * x ≤ 2 ^ 53) :
    F64.div (F64.mul (F64.neg (F64.ofNat k)) (F64.ofInt (x : Int))) (F64.ofInt (m : Int)) =
      F64.neg (F64.div (F64.ofInt ((k * x : Nat) : Int)) (F64.ofInt (m : Int))) := by
  have ho := F64.one_pos
  have hmo : m * one ≠ 0 := Nat.mul_ne_zero (by omega) ho.ne'
  have e1 : F64.mul (F64.neg (F64.ofNat k)) (F64.ofInt (x : Int)) = .fin true (k * x * one) := by
    rw [ofNat_is hk, ofInt_is hx, F64.neg, Bool.not_false, F64.mul]
    have e : k * one * (x * one) = k * x * one * one := by ring
    have hr : Rep (k * x * one) := by rw [one_eq]; exact rep_of_mul hkx
    have hl : k * x * one < limit := Nat.lt_of_le_of_lt (Nat.mul_le_mul_right _ (Nat.le_trans hkx (by omega : 2 ^ 53 ≤ 2 ^ 64))) Stat64.pow64_one
    rw [F64.mk, e, rnd_exact ho hr, if_pos hl]
    rfl
  rw [e1, ofInt_is hm, ofInt_is hkx, F64.div, if_neg hmo, F64.div, if_neg hmo]
  exact mk_true _ _

/-- the argument of Exp: `-d` with `d` close to `kx/m` and at most `k` -/
theorem arg_bound {k x m : Nat} (hk1 : 1 ≤ k) (hk : k ≤ 255) (hx1 : 1 ≤ x) (hxm : x ≤ m) (hm : m ≤ 2 ^ 45) :
    ∃ d, RIs (F64.div (F64.ofInt ((k * x : Nat) : Int)) (F64.ofInt (m : Int))) d ∧ d ≤ k ∧
      |d - (k : ℝ) * x / m| ≤ (k : ℝ) * x / m / 2 ^ 53 ∧ 1 / 2 ^ 45 ≤ (k : ℝ) * x / m ∧ (k : ℝ) * x / m ≤ k := by
  have hkx : k * x ≤ 2 ^ 53 := by
    calc k * x ≤ 255 * 2 ^ 45 := Nat.mul_le_mul hk (by omega)
      _ ≤ 2 ^ 53 := by norm_num
  have hK : (1 : ℝ) ≤ k := by exact_mod_cast hk1
  have hK8 : (k : ℝ) ≤ 255 := by exact_mod_cast hk
  have hX : (1 : ℝ) ≤ x := by exact_mod_cast hx1
  have hXM : (x : ℝ) ≤ m := by exact_mod_cast hxm
  have hM : (m : ℝ) ≤ 2 ^ 45 := by exact_mod_cast hm
  have hM0 : (0 : ℝ) < m := by linarith
  have lo : 1 / 2 ^ 45 ≤ (k : ℝ) * x / m := by
    rw [div_le_div_iff₀ (by positivity) hM0]; nlinarith
  have hi : (k : ℝ) * x / m ≤ k := by
    rw [div_le_iff₀ hM0]; exact mul_le_mul_of_nonneg_left hXM (by linarith)
  have e : ((k * x : Nat) : ℝ) / m = (k : ℝ) * x / m := by push_cast; rfl
  obtain ⟨d, rd, hd⟩ := RIs.div (ris_int hkx) (ris_int (by omega : m ≤ 2 ^ 53)) hM0 (by rw [e]; refine le_trans ?_ lo; norm_num)
    (by rw [e]; refine le_trans hi (le_trans hK8 (by norm_num)))
  rw [e] at hd
  refine ⟨d, rd, ?_, hd, lo, hi⟩
  have ho := F64.one_pos
  have hmo : m * one ≠ 0 := Nat.mul_ne_zero (by omega) ho.ne'
  obtain ⟨n, en, hn⟩ := rd
  rw [ofInt_is (by omega : m ≤ 2 ^ 53), ofInt_is hkx, F64.div, if_neg hmo, F64.mk] at en
  have hle : rnd (k * x * one * one) (m * one) ≤ k * one := by
    apply rnd_le_of_rep (Nat.pos_of_ne_zero hmo)
    · rw [one_eq]; exact rep_of_mul (by omega)
    · calc k * x * one * one ≤ k * m * one * one :=
            Nat.mul_le_mul_right _ (Nat.mul_le_mul_right _ (Nat.mul_le_mul_left _ hxm))
        _ = k * one * (m * one) := by ring
  split at en
  · simp only [F64.fin.injEq] at en
    rw [hn, ← en.2, div_le_iff₀ one_real_pos]
    exact_mod_cast hle
  · simp at en

theorem RIs.one_sub_le {x : F64} {r t : ℝ} (hx : RIs x r) (hr : r < 1) (ht : RIs (F64.sub (F64.ofNat 1) x) t) : t ≤ 1 := by
  obtain ⟨a, rfl, ha⟩ := hx
  have ho := one_real_pos
  have hle : a < one := by
    have : (a : ℝ) < one := by
      have h1 : (a : ℝ) = r * one := by rw [ha]; field_simp
      rw [h1]; nlinarith
    exact_mod_cast this
  have e0 : F64.sub (F64.ofNat 1) (.fin false a) = F64.mk false (one - a) 1 := by
    have e : signed false one + signed true a = ((one - a : Nat) : Int) := by
      simp only [signed, Bool.false_eq_true, if_false, if_true]; omega
    rw [ofNat_is (by omega), Nat.one_mul, F64.sub, F64.neg, Bool.not_false, F64.add, e, if_neg (by omega), Int.natAbs_natCast,
      decide_eq_false (by omega)]
  obtain ⟨n, en, hn⟩ := ht
  rw [e0, F64.mk] at en
  have hb : rnd (one - a) 1 ≤ one := rnd_le_of_rep (by omega) rep_one (by omega)
  split at en
  · simp only [F64.fin.injEq] at en
    rw [hn, ← en.2, div_le_one ho]
    exact_mod_cast hb
  · simp at en

theorem pow_diff {a b : ℝ} (ha0 : 0 ≤ a) (ha : a ≤ 1) (hb0 : 0 ≤ b) (hb : b ≤ 1) (k : Nat) : |a ^ k - b ^ k| ≤ k * |a - b| := by
  induction k with
  | zero => simp
  | succ k ih =>
    have e : a ^ (k + 1) - b ^ (k + 1) = (a ^ k - b ^ k) * a + b ^ k * (a - b) := by ring
    rw [e]
    have h1 : |(a ^ k - b ^ k) * a| ≤ k * |a - b| := by
      rw [abs_mul, abs_of_nonneg ha0]
      calc |a ^ k - b ^ k| * a ≤ |a ^ k - b ^ k| * 1 := mul_le_mul_of_nonneg_left ha (abs_nonneg _)
        _ ≤ _ := by rw [mul_one]; exact ih
    have h2 : |b ^ k * (a - b)| ≤ |a - b| := by
      rw [abs_mul, abs_of_nonneg (pow_nonneg hb0 k)]
      calc b ^ k * |a - b| ≤ 1 * |a - b| := mul_le_mul_of_nonneg_right (pow_le_one₀ hb0 hb) (abs_nonneg _)
        _ = _ := one_mul _
    calc _ ≤ |(a ^ k - b ^ k) * a| + |b ^ k * (a - b)| := abs_add_le _ _
      _ ≤ k * |a - b| + |a - b| := add_le_add h1 h2
      _ = _ := by push_cast; ring

theorem exp_diff {a b : ℝ} (ha : 0 ≤ a) (hb : 0 ≤ b) : |Real.exp (-a) - Real.exp (-b)| ≤ |a - b| := by
  wlog h : a ≤ b generalizing a b with H
  · rw [abs_sub_comm, abs_sub_comm a b]; exact H hb ha (by linarith)
  have h1 : Real.exp (-b) ≤ Real.exp (-a) := Real.exp_le_exp.2 (by linarith)
  rw [abs_of_nonneg (by linarith), abs_of_nonpos (by linarith)]
  have h2 : Real.exp (-b) = Real.exp (-a) * Real.exp (-(b - a)) := by rw [← Real.exp_add]; congr 1; ring
  have h3 := Real.add_one_le_exp (-(b - a))
  have h4 : Real.exp (-a) ≤ 1 := Real.exp_le_one_iff.2 (by linarith)
  have h5 := Real.exp_pos (-a)
  rw [h2]
  nlinarith

theorem HoldsBits.rate_eq {b : Filter} {m : Nat} {vs : List Bytes} (h : HoldsBits b m vs) (lib : MathLib) :
    errorRate lib b = .val (lib.pow (F64.sub (F64.ofNat 1) (lib.exp (F64.div (F64.mul (F64.neg (F64.ofNat b.k.toNat))
      (F64.ofInt ((bloomBits m b.k.toNat vs).length : Int))) (F64.ofInt (m : Int))))) (F64.ofNat b.k.toNat)) := by
  unfold errorRate
  rw [h.countN, Out.bind_val, h.bm]
  rfl

theorem value_neg' {x : F64} {q : ℚ} (h : Spec.value x = some q) : Spec.value (F64.neg x) = some (-q) := by
  cases x with
  | nan => simp [Spec.value] at h
  | inf s => simp [Spec.value] at h
  | fin s m =>
    simp only [Spec.value, F64.neg, Option.some.injEq] at h ⊢
    rw [← h]
    cases s <;> simp [neg_div]

set_option maxHeartbeats 1000000 in
/-- the base of the power -/
theorem base_bound {exp : F64 → F64} (he : ExpOk exp) {k x m : Nat} (hk1 : 1 ≤ k) (hk : k ≤ 255) (hx1 : 1 ≤ x) (hxm : x ≤ m)
    (hm : m ≤ 2 ^ 45) :
    ∃ t, RIs (F64.sub (F64.ofNat 1) (exp (F64.div (F64.mul (F64.neg (F64.ofNat k)) (F64.ofInt (x : Int))) (F64.ofInt (m : Int))))) t ∧
      t ≤ 1 ∧ |t - (1 - Real.exp (-((k : ℝ) * x / m)))| ≤ 1 / 2 ^ 44 := by
  have hkx : k * x ≤ 2 ^ 53 := by
    calc k * x ≤ 255 * 2 ^ 45 := Nat.mul_le_mul hk (by omega)
      _ ≤ 2 ^ 53 := by norm_num
  rw [neg_arg (by omega) (by omega) (by omega) (by omega) hkx]
  obtain ⟨d, rd, hdk, hd, lo, hi⟩ := arg_bound hk1 hk hx1 hxm hm
  have hwf : IsDouble (F64.neg (F64.div (F64.ofInt ((k * x : Nat) : Int)) (F64.ofInt (m : Int)))) := by
    rw [← neg_arg (by omega) (by omega) (by omega) (by omega) hkx]
    exact Props.isDouble_iff.2 wf_div
  obtain ⟨q, eq, hq⟩ := rd.value
  have hK8 : (k : ℝ) ≤ 255 := by exact_mod_cast hk
  have hd0 := RIs.nonneg rd
  have hq255 : q ≤ 255 := by
    have : (q : ℝ) ≤ 255 := by rw [hq]; linarith
    exact_mod_cast this
  have hq0 : 0 ≤ q := by
    have : (0 : ℝ) ≤ q := by rw [hq]; exact hd0
    exact_mod_cast this
  obtain ⟨r, er, hr1, hr⟩ := he.near _ (-q) hwf (value_neg' eq) (by linarith) (by linarith)
  rw [Rat.cast_neg, hq] at hr
  have hE := Real.exp_pos (-d)
  have hr' := abs_le.1 hr
  have hrp : 0 < r := by
    have : (0 : ℝ) < r := by
      generalize Real.exp (-d) = E at *
      have h1 := hr'.1
      generalize (r : ℝ) = R at *
      clear * - h1 hE
      norm_num at *; linarith
    exact_mod_cast this
  have rr := value_pos er hrp
  have hd' := abs_le.1 hd
  have hdlo : 1 / 2 ^ 46 ≤ d := by
    generalize (k : ℝ) * x / m = u at *
    clear * - hd' lo
    norm_num at *; linarith [hd'.1]
  have hEhi : Real.exp (-d) ≤ 1 - 1 / 2 ^ 47 := by
    have h1 : Real.exp (-d) ≤ Real.exp (-(1 / 2 ^ 46)) := Real.exp_le_exp.2 (by linarith)
    have h2 : Real.exp (-(1 / 2 ^ 46 : ℝ)) ≤ 1 / (1 + 1 / 2 ^ 46) := by
      rw [Real.exp_neg, ← one_div]
      apply one_div_le_one_div_of_le (by positivity)
      have := Real.add_one_le_exp (1 / 2 ^ 46 : ℝ)
      linarith
    refine le_trans h1 (le_trans h2 ?_)
    norm_num
  have hrhi : (r : ℝ) ≤ 1 - 1 / 2 ^ 48 := by
    generalize Real.exp (-d) = E at *
    clear * - hr' hEhi hE
    norm_num at *; linarith [hr'.2]
  obtain ⟨t, rt, ht⟩ := RIs.one_sub rr (le_trans hrhi (by norm_num))
  refine ⟨t, rt, RIs.one_sub_le rr (lt_of_le_of_lt hrhi (by norm_num)) rt, ?_⟩
  have hu0 : 0 ≤ (k : ℝ) * x / m := by positivity
  have hxd := exp_diff hd0 hu0
  have hE1 : Real.exp (-d) ≤ 1 := Real.exp_le_one_iff.2 (by linarith)
  have hr0 : (0 : ℝ) < r := by exact_mod_cast hrp
  generalize Real.exp (-((k : ℝ) * x / m)) = U at *
  generalize (k : ℝ) * x / m = u at *
  generalize Real.exp (-d) = E at *
  generalize (r : ℝ) = R at *
  have hu : |d - u| ≤ 255 / 2 ^ 53 := by
    refine le_trans hd ?_
    apply div_le_div_of_nonneg_right _ (by positivity)
    linarith
  generalize |d - u| = D at *
  clear * - ht hxd hr hu hE1 hrhi hE hr0
  rw [abs_le] at *
  norm_num at *
  constructor <;> linarith [hr.1, hr.2, ht.1, ht.2, hxd.1, hxd.2]

end Starbow.Bloom
