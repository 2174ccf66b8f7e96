import Verif.Proof.BloomRate
import Verif.Props.BloomEst
/-
Property theorems C62 (ErrorRate) and C63 (New, Len).
-/
namespace Starbow.Props
open Starbow.Spec Starbow.Bloom Starbow.Hll

/-! ### C62: ErrorRate -/

theorem add_of_run {b0 b : Filter} {v : Bytes} (e : runBloom b0 [some v] = .val b) : add b0 v = .val b := by
  cases ha : add b0 v with
  | panic => simp [runBloom, ha] at e
  | val b' => simpa [runBloom, ha] using e

/-- the base of the power when no bit is set -/
theorem base_zero {exp : F64 → F64} (he : ExpOk exp) {k m : Nat} (hk : k ≤ 255) (hm1 : 1 ≤ m) (hm : m ≤ 2 ^ 53) :
    F64.sub (F64.ofNat 1) (exp (F64.div (F64.mul (F64.neg (F64.ofNat k)) (F64.ofInt ((0 : Nat) : Int))) (F64.ofInt (m : Int)))) = F64.zero := by
  have ho := F64.one_pos
  have hmo := Nat.mul_pos (show 0 < m by omega) ho
  have e1 : value (F64.div (F64.mul (F64.neg (F64.ofNat k)) (F64.ofInt ((0 : Nat) : Int))) (F64.ofInt (m : Int))) = some 0 := by
    rw [neg_arg (by omega) (by omega) hm hm1 (by omega)]
    have : F64.div (F64.ofInt ((k * 0 : Nat) : Int)) (F64.ofInt (m : Int)) = .fin false 0 := by
      rw [Nat.mul_zero, ofInt_is (by omega), ofInt_is hm, F64.div, if_neg hmo.ne', Nat.zero_mul, Nat.zero_mul, F64.mk,
        F64.rnd_zero _ hmo, if_pos F64.limit_pos]
      rfl
    rw [this]
    simp [F64.neg, value]
  rw [he.zero _ e1, ofNat_is (by omega), Nat.one_mul, F64.sub, F64.neg, Bool.not_false, F64.add]
  have e : F64.signed false F64.one + F64.signed true F64.one = 0 := by simp [F64.signed]
  rw [e, if_pos rfl]; rfl

set_option maxHeartbeats 1000000 in
/-- **C62**, what ErrorRate computes: for every history, `(1 - e^(-kx/m))^k` where `x` is the number of *bits set*, to within `2^-34`; a
number from 0 to 1. -/
theorem C62_rate_partial (lib : MathLib) (he : ExpOk lib.exp) (hp : PowOk lib.pow) (m : Nat) (k : Byte) (hm1 : 1 ≤ m) (hm : m ≤ 2 ^ 45)
    (hk : 1 ≤ k.toNat) (h : AddHist) :
    ∃ b0 b r, ∃ q : ℚ, newBits (m : Int) k = .val b0 ∧ runBloom b0 h = .val b ∧ errorRate lib b = .val r ∧ value r = some q ∧
      0 ≤ q ∧ q ≤ 1 ∧ |(q : ℝ) - rateFor m k.toNat (bloomBits m k.toNat (live h)).length| ≤ 1 / 2 ^ 34 := by
  obtain ⟨b0, b, e0, e, hbk, hb⟩ := run_holds m k hm1 (by omega) h
  have hk8 : k.toNat ≤ 255 := by have := k.isLt; omega
  have hxm := bloomBits_length_le m k.toNat (live h)
  generalize hx : (bloomBits m k.toNat (live h)).length = x at *
  have er := hb.rate_eq lib
  rw [hbk, hx] at er
  rcases Nat.eq_zero_or_pos x with rfl | hx0
  · rw [base_zero he hk8 hm1 (by omega)] at er
    refine ⟨b0, b, _, 0, e0, e, er, hp.nought _ _ (by simp [F64.zero, value]) hk hk8, le_refl _, zero_le_one, ?_⟩
    unfold rateFor
    rw [Nat.cast_zero, mul_zero, zero_div, neg_zero, Real.exp_zero, sub_self, zero_pow (by omega)]
    norm_num
  · obtain ⟨t, rt, ht1, ht⟩ := base_bound he hk hk8 hx0 hxm hm
    obtain ⟨q, eq, hq⟩ := rt.value
    have ht0 := RIs.nonneg rt
    have hq0 : 0 ≤ q := by
      have : (0 : ℝ) ≤ q := by rw [hq]; exact ht0
      exact_mod_cast this
    have hq1 : q ≤ 1 := by
      have : (q : ℝ) ≤ 1 := by rw [hq]; exact ht1
      exact_mod_cast this
    obtain ⟨r, hr, hr0, hr1, hrq⟩ := hp.near _ q k.toNat (isDouble_iff.2 F64.wf_sub) eq hq0 hq1 hk8
    refine ⟨b0, b, _, r, e0, e, er, hr, hr0, hr1, ?_⟩
    unfold rateFor
    have hu0 : 0 ≤ (k.toNat : ℝ) * x / m := by positivity
    have hU1 : Real.exp (-((k.toNat : ℝ) * x / m)) ≤ 1 := Real.exp_le_one_iff.2 (by linarith)
    have hU0 := Real.exp_pos (-((k.toNat : ℝ) * x / m))
    have hpd := pow_diff ht0 ht1 (by linarith : 0 ≤ 1 - Real.exp (-((k.toNat : ℝ) * x / m))) (by linarith) k.toNat
    have hrq' : |(r : ℝ) - t ^ k.toNat| ≤ t ^ k.toNat / 2 ^ 40 + 1 / 2 ^ 1000 := by
      rw [← hq]
      generalize 1000 = z at *
      have : ((|r - q ^ k.toNat| : ℚ) : ℝ) ≤ ((q ^ k.toNat / 2 ^ 40 + 1 / 2 ^ z : ℚ) : ℝ) := by exact_mod_cast hrq
      push_cast at this
      exact this
    have hz : (1 : ℝ) / 2 ^ 1000 ≤ 1 / 2 ^ 40 :=
      one_div_le_one_div_of_le (by positivity) (pow_le_pow_right₀ (by norm_num) (by omega))
    have htk : t ^ k.toNat ≤ 1 := pow_le_one₀ ht0 ht1
    have hk' : (k.toNat : ℝ) ≤ 255 := by exact_mod_cast hk8
    have h1 : (k.toNat : ℝ) * |t - (1 - Real.exp (-((k.toNat : ℝ) * x / m)))| ≤ 255 * (1 / 2 ^ 44) :=
      mul_le_mul hk' ht (abs_nonneg _) (by norm_num)
    generalize (1 : ℝ) / 2 ^ 1000 = Z at *
    generalize (1 - Real.exp (-((k.toNat : ℝ) * x / m))) ^ k.toNat = W at *
    generalize t ^ k.toNat = T at *
    generalize (r : ℝ) = R at *
    have h2 := le_trans hpd h1
    clear * - h2 hrq' hz htk
    rw [abs_le] at *
    norm_num at *
    constructor <;> linarith [h2.1, h2.2, hrq'.1, hrq'.2]

/-- **C62**: ErrorRate of a filter to which nothing was added (or that was reset) is 0. -/
theorem C62_empty (lib : MathLib) (he : ExpOk lib.exp) (hp : PowOk lib.pow) (m : Nat) (k : Byte) (hm1 : 1 ≤ m) (hm : m ≤ 2 ^ 53)
    (hk : 1 ≤ k.toNat) (h : AddHist) (hempty : live h = []) :
    ∃ b0 b r, newBits (m : Int) k = .val b0 ∧ runBloom b0 h = .val b ∧ errorRate lib b = .val r ∧ value r = some 0 := by
  obtain ⟨b0, b, e0, e, hbk, hb⟩ := run_holds m k hm1 (by omega) h
  have hk8 : k.toNat ≤ 255 := by have := k.isLt; omega
  have hx : bloomBits m k.toNat (live h) = [] := by
    rw [hempty]; apply List.eq_nil_iff_forall_not_mem.2
    intro x hx
    obtain ⟨_, v, hv, _⟩ := mem_bloomBits.1 hx
    simp at hv
  have er := hb.rate_eq lib
  rw [hbk, hx, List.length_nil, base_zero he hk8 hm1 hm] at er
  exact ⟨b0, b, _, e0, e, er, hp.nought _ _ (by simp [F64.zero, value]) hk hk8⟩

theorem rate_16_4 : 1 / 8 + 1 / 2 ^ 30 ≤ rateFor 16 4 4 ∧ rateFor 16 4 1 ≤ 1 / 256 := by
  unfold rateFor
  constructor
  · have h1 : -((((4 : Nat) : ℝ)) * ((4 : Nat) : ℝ) / ((16 : Nat) : ℝ)) = -1 := by norm_num
    rw [h1]
    have h2 : Real.exp (-1) ≤ 0.37 := by
      rw [Real.exp_neg, inv_le_comm₀ (Real.exp_pos _) (by norm_num)]
      have := Real.exp_one_gt_d9
      norm_num at *; linarith
    have h3 : (0.63 : ℝ) ≤ 1 - Real.exp (-1) := by norm_num at *; linarith
    calc (1 / 8 + 1 / 2 ^ 30 : ℝ) ≤ 0.63 ^ 4 := by norm_num
      _ ≤ _ := pow_le_pow_left₀ (by norm_num) h3 4
  · have h1 : -((((4 : Nat) : ℝ)) * ((1 : Nat) : ℝ) / ((16 : Nat) : ℝ)) = -(1 / 4) := by norm_num
    rw [h1]
    have h2 := Real.add_one_le_exp (-(1 / 4) : ℝ)
    have h3 : Real.exp (-(1 / 4) : ℝ) ≤ 1 := Real.exp_le_one_iff.2 (by norm_num)
    calc (1 - Real.exp (-(1 / 4) : ℝ)) ^ 4 ≤ (1 / 4) ^ 4 := pow_le_pow_left₀ (by linarith) (by linarith) 4
      _ = 1 / 256 := by norm_num

/-- **C62 is false**: the formula `(1 - e^(-kn/m))^k` is for `n` items, but ErrorRate puts the number of set bits in its place. With one
value in a filter of 16 bits and 4 hash functions it reports more than 1/8 where the formula gives at most 1/256. -/
theorem C62_items_refuted (lib : MathLib) (he : ExpOk lib.exp) (hp : PowOk lib.pow) (v : Bytes) :
    ∃ b0 b r, ∃ q : ℚ, newBits 16 4#8 = .val b0 ∧ add b0 v = .val b ∧ errorRate lib b = .val r ∧ value r = some q ∧
      1 / 8 ≤ q ∧ rateFor 16 4 (live [some v]).length ≤ 1 / 256 := by
  obtain ⟨b0, b, r, q, e0, e, er, hv, _, _, hq⟩ := C62_rate_partial lib he hp 16 4#8 (by omega) (by omega) (by decide) [some v]
  refine ⟨b0, b, r, q, e0, add_of_run e, er, hv, ?_, rate_16_4.2⟩
  have hx : (bloomBits 16 (4#8).toNat (live [some v])).length = 4 := bloomBits_pow (j := 4) (by omega) (by decide) (by omega) 4 v
  rw [hx] at hq
  have h := rate_16_4.1
  have hq' : |(q : ℝ) - rateFor 16 4 4| ≤ 1 / 2 ^ 34 := hq
  have : (1 / 8 : ℝ) ≤ q := by
    generalize rateFor 16 4 4 = R at *
    rw [abs_le] at hq'
    have := hq'.1
    norm_num at *; linarith
  have : ((1 / 8 : ℚ) : ℝ) ≤ q := by push_cast; exact this
  exact_mod_cast this

/-- **C62 is false the other way round too**: a filter of one bit answers true to everything once a value was added, yet reports a rate
below 2/3. -/
theorem C62_full_refuted (lib : MathLib) (he : ExpOk lib.exp) (hp : PowOk lib.pow) (v : Bytes) :
    ∃ b0 b r, ∃ q : ℚ, newBits 1 1#8 = .val b0 ∧ add b0 v = .val b ∧ (∀ w, has b w = .val true) ∧ errorRate lib b = .val r ∧
      value r = some q ∧ q ≤ 2 / 3 := by
  have hx : (bloomBits 1 (1#8).toNat (live [some v])).length = 1 := bloomBits_pow (j := 0) (by omega) (by decide) (by omega) 1 v
  obtain ⟨b0, b, r, q, e0, e, er, hv, _, _, hq⟩ := C62_rate_partial lib he hp 1 1#8 (by omega) (by omega) (by decide) [some v]
  obtain ⟨b0', b', e0', e', hbk, hb⟩ := run_holds 1 1#8 (by omega) (by omega) [some v]
  have := Out.val.inj (e0.symm.trans e0'); subst this
  have := Out.val.inj (e.symm.trans e'); subst this
  refine ⟨b0, b, r, q, e0, add_of_run e, fun w => ?_, er, hv, ?_⟩
  · rw [hb.has w, hbk, decide_eq_true]
    intro i _
    have hall : bloomBits 1 (1#8).toNat (live [some v]) = List.range 1 :=
      (List.filter_sublist (l := List.range 1)).eq_of_length (by rw [List.length_range]; exact hx)
    rw [hall, List.mem_range]
    exact Nat.lt_of_lt_of_le (bloomPosition_lt (Nat.le_refl _) w i) (bloomRange_bounds (Nat.le_refl _)).2
  · rw [hx] at hq
    have hR : rateFor 1 (1#8).toNat 1 ≤ 0.64 := by
      have : (1#8).toNat = 1 := rfl
      rw [this]
      unfold rateFor
      have h1 : -((((1 : Nat) : ℝ)) * ((1 : Nat) : ℝ) / ((1 : Nat) : ℝ)) = -1 := by norm_num
      rw [h1, pow_one]
      have h2 : (0.36 : ℝ) ≤ Real.exp (-1) := by
        rw [Real.exp_neg, le_inv_comm₀ (by norm_num) (Real.exp_pos _)]
        have := Real.exp_one_lt_d9
        norm_num at *; linarith
      norm_num at *; linarith
    have : (q : ℝ) ≤ ((2 / 3 : ℚ) : ℝ) := by
      push_cast
      generalize rateFor 1 (1#8).toNat 1 = R at *
      rw [abs_le] at hq
      have := hq.2
      clear * - this hR
      norm_num at *; linarith
    exact_mod_cast this

/-- the exponential function, rounded down to a multiple of the smallest double -/
noncomputable def refExp (x : F64) : F64 :=
  match value x with
  | some q => .fin false ⌊Real.exp q * F64.one⌋₊
  | none => .nan

theorem value_fin_false (m : Nat) : ∃ r : ℚ, value (.fin false m) = some r ∧ (r : ℝ) = (m : ℝ) / F64.one :=
  RIs.value (x := .fin false m) ⟨m, rfl, rfl⟩

theorem floor_units {y : ℝ} (hy : 0 ≤ y) : ∃ r : ℚ, value (.fin false ⌊y * F64.one⌋₊) = some r ∧ 0 ≤ r ∧ (r : ℝ) ≤ y ∧
    y - 1 / F64.one ≤ r := by
  obtain ⟨r, h1, h2⟩ := value_fin_false ⌊y * F64.one⌋₊
  have ho := one_real_pos
  have hfl : ((⌊y * F64.one⌋₊ : Nat) : ℝ) ≤ y * F64.one := Nat.floor_le (by positivity)
  have hfu := Nat.lt_floor_add_one (y * (F64.one : ℝ))
  refine ⟨r, h1, ?_, ?_, ?_⟩
  · have : (0 : ℝ) ≤ r := by rw [h2]; positivity
    exact_mod_cast this
  · rw [h2, div_le_iff₀ ho]; exact hfl
  · rw [h2, le_div_iff₀ ho, sub_mul, one_div, inv_mul_cancel₀ ho.ne']; linarith

theorem one_huge : (2 : ℝ) ^ 1000 ≤ F64.one := by
  have : 2 ^ 1000 ≤ F64.one := by
    rw [F64.one_eq]; exact Nat.pow_le_pow_right (by omega) (by rw [F64.expOne]; omega)
  exact_mod_cast this

theorem refExp_ok : ExpOk refExp := by
  constructor
  · intro x hx
    unfold refExp
    rw [hx]
    simp only
    rw [Rat.cast_zero, Real.exp_zero, one_mul, Nat.floor_natCast, ofNat_is (by omega), Nat.one_mul]
  · intro x q _ hx h255 h0
    unfold refExp
    rw [hx]
    simp only
    obtain ⟨r, h1, _, h2, h3⟩ := floor_units (Real.exp_pos (q : ℝ)).le
    have hq0 : (q : ℝ) ≤ 0 := by exact_mod_cast h0
    have hq : (-255 : ℝ) ≤ q := by exact_mod_cast h255
    refine ⟨r, h1, ?_, ?_⟩
    · have : (r : ℝ) ≤ 1 := le_trans h2 (Real.exp_le_one_iff.2 hq0)
      exact_mod_cast this
    · have hlo : (1 : ℝ) / 2 ^ 510 ≤ Real.exp q := by
        refine le_trans ?_ (Real.exp_le_exp.2 hq)
        rw [Real.exp_neg, ← one_div]
        apply one_div_le_one_div_of_le (Real.exp_pos _)
        have e : (255 : ℝ) = ((255 : Nat) : ℝ) * 1 := by norm_num
        rw [e, Real.exp_nat_mul]
        have : Real.exp 1 ≤ 2 ^ 2 := by have := Real.exp_one_lt_d9; norm_num at *; linarith
        calc Real.exp 1 ^ 255 ≤ (2 ^ 2) ^ 255 := pow_le_pow_left₀ (Real.exp_pos _).le this _
          _ = 2 ^ 510 := by rw [← pow_mul]
      have hinv : 1 / (F64.one : ℝ) ≤ Real.exp q / 2 ^ 50 := by
        calc 1 / (F64.one : ℝ) ≤ 1 / 2 ^ 1000 := one_div_le_one_div_of_le (by positivity) one_huge
          _ ≤ 1 / 2 ^ (510 + 50) := one_div_le_one_div_of_le (by positivity) (pow_le_pow_right₀ (by norm_num) (by omega))
          _ = 1 / 2 ^ 510 / 2 ^ 50 := by rw [div_div, ← pow_add]
          _ ≤ _ := div_le_div_of_nonneg_right hlo (by positivity)
      rw [abs_le]
      generalize Real.exp (q : ℝ) / 2 ^ 50 = w at *
      have : 0 ≤ w := le_trans (by positivity) hinv
      constructor <;> linarith

/-- powers with exponent a whole number, rounded down to a multiple of the smallest double -/
noncomputable def refPow (x y : F64) : F64 :=
  match value x, value y with
  | some q, some k => .fin false ⌊(q : ℝ) ^ ⌊k⌋₊ * F64.one⌋₊
  | _, _ => .nan

theorem value_ofNat {k : Nat} (h : k ≤ 2 ^ 53) : value (F64.ofNat k) = some (k : ℚ) := by
  have := (value_int (x := F64.ofNat k) (k := (k : Int))).1 ⟨false, k * F64.one, ofNat_is h, by simp [F64.signed]⟩
  rw [this]; norm_cast

theorem refPow_ok : PowOk refPow := by
  constructor
  · intro x k hx h1 h2
    unfold refPow
    rw [hx, value_ofNat (by omega)]
    simp only
    rw [Nat.floor_natCast, Rat.cast_zero, zero_pow (by omega), zero_mul, Nat.floor_zero]
    simp [value]
  · intro x q k _ hx h0 h1 hk
    unfold refPow
    rw [hx, value_ofNat (by omega)]
    simp only
    rw [Nat.floor_natCast]
    have hq0 : (0 : ℝ) ≤ q := by exact_mod_cast h0
    have hq1 : (q : ℝ) ≤ 1 := by exact_mod_cast h1
    obtain ⟨r, e1, e2, e3, e4⟩ := floor_units (pow_nonneg hq0 k)
    refine ⟨r, e1, e2, ?_, ?_⟩
    · have : (r : ℝ) ≤ 1 := le_trans e3 (pow_le_one₀ hq0 hq1)
      exact_mod_cast this
    · have hinv : 1 / (F64.one : ℝ) ≤ 1 / 2 ^ 1000 := one_div_le_one_div_of_le (by positivity) one_huge
      have : |(r : ℝ) - (q : ℝ) ^ k| ≤ (q : ℝ) ^ k / 2 ^ 40 + 1 / 2 ^ 1000 := by
        have hp : 0 ≤ (q : ℝ) ^ k / 2 ^ 40 := by positivity
        have hz : (0 : ℝ) ≤ 1 / 2 ^ 1000 := by positivity
        generalize (1 : ℝ) / 2 ^ 1000 = z at *
        rw [abs_le]
        constructor <;> linarith
      generalize 1000 = z at *
      have h' : ((|r - q ^ k| : ℚ) : ℝ) ≤ ((q ^ k / 2 ^ 40 + 1 / 2 ^ z : ℚ) : ℝ) := by push_cast; exact this
      exact_mod_cast h'

/-- functions as assumed exist, so the theorems are not vacuous -/
example : ∃ lib : MathLib, LogOk lib.log ∧ ExpOk lib.exp ∧ PowOk lib.pow := ⟨⟨refLog, refExp, refPow⟩, refLog_ok, refExp_ok, refPow_ok⟩

/-! ### C63: New and Len -/

theorem newBits_of_mk {lib : MathLib} {n : Nat} {p : F64} {m k : Nat} (hmk : mk lib (n : Int) p = ((m : Int), BitVec.ofNat 8 k)) :
    new lib (n : Int) p = newBits (m : Int) (BitVec.ofNat 8 k) := by
  unfold Bloom.new
  rw [hmk]

/-- **C63**: for `1 ≤ n ≤ 2^53` and a double `p` strictly between 0 and 1 (whose filter is at most `2^61` bits), New(n, p) succeeds; it
uses `m = ⌈n ln(1/p) / (ln 2)^2⌉` bits and `k = ⌈ln 2 · m/n⌉` hash functions, at most 255, up to a relative rounding error below the
ceilings of `2^-48`; and the filter works: no history of Add and Reset panics, and everything added is found. -/
theorem C63_new (lib : MathLib) (hl : LogOk lib.log) (n : Nat) (hn1 : 1 ≤ n) (hn : n ≤ 2 ^ 53) (p : F64) (q : ℚ) (hd : IsDouble p)
    (hv : value p = some q) (h0 : 0 < q) (h1 : q < 1) (hfit : bitsFor n q ≤ 2 ^ 61) :
    ∃ (b0 : Filter) (d e : ℝ) (m k : Nat), new lib (n : Int) p = .val b0 ∧ b0.m = (m : Int) ∧ b0.k.toNat = k ∧
      m = ⌈d⌉₊ ∧ |d - bitsFor n q| ≤ bitsFor n q / 2 ^ 48 ∧
      k = min ⌈e⌉₊ 255 ∧ |e - Real.log 2 * m / n| ≤ Real.log 2 * m / n / 2 ^ 49 ∧ 1 ≤ m ∧ 1 ≤ k ∧
      ∀ h : AddHist, ∃ b, runBloom b0 h = .val b ∧ ∀ v ∈ live h, has b v = .val true := by
  obtain ⟨d, e, m, k, hmk, hm, hk, hm1, hk1, hm62, hdd, hee⟩ := mk_spec hl hn1 hn hd hv h0 h1 hfit
  have hk8 : (BitVec.ofNat 8 k).toNat = k := by
    rw [BitVec.toNat_ofNat, Nat.mod_eq_of_lt]; omega
  obtain ⟨b0, e0, _, hbm, hbk, _⟩ := newBits_wf m (BitVec.ofNat 8 k) hm1 (by omega)
  refine ⟨b0, d, e, m, k, by rw [newBits_of_mk hmk, e0], hbm, by rw [hbk, hk8], hm, hdd, hk, hee, hm1, hk1, fun h => ?_⟩
  obtain ⟨b0', b, e0', e', _, hlive, _⟩ := C09_no_false_negatives m (BitVec.ofNat 8 k) hm1 (by omega) h
  have := Out.val.inj (e0.symm.trans e0'); subst this
  exact ⟨b, e', hlive⟩

/-- **C63**: Len(n, p) is the number of bytes that a filter made by New(n, p) writes, whatever was added to it. -/
theorem C63_len (lib : MathLib) (hl : LogOk lib.log) (n : Nat) (hn1 : 1 ≤ n) (hn : n ≤ 2 ^ 53) (p : F64) (q : ℚ) (hd : IsDouble p)
    (hv : value p = some q) (h0 : 0 < q) (h1 : q < 1) (hfit : bitsFor n q ≤ 2 ^ 61) (h : AddHist) :
    ∃ b0 b, new lib (n : Int) p = .val b0 ∧ runBloom b0 h = .val b ∧
      lenFor lib (n : Int) p = ((writeTo b Writer.buffer).2.out.length : Int) ∧ lenFor lib (n : Int) p = (lenOf b : Int) := by
  obtain ⟨d, e, m, k, hmk, hm, hk, hm1, hk1, hm62, hdd, hee⟩ := mk_spec hl hn1 hn hd hv h0 h1 hfit
  obtain ⟨b0, b, e0, e', _, hb⟩ := run_holds m (BitVec.ofNat 8 k) hm1 (by omega) h
  have hlen : lenFor lib (n : Int) p = (lenOf b : Int) := by
    unfold lenFor
    rw [hmk]
    simp only
    have e1 : (1#8).toNat = 1 := rfl
    have hlb := hb.wf.bits.len
    rw [hb.wf.n, hb.bm, hb.wf.w, e1, Int.toNat_natCast, Nat.mul_one] at hlb
    have hl' := Bitbucket.length_nat (n := (m : Int)) (w := 1#8) (by omega) (by rw [e1]; omega)
    rw [e1, Int.toNat_natCast, Nat.mul_one] at hl'
    unfold Bitbucket.len Bloom.lenOf Bitbucket.lenOf Bloom.hdrLen
    rw [hl', hlb]
    unfold wrap64
    rw [Int.bmod_eq_of_le (n := 10 + (((m + 7) / 8 : Nat) : Int)) (by omega) (by omega), Int.bmod_eq_of_le (by omega) (by omega)]
    omega
  refine ⟨b0, b, by rw [newBits_of_mk hmk, e0], e', ?_, hlen⟩
  rw [hlen, (C11_write b hb.wf).2]

/-- New(1, 0.5) makes a filter of 2 bits with 2 hash functions -/
theorem new_one_half (lib : MathLib) (hl : LogOk lib.log) (p : F64) (hd : IsDouble p) (hv : value p = some (1 / 2)) :
    new lib 1 p = newBits ((2 : Nat) : Int) 2#8 := by
  have l1 := Real.log_two_gt_d9
  have l2 := Real.log_two_lt_d9
  have hB : bitsFor 1 ((1 / 2 : ℚ) : ℝ) = 1 / Real.log 2 := by
    unfold bitsFor
    have : Real.log 2 ≠ 0 := by linarith
    push_cast
    rw [one_div_one_div, one_mul, pow_two, div_mul_cancel_left₀ this, one_div]
  have hB1 : (1.44 : ℝ) ≤ 1 / Real.log 2 := by rw [le_div_iff₀ (by linarith)]; norm_num at *; linarith
  have hB2 : 1 / Real.log 2 ≤ (1.45 : ℝ) := by rw [div_le_iff₀ (by linarith)]; norm_num at *; linarith
  obtain ⟨d, e, m, k, hmk, hm, hk, _, _, _, hdd, hee⟩ := mk_spec hl (n := 1) (by omega) (by omega) hd hv (by norm_num) (by norm_num)
    (by rw [hB]; exact le_trans hB2 (by norm_num))
  rw [hB] at hdd
  have hm2 : m = 2 := by
    generalize 1 / Real.log 2 = B at *
    have h1 : 1 < d ∧ d ≤ 2 := by
      clear * - hdd hB1 hB2
      rw [abs_le] at hdd
      norm_num at *
      constructor <;> linarith [hdd.1, hdd.2]
    rw [hm]
    apply Nat.le_antisymm
    · exact Nat.ceil_le.2 (by exact_mod_cast h1.2)
    · exact Nat.lt_ceil.2 (by exact_mod_cast h1.1)
  subst hm2
  have hk2 : k = 2 := by
    have h1 : 1 < e ∧ e ≤ 2 := by
      generalize Real.log 2 = L at *
      clear * - hee l1 l2
      push_cast at hee
      rw [div_one] at hee
      rw [abs_le] at hee
      norm_num at *
      constructor <;> linarith [hee.1, hee.2]
    have : ⌈e⌉₊ = 2 := by
      apply Nat.le_antisymm
      · exact Nat.ceil_le.2 (by exact_mod_cast h1.2)
      · exact Nat.lt_ceil.2 (by exact_mod_cast h1.1)
    rw [hk, this]; rfl
  subst hk2
  exact newBits_of_mk (n := 1) hmk

/-- **C63 is false as a promise about the rate**: New(1, 0.5) is "suitable for storing 1 item with a false positive rate of 0.5", but
after one value is added, whichever it is, every value at all is reported present; and Count is then the smallest integer. -/
theorem C63_rate_refuted (lib : MathLib) (hl : LogOk lib.log) (hlog0 : lib.log F64.zero = .inf true) (p : F64) (hd : IsDouble p)
    (hv : value p = some (1 / 2)) (v : Bytes) :
    ∃ b0 b, new lib 1 p = .val b0 ∧ add b0 v = .val b ∧ (∀ w, has b w = .val true) ∧ Bloom.count lib b = .val (-2 ^ 63) := by
  have hx : (bloomBits 2 (2#8).toNat (live [some v])).length = 2 := bloomBits_pow (j := 1) (by omega) (by decide) (by omega) 2 v
  obtain ⟨b0, b, e0, e, hc, hh⟩ := C61_full_refuted lib hlog0 2 2#8 (by omega) (by omega) [some v] hx
  exact ⟨b0, b, by rw [new_one_half lib hl p hd hv, e0], add_of_run e, hh, hc⟩

/-- one half is a double -/
theorem half_double : IsDouble (.fin false (2 ^ 1073)) ∧ value (.fin false (2 ^ 1073)) = some (1 / 2) := by
  constructor
  · refine isDouble_iff.2 ⟨F64.rep_pow _, ?_⟩
    rw [F64.limit, F64.expLimit]
    exact Nat.pow_lt_pow_right (by omega) (by omega)
  · simp only [value, Bool.false_eq_true, if_false, Option.some.injEq]
    rw [Nat.cast_pow, Nat.cast_ofNat, show (1074 : Nat) = 1073 + 1 from rfl, pow_succ]
    have : (2 : ℚ) ^ 1073 ≠ 0 := by positivity
    generalize (2 : ℚ) ^ 1073 = P at *
    field_simp

/-- **C63, n = 0**: New(0, p) returns a filter without bits and with 255 hash functions; adding or testing any value panics. -/
theorem C63_zero_refuted (lib : MathLib) (hl : LogOk lib.log) (p : F64) (q : ℚ) (hd : IsDouble p) (hv : value p = some q) (h0 : 0 < q) :
    ∃ b0, new lib 0 p = .val b0 ∧ (∀ v, add b0 v = .panic) ∧ ∀ v, has b0 v = .panic := by
  obtain ⟨r, er, _⟩ := hl p q hd hv h0
  have ho := F64.one_pos
  have hz : F64.ofInt 0 = .fin false 0 := by
    have := ofInt_is (n := 0) (by omega)
    rwa [Nat.zero_mul] at this
  obtain ⟨c, rc, hc⟩ := ln2Sq_is
  obtain ⟨c', rc', _⟩ := ln2_is
  obtain ⟨u, eu, hu⟩ := rc
  obtain ⟨u', eu', hu'⟩ := rc'
  have hu0 : u ≠ 0 := by
    intro h
    rw [h] at hu
    have l1 := Real.log_two_gt_d9
    have hsq : (0.4 : ℝ) ≤ Real.log 2 ^ 2 := by
      calc (0.4 : ℝ) ≤ 0.6931471803 ^ 2 := by norm_num
        _ ≤ _ := pow_le_pow_left₀ (by norm_num) l1.le 2
    rw [hu, Nat.cast_zero, zero_div, zero_sub, abs_neg, abs_of_nonneg (by positivity)] at hc
    generalize Real.log 2 ^ 2 = S at *
    clear * - hc hsq
    norm_num at *; linarith
  have em : F64.toInt64 (F64.ceil (F64.div (F64.mul (F64.neg (F64.ofInt 0)) (lib.log p)) ln2Sq)) = 0 := by
    cases hlp : lib.log p with
    | nan => rw [hlp] at er; simp [value] at er
    | inf s => rw [hlp] at er; simp [value] at er
    | fin s a =>
      rw [hz, eu, F64.neg, F64.mul, Nat.zero_mul, F64.mk, F64.rnd_zero _ ho, if_pos F64.limit_pos, F64.div, if_neg hu0, Nat.zero_mul,
        F64.mk, F64.rnd_zero _ (Nat.pos_of_ne_zero hu0), if_pos F64.limit_pos, F64.ceil, if_pos (Nat.zero_mod _)]
      have := toInt64_is 0 (by omega) (((!false) != s) != false) (.inl rfl)
      rwa [Nat.zero_mul] at this
  have hmk : mk lib 0 p = (0, 255#8) := by
    simp only [mk]
    rw [em, hz, eu', F64.mul, Nat.mul_zero, F64.mk, F64.rnd_zero _ ho, if_pos F64.limit_pos, F64.div, if_pos rfl, if_pos rfl]
    rfl
  have hnew : new lib 0 p = .val ⟨⟨[], 0, 1#8⟩, 0, 255#8⟩ := by
    unfold Bloom.new
    rw [hmk]
    decide
  refine ⟨_, hnew, fun v => ?_, fun v => ?_⟩
  · have hm : (newHasher v 0).m = 0 := by simp [newHasher]
    have hn : next (newHasher v 0) = .panic := by unfold next; rw [hm]; rfl
    have ha : addLoop ⟨[], 0, 1#8⟩ (newHasher v 0) (254 + 1) = .panic := by rw [addLoop, hn]; rfl
    unfold Bloom.add
    show (addLoop ⟨[], 0, 1#8⟩ (newHasher v 0) (254 + 1) >>= _) = _
    rw [ha]; rfl
  · have hm : (newHasher v 0).m = 0 := by simp [newHasher]
    have hn : next (newHasher v 0) = .panic := by unfold next; rw [hm]; rfl
    show hasLoop ⟨[], 0, 1#8⟩ (newHasher v 0) (254 + 1) = _
    rw [hasLoop, hn]; rfl

/-- New(1000, 0.5) meets the hypotheses of `C63_new` and `C63_len` -/
example : IsDouble (.fin false (2 ^ 1073)) ∧ value (.fin false (2 ^ 1073)) = some (1 / 2) ∧ bitsFor 1000 ((1 / 2 : ℚ) : ℝ) ≤ 2 ^ 61 := by
  refine ⟨half_double.1, half_double.2, ?_⟩
  have l1 := Real.log_two_gt_d9
  unfold bitsFor
  push_cast
  rw [one_div_one_div, pow_two, mul_div_mul_right _ _ (by linarith : Real.log 2 ≠ 0), div_le_iff₀ (by linarith)]
  norm_num at *
  linarith

end Starbow.Props
