import Verif.Proof.Ieee
/-
The arithmetic of `Model/F64.lean` is that of IEEE 754 binary64: every operation gives the exact result rounded to nearest, ties to
even (`Spec/Ieee.lean`), and the special values behave as the standard says. These theorems are not about starbow; they check
the part of the trusted base that describes Go's `float64`.
-/
namespace Starbow.Props
open Starbow Starbow.Spec F64

theorem value_some {x : F64} {q : ℚ} (h : value x = some q) : ∃ s m, x = .fin s m ∧ q = (signed s m : ℤ) / (one : ℚ) := by
  cases x with
  | nan => simp [value] at h
  | inf s => simp [value] at h
  | fin s m =>
    rw [value_fin] at h
    exact ⟨s, m, rfl, (Option.some.inj h).symm⟩

/-- the doubles are the numbers of the standard, the infinities and NaN -/
theorem ieee_doubles (x : F64) : IsDouble x ↔ ∀ q, value x = some q → Binary64 q := by
  constructor
  · rintro ⟨b, rfl⟩ q h
    have hw := wf_ofBits b
    obtain ⟨s, m, e, rfl⟩ := value_some h
    rw [e] at hw
    exact binary64_iff.2 ⟨_, by rw [signed_natAbs]; exact hw.1, by rw [signed_natAbs]; exact hw.2, rfl⟩
  · intro h
    refine ⟨toBits x, ofBits_toBits ?_⟩
    cases x with
    | nan => trivial
    | inf s => trivial
    | fin s m =>
      obtain ⟨z, h1, h2, h3⟩ := binary64_iff.1 (h _ (value_fin s m))
      have ho := oneq_pos
      rw [div_left_inj' (ne_of_gt ho)] at h3
      have : z = signed s m := by exact_mod_cast h3.symm
      rw [this, signed_natAbs] at h1 h2
      exact ⟨h1, h2⟩

theorem rounded_congr {x y : ℝ} {r : F64} (h : Rounded x r) (e : x = y) : Rounded y r := e ▸ h

theorem mk_rounded_int (z : Int) (b : Nat) (hb : 0 < b) : Rounded ((z : ℝ) / b / one) (mk (decide (z < 0)) z.natAbs b) := by
  refine rounded_congr (mk_rounded _ _ _ hb) ?_
  rw [Nat.cast_natAbs, Int.cast_abs]
  by_cases h : z < 0
  · have : (z : ℝ) < 0 := by exact_mod_cast h
    rw [abs_of_neg this]
    simp only [h, decide_true, if_true]
    ring
  · have : (0 : ℝ) ≤ z := by exact_mod_cast Int.not_lt.1 h
    rw [abs_of_nonneg this]
    simp only [h, decide_false, Bool.false_eq_true, if_false]

theorem rounded_zero (s : Bool) : Rounded 0 (.fin s 0) := by
  have := mk_rounded s 0 1 (by omega)
  unfold mk at this
  rw [rnd_zero 1 (by omega), if_pos limit_pos] at this
  refine rounded_congr this ?_
  cases s <;> simp

/-- addition of finite doubles -/
theorem ieee_add {x y : F64} {p q : ℚ} (hx : value x = some p) (hy : value y = some q) : Rounded ((p : ℝ) + q) (F64.add x y) := by
  obtain ⟨a, m, rfl, rfl⟩ := value_some hx
  obtain ⟨b, n, rfl, rfl⟩ := value_some hy
  have ho := oner_pos
  unfold F64.add
  dsimp only
  by_cases h : signed a m + signed b n = 0
  · rw [if_pos h]
    refine rounded_congr (rounded_zero _) ?_
    push_cast
    rw [← add_div]
    have : ((signed a m : ℤ) : ℝ) + (signed b n : ℤ) = 0 := by exact_mod_cast h
    rw [this, zero_div]
  · rw [if_neg h]
    refine rounded_congr (mk_rounded_int _ 1 (by omega)) ?_
    push_cast
    rw [← add_div, div_one]

theorem value_neg {x : F64} {p : ℚ} (hx : value x = some p) : value (F64.neg x) = some (-p) := by
  obtain ⟨a, m, rfl, rfl⟩ := value_some hx
  unfold F64.neg
  dsimp only
  rw [value_fin, signed_not]
  push_cast
  rw [neg_div]

/-- subtraction -/
theorem ieee_sub {x y : F64} {p q : ℚ} (hx : value x = some p) (hy : value y = some q) : Rounded ((p : ℝ) - q) (F64.sub x y) := by
  refine rounded_congr (ieee_add hx (value_neg hy)) ?_
  push_cast; ring

theorem sign_cases (a b : Bool) (m n : Nat) : (if (a != b) then -((m : ℝ) * n) else (m : ℝ) * n) = (signed a m : ℤ) * (signed b n : ℤ) := by
  unfold signed
  cases a <;> cases b <;> simp

/-- multiplication -/
theorem ieee_mul {x y : F64} {p q : ℚ} (hx : value x = some p) (hy : value y = some q) : Rounded ((p : ℝ) * q) (F64.mul x y) := by
  obtain ⟨a, m, rfl, rfl⟩ := value_some hx
  obtain ⟨b, n, rfl, rfl⟩ := value_some hy
  have ho := oner_pos
  unfold F64.mul
  dsimp only
  refine rounded_congr (mk_rounded _ _ _ one_pos) ?_
  push_cast
  have h := sign_cases a b m n
  have e : ((signed a m : ℤ) : ℝ) / one * ((signed b n : ℤ) / one) = ((signed a m : ℤ) * (signed b n : ℤ)) / one / one := by
    field_simp
  rw [e, ← h]
  cases (a != b) <;> simp <;> ring

/-- division by a number that is not zero -/
theorem ieee_div {x y : F64} {p q : ℚ} (hx : value x = some p) (hy : value y = some q) (hq : q ≠ 0) : Rounded ((p : ℝ) / q) (F64.div x y) := by
  obtain ⟨a, m, rfl, rfl⟩ := value_some hx
  obtain ⟨b, n, rfl, rfl⟩ := value_some hy
  have ho := oner_pos
  have hn : n ≠ 0 := by
    rintro rfl
    apply hq
    unfold signed; cases b <;> simp
  have hnr : (n : ℝ) ≠ 0 := by exact_mod_cast hn
  unfold F64.div
  dsimp only
  rw [if_neg hn]
  refine rounded_congr (mk_rounded _ _ _ (by omega)) ?_
  push_cast
  have e : ((signed a m : ℤ) : ℝ) / one / ((signed b n : ℤ) / one) = (signed a m : ℤ) / (signed b n : ℤ) := by
    field_simp
  rw [e]
  unfold signed
  cases a <;> cases b <;> simp <;> field_simp

/-- square root of a double that is not negative -/
theorem ieee_sqrt {x : F64} {p : ℚ} (hd : IsDouble x) (hx : value x = some p) (hp : 0 ≤ p) : Rounded (Real.sqrt p) (F64.sqrt x) := by
  obtain ⟨b, hb⟩ := hd
  have hw : Wf x := by rw [← hb]; exact wf_ofBits b
  obtain ⟨a, m, rfl, rfl⟩ := value_some hx
  have ho := oner_pos
  have hoq := oneq_pos
  unfold F64.sqrt
  dsimp only
  by_cases h : m = 0
  · subst h
    rw [if_pos rfl]
    refine rounded_congr (rounded_zero _) ?_
    have : signed a 0 = 0 := by unfold signed; cases a <;> simp
    rw [this]; simp
  · have ha : a = false := by
      cases a with
      | false => rfl
      | true =>
        exfalso
        have : (0 : ℚ) ≤ (signed true m : ℤ) := by
          by_contra hc
          exact absurd hp (not_le.2 (div_neg_of_neg_of_pos (not_le.1 hc) hoq))
        have : (0 : Int) ≤ signed true m := by exact_mod_cast this
        unfold signed at this
        simp at this
        exact h this
    subst ha
    rw [if_neg h, if_neg (by simp)]
    have e : Real.sqrt (((signed false m : ℤ) / (one : ℚ) : ℚ) : ℝ) = Real.sqrt ((m * one : Nat) : ℝ) / one := by
      have e1 : (((signed false m : ℤ) / (one : ℚ) : ℚ) : ℝ) = ((m * one : Nat) : ℝ) / (one * one : ℝ) := by
        unfold signed; push_cast; field_simp
      rw [e1, Real.sqrt_div (Nat.cast_nonneg _), Real.sqrt_mul_self ho.le]
    have hb := sqrt_best hw.1
    rw [← div_mul_cancel₀ (Real.sqrt ((m * one : Nat) : ℝ)) (ne_of_gt ho), ← e] at hb
    have hr := rounded_of_best (Real.sqrt_nonneg _) hb false
    simp only [Bool.false_eq_true, if_false] at hr
    have hlim : sqrtMag m < limit := by
      apply (sqrt_best hw.1).lt_limit
      have h1 : m * one ≤ 2 ^ expTop * 2 ^ expTop := by
        rw [one_eq]
        calc m * 2 ^ expOne ≤ 2 ^ (53 + expTop) * 2 ^ expOne := Nat.mul_le_mul_right _ (by rw [← limit_exp]; exact hw.2.le)
          _ = 2 ^ (53 + expOne) * 2 ^ expTop := by rw [Nat.pow_add, Nat.pow_add]; ring
          _ ≤ 2 ^ expTop * 2 ^ expTop := Nat.mul_le_mul_right _ (Nat.pow_le_pow_right (by decide) (by rw [expOne_eq, expTop_eq]; omega))
      have h2 : Real.sqrt ((m * one : Nat) : ℝ) ≤ 2 ^ expTop := by
        rw [Real.sqrt_le_left (by positivity), sq]
        exact_mod_cast h1
      have h3 : (2 ^ expTop : ℝ) ≤ top := by
        have : 2 ^ expTop ≤ top := by unfold top; exact Nat.le_mul_of_pos_left _ (by norm_num)
        exact_mod_cast this
      have h4 : (top : ℝ) < limit := by exact_mod_cast top_lt
      unfold mid
      linarith
    rw [if_pos hlim] at hr
    exact hr

/-- conversion of integers and decimal constants -/
theorem ieee_ofNat (n : Nat) : Rounded n (F64.ofNat n) := by
  unfold F64.ofNat
  refine rounded_congr (mk_rounded false _ 1 (by omega)) ?_
  have ho := oner_pos
  simp only [Bool.false_eq_true, if_false]
  push_cast
  rw [div_one, mul_div_cancel_right₀ _ (ne_of_gt ho)]

theorem ieee_ofU64 (x : U64) : Rounded x.toNat (F64.ofU64 x) := ieee_ofNat _

theorem ieee_ofInt (z : Int) : Rounded z (F64.ofInt z) := by
  have ho := oner_pos
  have hpos := one_pos
  have h := mk_rounded_int (z * one) 1 (by omega)
  have e1 : decide (z * (one : Int) < 0) = decide (z < 0) := by
    congr 1
    have : (0 : Int) < one := by exact_mod_cast hpos
    exact propext ⟨fun g => by by_contra hc; exact absurd g (not_lt.2 (mul_nonneg (not_lt.1 hc) this.le)), fun g => mul_neg_of_neg_of_pos g this⟩
  have e2 : (z * (one : Int)).natAbs = z.natAbs * one := by rw [Int.natAbs_mul, Int.natAbs_natCast]
  rw [e1, e2] at h
  refine rounded_congr h ?_
  push_cast
  rw [div_one, mul_div_cancel_right₀ _ (ne_of_gt ho)]

theorem ieee_dec (n d : Nat) (hd : 0 < d) : Rounded ((n : ℝ) / d) (F64.dec n d) := by
  unfold F64.dec
  refine rounded_congr (mk_rounded false _ _ hd) ?_
  have ho := oner_pos
  simp only [Bool.false_eq_true, if_false]
  push_cast
  rw [mul_div_right_comm, mul_div_cancel_right₀ _ (ne_of_gt ho)]

/-- comparisons of finite doubles are those of their values; `-0 = +0` -/
theorem ieee_compare {x y : F64} {p q : ℚ} (hx : value x = some p) (hy : value y = some q) :
    (F64.lt x y = true ↔ p < q) ∧ (F64.le x y = true ↔ p ≤ q) ∧ (F64.ge x y = true ↔ q ≤ p) ∧ (F64.eq x y = true ↔ p = q) := by
  obtain ⟨a, m, rfl, rfl⟩ := value_some hx
  obtain ⟨b, n, rfl, rfl⟩ := value_some hy
  have hoq := oneq_pos
  have i1 : Is (.fin a m) (signed a m) := ⟨a, m, rfl, rfl⟩
  have i2 : Is (.fin b n) (signed b n) := ⟨b, n, rfl, rfl⟩
  refine ⟨?_, ?_, ?_, ?_⟩
  · rw [i1.lt_iff i2, div_lt_div_iff_of_pos_right hoq]; norm_cast
  · rw [i1.le_iff i2, div_le_div_iff_of_pos_right hoq]; norm_cast
  · unfold F64.ge; rw [i2.le_iff i1, div_le_div_iff_of_pos_right hoq]; norm_cast
  · rw [i1.eq_iff i2, div_left_inj' (ne_of_gt hoq)]; norm_cast

/-- comparisons with NaN are false; the infinities are beyond all numbers -/
theorem ieee_compare_special (x : F64) :
    (F64.lt .nan x = false ∧ F64.le .nan x = false ∧ F64.eq .nan x = false ∧ F64.lt x .nan = false ∧ F64.le x .nan = false ∧ F64.eq x .nan = false) ∧
    (x ≠ .nan → F64.le x (.inf false) = true ∧ F64.le (.inf true) x = true) ∧
    (∀ p, value x = some p → F64.lt x (.inf false) = true ∧ F64.lt (.inf true) x = true) := by
  refine ⟨?_, ?_, ?_⟩
  · cases x <;> simp [F64.lt, F64.le, F64.eq, F64.cmp]
  · cases x with
    | nan => simp
    | inf s => cases s <;> simp [F64.le, F64.cmp]
    | fin s m => simp [F64.le, F64.cmp]
  · intro p hp
    obtain ⟨a, m, rfl, rfl⟩ := value_some hp
    simp [F64.lt, F64.cmp]

/-- the fractional part is cut off; what does not fit gives the smallest `int64` (amd64) -/
theorem ieee_toInt64 {x : F64} {p : ℚ} (hx : value x = some p) :
    F64.toInt64 x = if -2 ^ 63 ≤ (if 0 ≤ p then ⌊p⌋ else ⌈p⌉) ∧ (if 0 ≤ p then ⌊p⌋ else ⌈p⌉) < 2 ^ 63 then (if 0 ≤ p then ⌊p⌋ else ⌈p⌉) else -2 ^ 63 := by
  obtain ⟨a, m, rfl, rfl⟩ := value_some hx
  have ho := one_pos
  have hoq := oneq_pos
  have hfl : ⌊(m : ℚ) / one⌋ = ((m / one : Nat) : Int) := by
    rw [Rat.floor_natCast_div_natCast]; rfl
  have ht : (if 0 ≤ ((signed a m : ℤ) / (one : ℚ)) then ⌊((signed a m : ℤ) / (one : ℚ))⌋ else ⌈((signed a m : ℤ) / (one : ℚ))⌉) = signed a (m / one) := by
    cases a
    · have : ((signed false m : ℤ) : ℚ) = m := by unfold signed; simp
      rw [this, if_pos (by positivity), hfl]; unfold signed; simp
    · have : ((signed true m : ℤ) : ℚ) = -m := by unfold signed; simp
      rw [this, neg_div, Int.ceil_neg, hfl]
      unfold signed
      simp only [if_true]
      split
      · rename_i hc
        have hm : (m : ℚ) / one = 0 := le_antisymm (by linarith) (by positivity)
        rw [hm, neg_zero, Int.floor_zero, ← hfl, hm, Int.floor_zero]; simp
      · rfl
  rw [ht]
  unfold F64.toInt64
  dsimp only
  by_cases h : signed a (m / one) < -2 ^ 63 ∨ 2 ^ 63 ≤ signed a (m / one)
  · rw [if_pos h, if_neg (by omega)]
  · rw [if_neg h, if_pos (by omega)]

theorem ieee_toInt64_special (x : F64) (h : value x = none) : F64.toInt64 x = -2 ^ 63 := by
  cases x <;> simp [value] at h <;> rfl

/-- rounding up -/
theorem ieee_ceil {x : F64} {p : ℚ} (hx : value x = some p) : value (F64.ceil x) = some (⌈p⌉ : ℚ) := by
  obtain ⟨a, m, rfl, rfl⟩ := value_some hx
  have ho := one_pos
  have hoq := oneq_pos
  have hdm := Nat.div_add_mod m one
  have hml := Nat.mod_lt m ho
  unfold F64.ceil
  dsimp only
  have hval : ∀ s k, value (.fin s (k * one)) = some ((signed s k : ℤ) : ℚ) := by
    intro s k
    rw [value_fin]
    congr 1
    unfold signed
    cases s <;> simp <;> field_simp
  by_cases h : m % one = 0
  · rw [if_pos h, value_fin]
    rw [h, Nat.add_zero] at hdm
    congr 1
    have e : ((signed a m : ℤ) : ℚ) / one = (signed a (m / one) : ℤ) := by
      have := hval a (m / one)
      rw [Nat.mul_comm, hdm, value_fin] at this
      exact Option.some.inj this
    rw [e, Int.ceil_intCast]
  · rw [if_neg h]
    have hm : (m : ℚ) = (m / one : Nat) * one + (m % one : Nat) := by
      rw [mul_comm]; exact_mod_cast hdm.symm
    clear hdm
    generalize m / one = k at *
    have hr0 : (0 : ℚ) < (m % one : Nat) := by exact_mod_cast Nat.pos_of_ne_zero h
    have hr1 : ((m % one : Nat) : ℚ) < one := by exact_mod_cast hml
    generalize ((m % one : Nat) : ℚ) = r at *
    cases a
    · rw [if_neg (by simp), hval]
      congr 2
      symm
      rw [Int.ceil_eq_iff]
      unfold signed
      simp only [Bool.false_eq_true, if_false]
      push_cast
      rw [div_le_iff₀ hoq, lt_div_iff₀ hoq]
      constructor <;> linarith
    · rw [if_pos rfl, hval]
      congr 2
      symm
      rw [Int.ceil_eq_iff]
      unfold signed
      simp only [if_true]
      push_cast
      rw [div_le_iff₀ hoq, lt_div_iff₀ hoq]
      constructor <;> linarith

/-- the invalid operations -/
theorem ieee_invalid (s a b : Bool) (x : F64) :
    F64.add (.inf s) (.inf (!s)) = .nan ∧ F64.sub (.inf s) (.inf s) = .nan ∧ F64.mul (.inf a) (.fin b 0) = .nan ∧
    F64.mul (.fin b 0) (.inf a) = .nan ∧ F64.div (.inf a) (.inf b) = .nan ∧ F64.div (.fin a 0) (.fin b 0) = .nan ∧
    F64.sqrt (.inf true) = .nan ∧ (∀ p, value x = some p → p < 0 → F64.sqrt x = .nan) := by
  refine ⟨?_, ?_, ?_, ?_, rfl, ?_, rfl, ?_⟩
  · cases s <;> rfl
  · cases s <;> rfl
  · unfold F64.mul; dsimp only; rw [if_pos rfl]
  · unfold F64.mul; dsimp only; rw [if_pos rfl]
  · unfold F64.div; dsimp only; rw [if_pos rfl, if_pos rfl]
  · intro p hx hp
    obtain ⟨c, m, rfl, rfl⟩ := value_some hx
    have hoq := oneq_pos
    have hneg : ((signed c m : ℤ) : ℚ) < 0 := by
      by_contra hc
      exact absurd hp (not_lt.2 (div_nonneg (not_lt.1 hc) hoq.le))
    have hneg : signed c m < 0 := by exact_mod_cast hneg
    cases c with
    | false => unfold signed at hneg; simp at hneg; omega
    | true =>
      have hm : m ≠ 0 := by rintro rfl; unfold signed at hneg; simp at hneg
      unfold F64.sqrt; dsimp only; rw [if_neg hm, if_pos rfl]

/-- NaN is inherited -/
theorem ieee_nan (x : F64) : F64.add .nan x = .nan ∧ F64.add x .nan = .nan ∧ F64.sub .nan x = .nan ∧ F64.sub x .nan = .nan ∧
    F64.mul .nan x = .nan ∧ F64.mul x .nan = .nan ∧ F64.div .nan x = .nan ∧ F64.div x .nan = .nan ∧ F64.sqrt .nan = .nan ∧ F64.ceil .nan = .nan := by
  cases x <;> simp [F64.add, F64.sub, F64.mul, F64.div, F64.sqrt, F64.ceil, F64.neg]

/-- the infinities in arithmetic with finite numbers; division by zero -/
theorem ieee_inf (a b : Bool) (x : F64) (p : ℚ) (hx : value x = some p) (hs : signBit x = some b) :
    F64.add (.inf a) x = .inf a ∧ F64.add x (.inf a) = .inf a ∧ F64.sub (.inf a) x = .inf a ∧ F64.sub x (.inf a) = .inf (!a) ∧
    F64.add (.inf a) (.inf a) = .inf a ∧ F64.mul (.inf a) (.inf b) = .inf (a != b) ∧
    (p ≠ 0 → F64.mul (.inf a) x = .inf (a != b) ∧ F64.mul x (.inf a) = .inf (a != b) ∧ F64.div x (.fin a 0) = .inf (b != a)) ∧
    F64.div (.inf a) x = .inf (a != b) ∧ F64.div x (.inf a) = .fin (b != a) 0 ∧ F64.sqrt (.inf false) = .inf false := by
  obtain ⟨c, m, rfl, rfl⟩ := value_some hx
  simp only [signBit, Option.some.injEq] at hs
  subst hs
  have hm : ((signed c m : ℤ) : ℚ) / one ≠ 0 → m ≠ 0 := by
    rintro h rfl
    apply h; unfold signed; cases c <;> simp
  refine ⟨rfl, rfl, rfl, rfl, ?_, rfl, ?_, rfl, rfl, rfl⟩
  · cases a <;> rfl
  · intro h
    have h := hm h
    refine ⟨?_, ?_, ?_⟩
    · unfold F64.mul; dsimp only; rw [if_neg h]
    · unfold F64.mul; dsimp only; rw [if_neg h]; cases a <;> cases c <;> rfl
    · unfold F64.div; dsimp only; rw [if_pos rfl, if_neg h]

/-- signs: of products and quotients, and of sums that are exactly zero -/
theorem ieee_sign {x y : F64} {a b : Bool} (hx : signBit x = some a) (hy : signBit y = some b) :
    (F64.mul x y ≠ .nan → signBit (F64.mul x y) = some (a != b)) ∧ (F64.div x y ≠ .nan → signBit (F64.div x y) = some (a != b)) ∧
    (∀ p, value x = some p → value y = some (-p) → F64.add x y = .fin (a && b) 0) ∧
    signBit (F64.neg x) = some (!a) ∧ (∀ p, value x = some p → 0 ≤ p → signBit (F64.sqrt x) = some a) := by
  have hmk : ∀ s m n, signBit (mk s m n) = some s := by
    intro s m n; unfold mk; split <;> rfl
  refine ⟨?_, ?_, ?_, ?_, ?_⟩
  · cases x <;> cases y <;> simp [signBit] at hx hy <;> subst hx <;> subst hy <;> unfold F64.mul <;> dsimp only
    · intro _; rfl
    · split <;> simp [signBit]
    · split <;> simp [signBit]
    · intro _; exact hmk _ _ _
  · cases x <;> cases y <;> simp [signBit] at hx hy <;> subst hx <;> subst hy <;> unfold F64.div <;> dsimp only
    · simp
    · intro _; rfl
    · intro _; rfl
    · split
      · split <;> simp [signBit]
      · intro _; exact hmk _ _ _
  · intro p h1 h2
    obtain ⟨c, m, rfl, rfl⟩ := value_some h1
    obtain ⟨d, n, rfl, e⟩ := value_some h2
    simp only [signBit, Option.some.injEq] at hx hy
    subst hx hy
    have hoq := oneq_pos
    rw [← neg_div, div_left_inj' (ne_of_gt hoq)] at e
    have e : -(signed c m) = signed d n := by exact_mod_cast e
    unfold F64.add
    dsimp only
    rw [if_pos (by omega)]
  · cases x <;> simp [signBit] at hx <;> subst hx <;> rfl
  · intro p h1 h2
    obtain ⟨c, m, rfl, rfl⟩ := value_some h1
    simp only [signBit, Option.some.injEq] at hx
    subst hx
    unfold F64.sqrt
    dsimp only
    by_cases hm : m = 0
    · rw [if_pos hm]; rfl
    · rw [if_neg hm]
      cases c with
      | false => rw [if_neg (by simp)]; rfl
      | true =>
        exfalso
        have hoq := oneq_pos
        have : ((signed true m : ℤ) : ℚ) < 0 := by
          unfold signed; simp; exact Nat.pos_of_ne_zero hm
        exact absurd h2 (not_le.2 (div_neg_of_neg_of_pos this hoq))

/-- `math.Float64frombits` decodes sign bit `s`, exponent bits `e` and fraction bits `f` as the standard says -/
theorem ieee_ofBits (b : U64) (s e f : Nat) (hs : s < 2) (he : e < 2048) (hf : f < 2 ^ 52) (hb : b.toNat = s * 2 ^ 63 + e * 2 ^ 52 + f) :
    (e = 2047 → f ≠ 0 → ofBits b = .nan) ∧ (e = 2047 → f = 0 → ofBits b = .inf (decide (s = 1))) ∧
    (e = 0 → value (ofBits b) = some ((-1) ^ s * ((f : ℚ) / 2 ^ 52) * 2 ^ (-1022 : ℤ))) ∧
    (e ≠ 0 → e ≠ 2047 → value (ofBits b) = some ((-1) ^ s * (1 + (f : ℚ) / 2 ^ 52) * 2 ^ ((e : ℤ) - 1023))) ∧
    (ofBits b ≠ .nan → signBit (ofBits b) = some (decide (s = 1))) := by
  have e1 : b.toNat / 2 ^ 63 = s := by omega
  have e2 : b.toNat / 2 ^ 52 % 2 ^ 11 = e := by omega
  have e3 : b.toNat % 2 ^ 52 = f := by omega
  have hd : ofBits b = if e = 2047 then (if f = 0 then .inf (decide (s = 1)) else .nan) else if e = 0 then .fin (decide (s = 1)) f
      else .fin (decide (s = 1)) ((2 ^ 52 + f) * 2 ^ (e - 1)) := by
    unfold ofBits
    dsimp only
    rw [e1, e2, e3]
  have hsg : ∀ m : Nat, ((signed (decide (s = 1)) m : ℤ) : ℚ) = (-1) ^ s * m := by
    intro m
    unfold signed
    rcases (by omega : s = 0 ∨ s = 1) with rfl | rfl <;> simp
  have h1074 : (2 : ℚ) ^ (1074 : ℕ) = 2 ^ (1074 : ℤ) := by exact (zpow_natCast 2 1074).symm
  have h52 : (2 : ℚ) ^ (52 : ℕ) = 2 ^ (52 : ℤ) := by exact (zpow_natCast 2 52).symm
  rw [hd]
  refine ⟨?_, ?_, ?_, ?_, ?_⟩
  · intro h1 h2; rw [if_pos h1, if_neg h2]
  · intro h1 h2; rw [if_pos h1, if_pos h2]
  · intro h1
    rw [if_neg (by omega), if_pos h1, value_fin, hsg]
    congr 1
    rw [one_q, h1074, h52, mul_assoc, mul_div_assoc, div_mul_eq_mul_div, mul_div_assoc, ← zpow_sub₀ (by norm_num), div_eq_mul_inv, ← zpow_neg]
    norm_num
  · intro h1 h2
    rw [if_neg h2, if_neg h1, value_fin, hsg]
    congr 1
    have hz : (2 : ℚ) ^ (e - 1 : ℕ) = 2 ^ ((e : ℤ) - 1) := by
      rw [← zpow_natCast]
      congr 1
      omega
    have h3 : (2 : ℚ) ^ ((e : ℤ) - 1) = 2 ^ ((e : ℤ) - 1023) * 2 ^ (1022 : ℤ) := by rw [← zpow_add₀ (by norm_num)]; congr 1; ring
    have h4 : (2 : ℚ) ^ (1074 : ℤ) = 2 ^ (1022 : ℤ) * 2 ^ (52 : ℤ) := by rw [← zpow_add₀ (by norm_num)]; rfl
    push_cast
    rw [one_q, h1074, hz, h3, h4, h52]
    have n1 : (2 : ℚ) ^ (1022 : ℤ) ≠ 0 := zpow_ne_zero _ (by norm_num)
    have n2 : (2 : ℚ) ^ (52 : ℤ) ≠ 0 := zpow_ne_zero _ (by norm_num)
    generalize (2 : ℚ) ^ (1022 : ℤ) = u at *
    generalize (2 : ℚ) ^ (52 : ℤ) = v at *
    generalize (2 : ℚ) ^ ((e : ℤ) - 1023) = w at *
    field_simp
    rw [← h52]
    ring
  · by_cases h1 : e = 2047
    · rw [if_pos h1]
      by_cases h2 : f = 0
      · rw [if_pos h2]; intro _; rfl
      · rw [if_neg h2]; intro h; exact absurd rfl h
    · rw [if_neg h1]
      by_cases h2 : e = 0
      · rw [if_pos h2]; intro _; rfl
      · rw [if_neg h2]; intro _; rfl

/-- encoding and decoding: every pattern that is not a NaN comes back, and so does every double -/
theorem ieee_bits_round_trip (b : U64) (x : F64) : (ofBits b ≠ .nan → toBits (ofBits b) = b) ∧ (IsDouble x → ofBits (toBits x) = x) := by
  constructor
  · intro h
    have hlt := b.isLt
    have hm : ∀ m, (∀ k, m = (2 ^ 52 + b.toNat % 2 ^ 52) * 2 ^ k → magBits m = (k + 1) * 2 ^ 52 + b.toNat % 2 ^ 52) := by
      intro m k hk
      subst hk
      have hs : shiftOf ((2 ^ 52 + b.toNat % 2 ^ 52) * 2 ^ k) = k := by
        apply Nat.le_antisymm
        · apply shiftOf_le_of_lt
          rw [Nat.pow_add]
          exact (Nat.mul_lt_mul_right (Nat.two_pow_pos k)).2 (by omega)
        · apply le_shiftOf_of_le
          rw [Nat.pow_add]
          exact Nat.mul_le_mul_right _ (by omega)
      unfold magBits
      rw [hs, Nat.mul_div_cancel _ (Nat.two_pow_pos k)]
      omega
    have hm0 : ∀ m, m < 2 ^ 52 → magBits m = m := by
      intro m hm
      have hs : shiftOf m = 0 := Nat.le_zero.1 (shiftOf_le_of_lt (by omega))
      unfold magBits
      rw [hs]; simp
    apply BitVec.eq_of_toNat_eq
    unfold ofBits at *
    dsimp only at *
    by_cases h1 : b.toNat / 2 ^ 52 % 2 ^ 11 = 2047
    · rw [if_pos h1] at *
      by_cases h2 : b.toNat % 2 ^ 52 = 0
      · rw [if_pos h2] at *
        unfold toBits
        dsimp only
        rw [BitVec.toNat_ofNat]
        by_cases h3 : b.toNat / 2 ^ 63 = 1
        · simp only [h3, decide_true, if_true]; omega
        · simp only [h3, decide_false, Bool.false_eq_true, if_false]; omega
      · rw [if_neg h2] at h; exact absurd rfl h
    · rw [if_neg h1] at *
      by_cases h2 : b.toNat / 2 ^ 52 % 2 ^ 11 = 0
      · rw [if_pos h2] at *
        unfold toBits
        dsimp only
        rw [hm0 _ (by omega), BitVec.toNat_ofNat]
        by_cases h3 : b.toNat / 2 ^ 63 = 1
        · simp only [h3, decide_true, if_true]; omega
        · simp only [h3, decide_false, Bool.false_eq_true, if_false]; omega
      · rw [if_neg h2] at *
        unfold toBits
        dsimp only
        rw [hm _ _ rfl, BitVec.toNat_ofNat]
        by_cases h3 : b.toNat / 2 ^ 63 = 1
        · simp only [h3, decide_true, if_true]; omega
        · simp only [h3, decide_false, Bool.false_eq_true, if_false]; omega
  · rintro ⟨c, rfl⟩
    exact ofBits_toBits (wf_ofBits c)

/-- a concrete case: a third, rounded, times 3 -/
example : Rounded ((1 : ℝ) / 3) (F64.dec 1 3) := by
  have := ieee_dec 1 3 (by omega)
  push_cast at this
  exact this

end Starbow.Props
