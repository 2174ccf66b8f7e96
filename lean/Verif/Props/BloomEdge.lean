import Verif.Props.BloomRate
/-
Property C63 outside its domain: rates that are no probability, and rate 1.
-/
namespace Starbow.Props
open Starbow.Spec Starbow.Bloom Starbow.Hll

/-- not a number or infinite -/
theorem not_finite {x : F64} (h : value x = none) : x = .nan ∨ ∃ s, x = .inf s := by
  cases x with
  | nan => exact .inl rfl
  | inf s => exact .inr ⟨s, rfl⟩
  | fin s m => simp [value] at h

theorem mul_not_finite (x y : F64) (h : value y = none) : value (F64.mul x y) = none := by
  rcases not_finite h with rfl | ⟨s, rfl⟩
  · cases x <;> rfl
  · cases x with
    | nan => rfl
    | inf a => rfl
    | fin a m =>
      rw [F64.mul]
      split_ifs <;> rfl

theorem div_not_finite (x y : F64) (hx : value x = none) (hy : value y ≠ none) : value (F64.div x y) = none := by
  rcases not_finite hx with rfl | ⟨s, rfl⟩
  · cases y <;> rfl
  · cases y with
    | nan => rfl
    | inf a => rfl
    | fin a m => rfl

theorem ceil_not_finite (x : F64) (h : value x = none) : F64.toInt64 (F64.ceil x) = -2 ^ 63 := by
  rcases not_finite h with rfl | ⟨s, rfl⟩ <;> rfl

theorem value_ln2Sq : value ln2Sq ≠ none := by
  obtain ⟨c, rc, hc⟩ := ln2Sq_is
  obtain ⟨u, eu, hu⟩ := rc
  rw [eu]
  simp [value]

/-- **C63, rates that are no probability**: if the logarithm of `p` is not a finite number (math.Log says so of 0, of negative numbers, of NaN and of +Inf), New(n, p) panics,
whatever `n` is; and Len(n, p) is negative. -/
theorem C63_rate_panics (lib : MathLib) (n : Int) (p : F64) (h : value (lib.log p) = none) : new lib n p = .panic ∧ lenFor lib n p < 0 := by
  have hm : F64.toInt64 (F64.ceil (F64.div (F64.mul (F64.neg (F64.ofInt n)) (lib.log p)) ln2Sq)) = -2 ^ 63 :=
    ceil_not_finite _ (div_not_finite _ _ (mul_not_finite _ _ h) value_ln2Sq)
  constructor
  · simp only [Bloom.new, mk, hm]
    unfold newBits Bitbucket.new
    rw [if_neg (by decide), show Bitbucket.makeBytes (Bitbucket.length (-2 ^ 63) 1#8) = .panic by decide +kernel]
    rfl
  · simp only [lenFor, mk, hm]
    decide +kernel

/-- an instance of its hypothesis: a logarithm as math.Log is, −Inf at 0 and as accurate as C63 asks everywhere else -/
example : ∃ lib : MathLib, LogOk lib.log ∧ value (lib.log F64.zero) = none := by
  classical
  refine ⟨⟨fun x => if x = F64.zero then .inf true else refLog x, refExp, refPow⟩, ?_, ?_⟩
  · intro x q hd hv hq
    have hx : x ≠ F64.zero := by
      rintro rfl
      have h0 : value F64.zero = some 0 := by simp [F64.zero, value]
      rw [h0] at hv
      have := Option.some.inj hv
      linarith
    simp only [if_neg hx]
    exact refLog_ok x q hd hv hq
  · simp [value]

/-- **C63, rate 1**: for 1 ≤ n ≤ 2^53, New(n, 1) returns a filter without bits and without hash functions; it reports every value as present, before and after any
values are added (a rate of 1 is what was asked for), and nothing panics. -/
theorem C63_rate_one (lib : MathLib) (hl : LogOk lib.log) (n : Nat) (hn1 : 1 ≤ n) (hn : n ≤ 2 ^ 53) (p : F64) (hd : IsDouble p) (hv : value p = some 1) :
    ∃ b0, new lib (n : Int) p = .val b0 ∧ ∀ h : AddHist, runBloom b0 h = .val b0 ∧ ∀ v, has b0 v = .val true := by
  obtain ⟨r, er, hr⟩ := hl p 1 hd hv (by norm_num)
  have ho := F64.one_pos
  have hr0 : r = 0 := by
    rw [Rat.cast_one, Real.log_one, sub_zero, abs_zero, zero_div] at hr
    have := abs_nonpos_iff.1 hr
    exact_mod_cast this
  obtain ⟨c, rc, hc⟩ := ln2Sq_is
  obtain ⟨c', rc', _⟩ := ln2_is
  obtain ⟨u, eu, hu⟩ := rc
  obtain ⟨u', eu', hu'⟩ := rc'
  have hu0 : u ≠ 0 := by
    intro h
    rw [h] at hu
    have l1 := Real.log_two_gt_d9
    have hsq : (0.4 : ℝ) ≤ Real.log 2 ^ 2 := by
      calc (0.4 : ℝ) ≤ 0.6931471803 ^ 2 := by norm_num
        _ ≤ _ := pow_le_pow_left₀ (by norm_num) l1.le 2
    rw [hu, Nat.cast_zero, zero_div, zero_sub, abs_neg, abs_of_nonneg (by positivity)] at hc
    generalize Real.log 2 ^ 2 = S at *
    clear * - hc hsq
    norm_num at *; linarith
  have hni : F64.ofInt (n : Int) = .fin false (n * F64.one) := ofInt_is hn
  have hn0 : n * F64.one ≠ 0 := Nat.mul_ne_zero (by omega) ho.ne'
  have hz0 : ∀ s, F64.toInt64 (F64.ceil (.fin s 0)) = 0 := by
    intro s
    rw [F64.ceil, if_pos (Nat.zero_mod _)]
    have := toInt64_is 0 (by omega) s (.inl rfl)
    rwa [Nat.zero_mul] at this
  have em : F64.toInt64 (F64.ceil (F64.div (F64.mul (F64.neg (F64.ofInt (n : Int))) (lib.log p)) ln2Sq)) = 0 := by
    cases hlp : lib.log p with
    | nan => rw [hlp] at er; simp [value] at er
    | inf s => rw [hlp] at er; simp [value] at er
    | fin s a =>
      have ha : a = 0 := by
        rw [hlp, hr0] at er
        simp only [value, Option.some.injEq] at er
        split_ifs at er with hs
        · simpa using er
        · simpa using er
      rw [ha, hni, eu, F64.neg, F64.mul, Nat.mul_zero, F64.mk, F64.rnd_zero _ ho, if_pos F64.limit_pos, F64.div, if_neg hu0, Nat.zero_mul,
        F64.mk, F64.rnd_zero _ (Nat.pos_of_ne_zero hu0), if_pos F64.limit_pos]
      exact hz0 _
  have hz : F64.ofInt 0 = .fin false 0 := by
    have := ofInt_is (n := 0) (by omega)
    rwa [Nat.zero_mul] at this
  have hmk : mk lib (n : Int) p = (0, 0#8) := by
    simp only [mk]
    rw [em, hz, eu', hni, F64.mul, Nat.mul_zero, F64.mk, F64.rnd_zero _ ho, if_pos F64.limit_pos, F64.div, if_neg hn0, Nat.zero_mul,
      F64.mk, F64.rnd_zero _ (Nat.pos_of_ne_zero hn0), if_pos F64.limit_pos, hz0]
    rw [F64.ceil, if_pos (Nat.zero_mod _)]
    split_ifs with hlt
    · rfl
    · exfalso
      apply hlt
      rw [show F64.ofNat 255 = .fin false (255 * F64.one) from ofNat_is (by omega)]
      have h255 : 0 < 255 * F64.one := Nat.mul_pos (by omega) ho
      generalize 255 * F64.one = w at h255
      refine (F64.Is.lt_iff (z := 0) (w := (w : Int)) ⟨_, _, rfl, ?_⟩ ⟨_, _, rfl, ?_⟩).2 (by omega)
      · cases ((false != false) != false) <;> rfl
      · rfl
  have hnew : new lib (n : Int) p = .val ⟨⟨[], 0, 1#8⟩, 0, 0#8⟩ := by
    unfold Bloom.new
    rw [hmk]
    decide
  have hadd : ∀ v, add ⟨⟨[], 0, 1#8⟩, 0, 0#8⟩ v = .val ⟨⟨[], 0, 1#8⟩, 0, 0#8⟩ := fun v => rfl
  refine ⟨_, hnew, fun h => ⟨?_, fun v => rfl⟩⟩
  induction h with
  | nil => rfl
  | cons x h ih =>
    cases x with
    | some v => rw [runBloom, hadd]; exact ih
    | none => rw [runBloom]; exact ih

end Starbow.Props
