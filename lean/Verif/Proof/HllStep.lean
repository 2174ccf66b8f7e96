import Verif.Proof.HllErtl
/-
Raising one register does not raise the denominator of `PoissonCount` of hll.go, rounding included.
-/
namespace Starbow.Hll
open Starbow F64 Stat64 Spec

/-! ### the fold -/

/-- one round of the fold -/
def fstep (Z n : Nat) : Nat := rnd (2 ^ (expOne - 1) * rnd (Z + n * one) 1) one

/-- the fold, with any round -/
def foldG (g : Nat → Nat → Nat) (C : Nat → Nat) : Nat → Nat → Nat
  | 0, Z => Z
  | k + 1, Z => foldG g C k (g Z (C (k + 1)))

/-- the fold -/
def foldN (C : Nat → Nat) (k Z : Nat) : Nat := foldG fstep C k Z

theorem foldN_zero (C : Nat → Nat) (Z : Nat) : foldN C 0 Z = Z := by rw [foldN, foldG]

theorem foldN_succ (C : Nat → Nat) (k Z : Nat) : foldN C (k + 1) Z = foldN C k (fstep Z (C (k + 1))) := by rw [foldN, foldG, foldN]

theorem fold_exact {Z n : Nat} (hZ : Z ≤ 2 ^ 30 * one) (hn : n ≤ 2 ^ 18) :
    F64.mul (F64.dec 1 2) (F64.add (.fin false Z) (F64.ofNat n)) = .fin false (fstep Z n) ∧ fstep Z n ≤ 2 ^ 30 * one ∧
      (rv Z + n) / 2 * (1 - 1 / 2 ^ 51) - eta ≤ rv (fstep Z n) ∧ rv (fstep Z n) ≤ (rv Z + n) / 2 * (1 + 1 / 2 ^ 51) + eta := by
  obtain ⟨R, e, h1, h2, h3⟩ := fold_round hZ hn
  have : R = fstep Z n := by
    rw [ofNat_is (by omega)] at e
    obtain ⟨e1, b1⟩ := add_le_rep (x := .fin false Z) (y := .fin false (n * one)) rfl rfl (rep_pow_one 31) (pow_one_lt (by omega)) (by
      have : n * one ≤ 2 ^ 18 * one := Nat.mul_le_mul_right _ hn
      omega)
    rw [e1] at e
    have hh : 2 ^ (expOne - 1) * 2 = one := by
      rw [one_eq, ← Nat.pow_succ]; congr 1; rw [expOne_eq]
    obtain ⟨e2, b2⟩ := mul_le_rep (x := F64.dec 1 2) (y := .fin false (rnd (Z + n * one) 1)) half_is rfl (rep_pow_one 30)
      (pow_one_lt (by omega)) (by
        calc 2 ^ (expOne - 1) * rnd (Z + n * one) 1 ≤ 2 ^ (expOne - 1) * (2 ^ 31 * one) := Nat.mul_le_mul_left _ b1
          _ = 2 ^ 30 * (2 ^ (expOne - 1) * 2) * one := by ring
          _ = _ := by rw [hh])
    rw [e2] at e
    injection e with _ e
    exact e.symm
  subst this
  exact ⟨e, h1, h2, h3⟩

theorem foldN_is {cn : List Nat} {C : Nat → Nat} (hC : ∀ j, cn.getD j 0 = C j) (hcn : ∀ j, C j ≤ 2 ^ 18) : ∀ (k : Nat) {Z : Nat}, Z ≤ 2 ^ 30 * one →
    foldLoop cn k (.fin false Z) = .fin false (foldN C k Z) ∧ foldN C k Z ≤ 2 ^ 30 * one := by
  intro k
  induction k with
  | zero => intro Z h; rw [foldN_zero]; exact ⟨rfl, h⟩
  | succ k ih =>
    intro Z h
    obtain ⟨e, b, _⟩ := fold_exact h (hcn (k + 1))
    rw [foldLoop, foldN_succ, hC, e]
    exact ih b

theorem fstep_mono {Z Z' n n' : Nat} (h : Z' + n' * one ≤ Z + n * one) : fstep Z' n' ≤ fstep Z n := by
  unfold fstep
  have ho := F64.one_pos
  exact rnd_mono ho ho (Nat.mul_le_mul_right _ (Nat.mul_le_mul_left _ (rnd_mono (by omega) (by omega) (by omega))))

/-- one more is a half more after a round -/
theorem fstep_near {Z Z' n n' : Nat} (hZ : Z ≤ 2 ^ 30 * one) (hZ' : Z' ≤ 2 ^ 30 * one) (hn : n ≤ 2 ^ 18) (hn' : n' ≤ 2 ^ 18)
    (h : rv Z' + n' ≤ rv Z + n + 1) : rv (fstep Z' n') ≤ rv (fstep Z n) + (1 / 2 + 1 / 2 ^ 18) := by
  obtain ⟨_, _, l, _⟩ := fold_exact hZ hn
  obtain ⟨_, _, _, u⟩ := fold_exact hZ' hn'
  have hη := eta_small
  have hz : rv Z ≤ 2 ^ 30 := by have := rv_le hZ; rw [rv_mul_one] at this; exact_mod_cast this
  have hc : (n : ℝ) ≤ 2 ^ 18 := by exact_mod_cast hn
  generalize rv (fstep Z' n') = a at *
  generalize rv (fstep Z n) = b at *
  generalize rv Z = z at *
  generalize rv Z' = z' at *
  generalize (n : ℝ) = c at *
  generalize (n' : ℝ) = c' at *
  generalize eta = η at *
  norm_num at *
  linarith

/-- fewer registers, smaller sum -/
theorem fold_paid {C C' : Nat → Nat} : ∀ (k : Nat) {Z Z' : Nat}, (∀ j, 1 ≤ j → j ≤ k → C' j ≤ C j) → Z' ≤ Z → foldN C' k Z' ≤ foldN C k Z := by
  intro k
  induction k with
  | zero => intro Z Z' _ h; rw [foldN_zero, foldN_zero]; exact h
  | succ k ih =>
    intro Z Z' hC h
    rw [foldN_succ, foldN_succ]
    refine ih (fun j h1 h2 => hC j h1 (by omega)) (fstep_mono ?_)
    have := Nat.mul_le_mul_right one (hC (k + 1) (by omega) (Nat.le_refl _))
    omega

theorem nat_of_rv {Y Z : Nat} (h : rv Y ≤ rv Z + 1) : Y ≤ Z + one := by
  have ho := one_real_pos
  unfold rv at h
  rw [div_le_iff₀ ho, add_mul, div_mul_cancel₀ _ ho.ne', one_mul] at h
  exact_mod_cast h

/-- the register has been counted where it is now, and not yet where it was (`a`) -/
theorem fold_debt {C C' : Nat → Nat} {a : Nat} (hb : ∀ j, C j ≤ 2 ^ 18) (hsame : ∀ j, j ≠ a → C' j ≤ C j)
    (ha : C' a + 1 ≤ C a) : ∀ (k : Nat) {Z Z' : Nat}, Z ≤ 2 ^ 30 * one → Z' ≤ 2 ^ 30 * one → rv Z' ≤ rv Z + (1 / 2 + 1 / 2 ^ 18) →
    (1 ≤ a → a ≤ k → foldN C' k Z' ≤ foldN C k Z) ∧ (a = 0 → rv (foldN C' k Z') ≤ rv (foldN C k Z) + (1 / 2 + 1 / 2 ^ 18)) := by
  have hb' : ∀ j, C' j ≤ 2 ^ 18 := fun j => by
    by_cases e : j = a
    · subst e; have := hb j; omega
    · exact Nat.le_trans (hsame j e) (hb j)
  intro k
  induction k with
  | zero => intro Z Z' _ _ h; exact ⟨fun h1 h2 => by omega, fun _ => by rw [foldN_zero, foldN_zero]; exact h⟩
  | succ k ih =>
    intro Z Z' hZ hZ' h
    rw [foldN_succ, foldN_succ]
    by_cases e : a = k + 1
    · refine ⟨fun _ _ => ?_, fun h0 => by omega⟩
      refine fold_paid k (fun j _ h2 => hsame j (by omega)) (fstep_mono ?_)
      have h1 := nat_of_rv (show rv Z' ≤ rv Z + 1 by norm_num at *; linarith)
      have h2 := Nat.mul_le_mul_right one ha
      rw [Nat.add_mul, Nat.one_mul] at h2
      rw [← e]
      omega
    · have hle := hsame (k + 1) (fun h => e h.symm)
      have hler : (C' (k + 1) : ℝ) ≤ C (k + 1) := by exact_mod_cast hle
      have := ih (fold_exact hZ (hb (k + 1))).2.1 (fold_exact hZ' (hb' (k + 1))).2.1
        (fstep_near hZ hZ' (hb _) (hb' _) (by
          have h5 : (1 / 2 + 1 / 2 ^ 18 : ℝ) ≤ 1 := by norm_num
          linarith))
      exact ⟨fun h1 h2 => this.1 h1 (by omega), this.2⟩

/-- a register is raised from `a` to `b` -/
theorem fold_bump {C C' : Nat → Nat} {a b : Nat} (hab : a < b) (hb : ∀ j, C j ≤ 2 ^ 18) (hb' : ∀ j, C' j ≤ 2 ^ 18)
    (hsame : ∀ j, j ≠ a → j ≠ b → C' j = C j) (ha : C' a + 1 = C a) (hbb : C' b = C b + 1) : ∀ (k : Nat) {Z : Nat}, b ≤ k → Z ≤ 2 ^ 30 * one →
    (1 ≤ a → foldN C' k Z ≤ foldN C k Z) ∧ (a = 0 → rv (foldN C' k Z) ≤ rv (foldN C k Z) + (1 / 2 + 1 / 2 ^ 18)) := by
  intro k
  induction k with
  | zero => intro Z h; omega
  | succ k ih =>
    intro Z hk hZ
    by_cases e : b = k + 1
    · rw [foldN_succ, foldN_succ]
      -- below `b` the counts differ only at `a`
      have h1 : ∀ j, foldN C' k j = foldN (fun i => if i = b then C b else C' i) k j := by
        have : ∀ (n : Nat), n ≤ k → ∀ j, foldN C' n j = foldN (fun i => if i = b then C b else C' i) n j := by
          intro n
          induction n with
          | zero => intro _ j; rw [foldN_zero, foldN_zero]
          | succ n ihn =>
            intro hn j
            rw [foldN_succ, foldN_succ, ihn (by omega), if_neg (by omega)]
        exact this k (Nat.le_refl _)
      rw [h1]
      have hn := fstep_near hZ hZ (hb (k + 1)) (hb' (k + 1)) (by rw [← e, hbb]; push_cast; linarith)
      have := fold_debt (C := C) (C' := fun i => if i = b then C b else C' i) (a := a) hb (fun j hj => by
          by_cases e2 : j = b
          · rw [if_pos e2, e2]
          · rw [if_neg e2, hsame j hj e2]) (by rw [if_neg (by omega)]; omega) k (fold_exact hZ (hb (k + 1))).2.1 (fold_exact hZ (hb' (k + 1))).2.1 hn
      exact ⟨fun h => this.1 h (by omega), this.2⟩
    · rw [foldN_succ, foldN_succ, hsame (k + 1) (by omega) (fun h => e h.symm)]
      exact ih (by omega) (fold_exact hZ (hb (k + 1))).2.1

/-! ### the tally -/

theorem exactly_same {f f' : Nat → Nat} (r : Nat) : ∀ (k i : Nat), (∀ j, i ≤ j → j < i + k → f' j = f j) → exactly f' r i k = exactly f r i k := by
  intro k i h
  unfold exactly
  apply List.countP_congr
  intro j hj
  rw [List.mem_range'_1] at hj
  rw [h j hj.1 hj.2]

/-- one register is changed from `a` to `b` -/
theorem exactly_change {f f' : Nat → Nat} {i₀ : Nat} (h : ∀ j, j ≠ i₀ → f' j = f j) (r : Nat) : ∀ (k i : Nat), i ≤ i₀ → i₀ < i + k →
    exactly f' r i k + (if f i₀ = r then 1 else 0) = exactly f r i k + (if f' i₀ = r then 1 else 0) := by
  intro k
  induction k with
  | zero => intro i h1 h2; omega
  | succ k ih =>
    intro i h1 h2
    have hs : ∀ g : Nat → Nat, exactly g r i (k + 1) = exactly g r (i + 1) k + (if g i = r then 1 else 0) := by
      intro g
      unfold exactly
      rw [List.range'_succ, List.countP_cons]
      simp
    rw [hs, hs]
    by_cases e : i = i₀
    · subst e
      rw [exactly_same r k (i + 1) (fun j hj _ => h j (by omega))]
      omega
    · rw [h i e]
      have := ih (i + 1) (by omega) (by omega)
      omega

/-! ### the two ends -/

theorem sigma_summable {x : ℝ} (h0 : 0 ≤ x) (h1 : x < 1) : Summable fun k : ℕ => x ^ 2 ^ (k + 1) * 2 ^ k := by
  have hn : Summable fun n : ℕ => (n : ℝ) ^ 1 * x ^ n := summable_pow_mul_geometric_of_norm_lt_one 1 (by rw [Real.norm_eq_abs, abs_of_nonneg h0]; exact h1)
  have hi : Function.Injective fun k : ℕ => 2 ^ (k + 1) := fun a b h => by
    have := Nat.pow_right_injective (Nat.le_refl 2) h
    omega
  have := (hn.comp_injective hi).mul_right (1 / 2)
  refine this.congr fun k => ?_
  simp only [Function.comp]
  push_cast
  rw [pow_one, pow_succ]; ring

/-- `σ(x) - x` grows -/
theorem sigma_mono {x y : ℝ} (h0 : 0 ≤ x) (hxy : x ≤ y) (h1 : y < 1) : ertlSigma x - x ≤ ertlSigma y - y := by
  unfold ertlSigma
  have := (sigma_summable h0 (lt_of_le_of_lt hxy h1)).tsum_le_tsum (fun k => mul_le_mul_of_nonneg_right (pow_le_pow_left₀ h0 hxy (2 ^ (k + 1))) (by positivity))
    (sigma_summable (le_trans h0 hxy) h1)
  linarith

/-- `x/3 + τ(x)` grows -/
theorem tau_third {x y : ℝ} (h0 : 0 ≤ x) (hxy : x ≤ y) (h1 : y ≤ 1) : x / 3 + ertlTau x ≤ y / 3 + ertlTau y := by
  have hsum : ∀ {z : ℝ}, 0 ≤ z → z ≤ 1 → Summable fun k : ℕ => (1 - z ^ ((1 / 2 : ℝ) ^ (k + 1))) ^ 2 * (1 / 2 : ℝ) ^ (k + 1) := fun {z} hz0 hz1 => by
    refine Summable.of_nonneg_of_le (fun k => by positivity) (fun k => ?_) half_summable
    have a := rt_nonneg hz0 (k + 1)
    have b := rt_le_one hz0 hz1 (k + 1)
    unfold rt at a b
    refine mul_le_of_le_one_left (by positivity) ?_
    nlinarith
  have hle := (hsum (le_trans h0 hxy) h1).tsum_le_tsum (fun k => by
    have a := rt_le_one (le_trans h0 hxy) h1 (k + 1)
    have b : rt x (k + 1) ≤ rt y (k + 1) := Real.rpow_le_rpow h0 hxy (by positivity)
    unfold rt at a b
    apply mul_le_mul_of_nonneg_right _ (by positivity)
    apply pow_le_pow_left₀ <;> linarith) (hsum h0 (le_trans hxy h1))
  unfold ertlTau
  linarith

/-- `x + τ(x)` grows -/
theorem tau_mono {x y : ℝ} (h0 : 0 ≤ x) (hxy : x ≤ y) (h1 : y ≤ 1) : x + ertlTau x ≤ y + ertlTau y := by
  have := tau_third h0 hxy h1
  linarith

/-- one empty register fewer: `m σ` drops by enough -/
theorem sigma_drop {c m : ℝ} (hc : 1 ≤ c) (hcm : c < m) (hm : m ≤ 2 ^ 18) :
    ertlSigma ((c - 1) / m) * (1 + 1 / 2 ^ 29) + (1 / 2 + 1 / 2 ^ 10) / m ≤ ertlSigma (c / m) * (1 - 1 / 2 ^ 29) := by
  have hm0 : 0 < m := by linarith
  have hx0 : 0 ≤ c / m := by positivity
  have hx1 : c / m < 1 := by rw [div_lt_one hm0]; exact hcm
  have hy0 : 0 ≤ (c - 1) / m := div_nonneg (by linarith) hm0.le
  have hyx : (c - 1) / m ≤ c / m := div_le_div_of_nonneg_right (by linarith) hm0.le
  have hfac : (c - 1) / m = c / m * (1 - 1 / c) := by field_simp
  have hq0 : 0 ≤ 1 - 1 / c := by
    rw [sub_nonneg, div_le_one (by linarith)]; exact hc
  have hq1 : 1 - 1 / c ≤ 1 := by
    have : 0 ≤ 1 / c := by positivity
    linarith
  have hdiff : (c - 1) / m = c / m - 1 / m := by ring
  -- every term drops by its `c`-th part
  have hterm : ∑' k : ℕ, ((c - 1) / m) ^ 2 ^ (k + 1) * 2 ^ k ≤ (1 - 1 / c) * ∑' k : ℕ, (c / m) ^ 2 ^ (k + 1) * 2 ^ k := by
    rw [← tsum_mul_left]
    refine (sigma_summable hy0 (lt_of_le_of_lt hyx hx1)).tsum_le_tsum (fun k => ?_) ((sigma_summable hx0 hx1).mul_left _)
    rw [hfac, mul_pow]
    have h1 : (1 - 1 / c) ^ 2 ^ (k + 1) ≤ 1 - 1 / c := by
      have := pow_le_pow_of_le_one hq0 hq1 (show 1 ≤ 2 ^ (k + 1) from Nat.one_le_two_pow)
      rwa [pow_one] at this
    have h2 : 0 ≤ (c / m) ^ 2 ^ (k + 1) * 2 ^ k := by positivity
    nlinarith
  have hrest : 0 ≤ ∑' k : ℕ, (c / m) ^ 2 ^ (k + 1) * 2 ^ k := tsum_nonneg fun k => by positivity
  unfold ertlSigma
  generalize (∑' k : ℕ, (c / m) ^ 2 ^ (k + 1) * 2 ^ k) = S at *
  generalize (∑' k : ℕ, ((c - 1) / m) ^ 2 ^ (k + 1) * 2 ^ k) = T at *
  rw [hdiff] at hy0 ⊢
  have h3 : 1 / 2 ^ 18 * S ≤ 1 / c * S := mul_le_mul_of_nonneg_right (one_div_le_one_div_of_le (by linarith) (by linarith)) hrest
  have h4 : T ≤ S - 1 / 2 ^ 18 * S := by linarith
  have h5 : (1 : ℝ) / 2 ^ 18 ≤ 1 / m := one_div_le_one_div_of_le hm0 hm
  have h6 : (1 / 2 + 1 / 2 ^ 10) / m = (1 / 2 + 1 / 2 ^ 10) * (1 / m) := by ring
  rw [h6]
  generalize 1 / m = u at *
  generalize c / m = x at *
  clear hterm hfac hyx hq0 hq1 h3 h6
  norm_num at *
  linarith

/-! ### the denominator -/

/-- the parts of the denominator -/
theorem poisson_eq {c : Counter} (h : WF c) {f : Nat → Nat}
    (hf : ∀ i, i < 2 ^ c.p.toNat → (Bitbucket.field c.bits.data (i * c.bits.w.toNat) c.bits.w.toNat).toNat = f i)
    (h0 : exactly f 0 0 (2 ^ c.p.toNat) < 2 ^ c.p.toNat) :
    ∃ t s, tau (exactly f (64 - c.p.toNat + 1) 0 (2 ^ c.p.toNat) : Nat) ((2 ^ c.p.toNat : Nat) : Int) = .val (.fin false t) ∧
      sigma (exactly f 0 0 (2 ^ c.p.toNat) : Nat) ((2 ^ c.p.toNat : Nat) : Int) = .val (.fin false s) ∧
      rnd (2 ^ c.p.toNat * one * t) one ≤ 2 ^ 30 * one ∧
      poisson c = .val (.fin false (rnd (foldN (fun r => exactly f r 0 (2 ^ c.p.toNat)) (64 - c.p.toNat) (rnd (2 ^ c.p.toNat * one * t) one)
        + rnd (2 ^ c.p.toNat * one * s) one) 1)) := by
  have hp := h.p18
  have hp4 := h.p4
  have hn : c.bits.n.toNat = 2 ^ c.p.toNat := by rw [h.n, Int.toNat_natCast]
  have h18 : 2 ^ c.p.toNat ≤ 2 ^ 18 := Nat.pow_le_pow_right (by omega) hp
  have ho := F64.one_pos
  unfold poisson
  simp only
  rw [mInt_eq c.p h.p18, Int.toNat_natCast]
  obtain ⟨cn, e, hC⟩ := tally_exactly h.bits h.w (f := f) (m := 2 ^ c.p.toNat) (by rw [hn]; exact hf) (by omega)
  have hcn : ∀ j, exactly f j 0 (2 ^ c.p.toNat) ≤ 2 ^ c.p.toNat := fun j => by
    unfold exactly
    refine Nat.le_trans List.countP_le_length ?_
    rw [List.length_range']
  rw [e, Out.bind_val, if_neg (by omega)]
  have eq1 : ((64 : Int) - c.p.toNat + 1).toNat = 64 - c.p.toNat + 1 := by omega
  have eq2 : ((64 : Int) - c.p.toNat).toNat = 64 - c.p.toNat := by omega
  rw [eq1, eq2, hC, hC]
  obtain ⟨t, et, bt, ht, ht0⟩ := tau_close hp (hcn (64 - c.p.toNat + 1))
  obtain ⟨s, es, hsrep, bs, hs, hs0⟩ := sigma_close hp h0
  rw [et, Out.bind_val, es, Out.bind_val]
  refine ⟨t, s, rfl, rfl, ?_⟩
  obtain ⟨em, bm⟩ := mul_le_rep (x := F64.ofInt ((2 ^ c.p.toNat : Nat) : Int)) (y := .fin false t) (ofInt_is (by omega)) rfl
    (rep_pow_one 30) (pow_one_lt (by omega)) (by
      calc 2 ^ c.p.toNat * one * t ≤ 2 ^ 18 * one * (1075 * one) := Nat.mul_le_mul (Nat.mul_le_mul_right _ h18) bt
        _ = 2 ^ 18 * 1075 * one * one := by ring
        _ ≤ _ := Nat.mul_le_mul_right _ (Nat.mul_le_mul_right _ (by omega)))
  refine ⟨bm, ?_⟩
  obtain ⟨eY, bY⟩ := foldN_is (cn := cn) (C := fun r => exactly f r 0 (2 ^ c.p.toNat)) hC (fun j => Nat.le_trans (hcn j) h18) (64 - c.p.toNat) bm
  rw [em, eY]
  obtain ⟨es', bs'⟩ := mul_le_rep (x := F64.ofInt ((2 ^ c.p.toNat : Nat) : Int)) (y := .fin false s) (ofInt_is (by omega)) rfl
    (rep_pow_one 60) (pow_one_lt (by omega)) (by
      calc 2 ^ c.p.toNat * one * s ≤ 2 ^ 18 * one * (2 ^ 42 * one) := Nat.mul_le_mul (Nat.mul_le_mul_right _ h18) bs
        _ = 2 ^ 60 * one * one := by ring)
  rw [es']
  obtain ⟨ea, ba⟩ := add_le_rep (x := .fin false (foldN (fun r => exactly f r 0 (2 ^ c.p.toNat)) (64 - c.p.toNat) (rnd (2 ^ c.p.toNat * one * t) one)))
    (y := .fin false (rnd (2 ^ c.p.toNat * one * s) one)) rfl rfl
    (rep_pow_one 61) (pow_one_lt (by omega)) (by
      have : 2 ^ 30 * one ≤ 2 ^ 60 * one := Nat.mul_le_mul_right _ (by omega)
      omega)
  exact congrArg Out.val ea

/-- one empty register fewer -/
theorem sigma_part {p n s s' : Nat} (hp : p ≤ 18) (hn : n + 1 < 2 ^ p)
    (es : sigma ((n + 1 : Nat) : Int) ((2 ^ p : Nat) : Int) = .val (.fin false s)) (es' : sigma (n : Int) ((2 ^ p : Nat) : Int) = .val (.fin false s')) :
    rv (rnd (2 ^ p * one * s') one) + (1 / 2 + 1 / 2 ^ 18) ≤ rv (rnd (2 ^ p * one * s) one) := by
  obtain ⟨S, e, _, bS, hS, hS0⟩ := sigma_close hp hn
  rw [es] at e
  injection e with e; injection e with _ e; subst e
  obtain ⟨S', e, _, bS', hS', hS0'⟩ := sigma_close hp (show n < 2 ^ p by omega)
  rw [es'] at e
  injection e with e; injection e with _ e; subst e
  have hm : 2 ^ p ≤ 2 ^ 18 := Nat.pow_le_pow_right (by omega) hp
  have hmr : (2 : ℝ) ^ p ≤ 2 ^ 18 := by exact_mod_cast hm
  have hm0 : (0 : ℝ) < 2 ^ p := by positivity
  have hd := sigma_drop (c := ((n + 1 : Nat) : ℝ)) (m := 2 ^ p) (by push_cast; have : (0 : ℝ) ≤ n := Nat.cast_nonneg _; linarith)
    (by exact_mod_cast hn) hmr
  rw [show (((n + 1 : Nat) : ℝ) - 1) = n by push_cast; ring] at hd
  have h1 := abs_le.1 (mul_rv (2 ^ p * one) s)
  have h2 := abs_le.1 (mul_rv (2 ^ p * one) s')
  rw [rv_mul_one] at h1 h2
  push_cast at h1 h2
  have hη := eta_small
  have hη0 := eta_pos
  have a1 := (abs_le.1 hS).1
  have a2 := (abs_le.1 hS').2
  -- multiply the inequality for σ by the number of registers
  have k1 : 2 ^ p * ((1 / 2 + 1 / 2 ^ 10) / 2 ^ p) = (1 / 2 + 1 / 2 ^ 10 : ℝ) := mul_div_cancel₀ _ hm0.ne'
  have k2 := mul_le_mul_of_nonneg_left hd hm0.le
  rw [mul_add, k1] at k2
  have k3 := mul_le_mul_of_nonneg_left a1 hm0.le
  have k4 := mul_le_mul_of_nonneg_left a2 hm0.le
  have k5 := mul_nonneg hm0.le hS0
  have k6 := mul_nonneg hm0.le hS0'
  have g1 := h1.1
  have g2 := h2.2
  rw [mul_sub] at k3 k4
  have k7 : (2 : ℝ) ^ p * -(ertlSigma (((n + 1 : Nat) : ℝ) / 2 ^ p) / 2 ^ 30) = - (2 ^ p * ertlSigma (((n + 1 : Nat) : ℝ) / 2 ^ p)) / 2 ^ 30 := by ring
  have k8 : (2 : ℝ) ^ p * (ertlSigma ((n : ℝ) / 2 ^ p) / 2 ^ 30) = 2 ^ p * ertlSigma ((n : ℝ) / 2 ^ p) / 2 ^ 30 := by ring
  rw [k7] at k3
  rw [k8] at k4
  rw [← mul_assoc, ← mul_assoc] at k2
  clear hd h1 h2 hS hS' a1 a2 k1 k7 k8 hS0 hS0'
  generalize 2 ^ p * ertlSigma (((n + 1 : Nat) : ℝ) / 2 ^ p) = A at *
  generalize 2 ^ p * ertlSigma ((n : ℝ) / 2 ^ p) = A' at *
  generalize 2 ^ p * rv s = B at *
  generalize 2 ^ p * rv s' = B' at *
  generalize rv (rnd (2 ^ p * one * s) one) = w at *
  generalize rv (rnd (2 ^ p * one * s') one) = w' at *
  generalize eta = η at *
  clear es es' bS bS' hm hmr hm0 hn hp
  norm_num at *
  linarith

/-- one more register at the top -/
theorem tau_part {p n t t' : Nat} (hp : p ≤ 18) (hn : n + 1 ≤ 2 ^ p)
    (et : tau (n : Int) ((2 ^ p : Nat) : Int) = .val (.fin false t)) (et' : tau ((n + 1 : Nat) : Int) ((2 ^ p : Nat) : Int) = .val (.fin false t')) :
    rv (rnd (2 ^ p * one * t') one) ≤ rv (rnd (2 ^ p * one * t) one) + (1 / 2 + 1 / 2 ^ 18) := by
  obtain ⟨T, e, bT, hT, hT0⟩ := tau_close hp (show n ≤ 2 ^ p by omega)
  rw [et] at e
  injection e with e; injection e with _ e; subst e
  obtain ⟨T', e, bT', hT', hT0'⟩ := tau_close hp hn
  rw [et'] at e
  injection e with e; injection e with _ e; subst e
  have hm : 2 ^ p ≤ 2 ^ 18 := Nat.pow_le_pow_right (by omega) hp
  have hmr : (2 : ℝ) ^ p ≤ 2 ^ 18 := by exact_mod_cast hm
  have hm0 : (0 : ℝ) < 2 ^ p := by positivity
  have hnr : ((n + 1 : Nat) : ℝ) ≤ 2 ^ p := by exact_mod_cast hn
  have hn0 : (0 : ℝ) ≤ n := Nat.cast_nonneg _
  have hd := tau_third (x := 1 - ((n + 1 : Nat) : ℝ) / 2 ^ p) (y := 1 - (n : ℝ) / 2 ^ p)
    (by rw [sub_nonneg, div_le_one hm0]; exact hnr)
    (by
      have : (n : ℝ) / 2 ^ p ≤ ((n + 1 : Nat) : ℝ) / 2 ^ p := div_le_div_of_nonneg_right (by push_cast; linarith) hm0.le
      linarith)
    (by have : 0 ≤ (n : ℝ) / 2 ^ p := by positivity
        linarith)
  have hx : ((n + 1 : Nat) : ℝ) / 2 ^ p = (n : ℝ) / 2 ^ p + 1 / 2 ^ p := by push_cast; ring
  have h1 := abs_le.1 (mul_rv (2 ^ p * one) t)
  have h2 := abs_le.1 (mul_rv (2 ^ p * one) t')
  rw [rv_mul_one] at h1 h2
  push_cast at h1 h2
  have hη := eta_small
  have btr : rv t ≤ 1075 := by have := rv_le bT; rw [rv_mul_one] at this; exact_mod_cast this
  have btr' : rv t' ≤ 1075 := by have := rv_le bT'; rw [rv_mul_one] at this; exact_mod_cast this
  have a1 := (abs_le.1 hT).1
  have a2 := (abs_le.1 hT').2
  have hu : (2 : ℝ) ^ p * (1 / 2 ^ p) = 1 := mul_one_div_cancel hm0.ne'
  have k1 : rv t' ≤ rv t + 1 / 3 * (1 / 2 ^ p) + 1 / 2 ^ 34 := by
    generalize ertlTau (1 - ((n + 1 : Nat) : ℝ) / 2 ^ p) = τ' at *
    rw [hx] at hd
    generalize ertlTau (1 - (n : ℝ) / 2 ^ p) = τ at *
    generalize 1 / (2 : ℝ) ^ p = u at *
    generalize (n : ℝ) / 2 ^ p = y at *
    clear h1 h2 hm hmr hm0
    norm_num at *
    linarith
  have k2 := mul_le_mul_of_nonneg_left k1 hm0.le
  have k3 : (2 : ℝ) ^ p * (rv t + 1 / 3 * (1 / 2 ^ p) + 1 / 2 ^ 34) = 2 ^ p * rv t + 1 / 3 * (2 ^ p * (1 / 2 ^ p)) + 2 ^ p / 2 ^ 34 := by ring
  rw [k3, hu] at k2
  have k4 : (2 : ℝ) ^ p * rv t ≤ 2 ^ 18 * 1075 := mul_le_mul hmr btr (rv_nonneg _) (by norm_num)
  have k5 : (2 : ℝ) ^ p * rv t' ≤ 2 ^ 18 * 1075 := mul_le_mul hmr btr' (rv_nonneg _) (by norm_num)
  have g1 := h1.1
  have g2 := h2.2
  generalize rv (rnd (2 ^ p * one * t) one) = w at *
  generalize rv (rnd (2 ^ p * one * t') one) = w' at *
  generalize 2 ^ p * rv t = B at *
  generalize 2 ^ p * rv t' = B' at *
  generalize (2 : ℝ) ^ p = m at *
  generalize eta = η at *
  clear hd h1 h2 hT hT' hT0 hT0' hx k1 k3 a1 a2 hu bT bT' et et' hnr hm
  norm_num at *
  linarith

/-- raising a register does not raise the denominator -/
theorem poisson_step {c c' : Counter} (h : WF c) (h' : WF c') (hpp : c'.p = c.p) {f f' : Nat → Nat}
    (hf : ∀ i, i < 2 ^ c.p.toNat → (Bitbucket.field c.bits.data (i * c.bits.w.toNat) c.bits.w.toNat).toNat = f i)
    (hf' : ∀ i, i < 2 ^ c'.p.toNat → (Bitbucket.field c'.bits.data (i * c'.bits.w.toNat) c'.bits.w.toNat).toNat = f' i)
    (h0 : exactly f 0 0 (2 ^ c.p.toNat) < 2 ^ c.p.toNat) {i₀ : Nat} (hi : i₀ < 2 ^ c.p.toNat) (hsame : ∀ j, j ≠ i₀ → f' j = f j)
    (hge : f i₀ ≤ f' i₀) (htop : f' i₀ ≤ 64 - c.p.toNat + 1) :
    ∃ Z Z', poisson c = .val (.fin false Z) ∧ poisson c' = .val (.fin false Z') ∧ Z' ≤ Z := by
  have hch := fun r => exactly_change hsame r (2 ^ c.p.toNat) 0 (Nat.zero_le _) (by omega)
  have hle : ∀ (g : Nat → Nat) j, exactly g j 0 (2 ^ c.p.toNat) ≤ 2 ^ c.p.toNat := fun g j => by
    unfold exactly
    refine Nat.le_trans List.countP_le_length ?_
    rw [List.length_range']
  have h18 : 2 ^ c.p.toNat ≤ 2 ^ 18 := Nat.pow_le_pow_right (by omega) h.p18
  have h0' : exactly f' 0 0 (2 ^ c.p.toNat) < 2 ^ c.p.toNat := by
    have := hch 0
    split at this <;> split at this <;> omega
  obtain ⟨t, s, et, es, bM, e⟩ := poisson_eq h hf h0
  obtain ⟨t', s', et', es', bM', e'⟩ := poisson_eq h' hf' (by rw [hpp]; exact h0')
  rw [hpp] at et' es' bM' e'
  refine ⟨_, _, e, e', ?_⟩
  rcases Nat.eq_or_lt_of_le hge with heq | hup
  · have hff : f' = f := by
      funext j
      by_cases ej : j = i₀
      · rw [ej, heq]
      · exact hsame j ej
    subst hff
    rw [et] at et'
    rw [es] at es'
    injection et' with et'; injection et' with _ et'
    injection es' with es'; injection es' with _ es'
    rw [et', es']
  obtain ⟨a, ha⟩ : ∃ a, f i₀ = a := ⟨_, rfl⟩
  obtain ⟨b, hb⟩ : ∃ b, f' i₀ = b := ⟨_, rfl⟩
  rw [ha, hb] at hup
  rw [hb] at htop
  simp only [ha, hb] at hch
  have hp4 := h.p4
  have hp18 := h.p18
  -- the counts
  have ca : exactly f' a 0 (2 ^ c.p.toNat) + 1 = exactly f a 0 (2 ^ c.p.toNat) := by
    have := hch a; rw [if_pos rfl, if_neg (by omega)] at this; omega
  have cb : exactly f' b 0 (2 ^ c.p.toNat) = exactly f b 0 (2 ^ c.p.toNat) + 1 := by
    have := hch b; rw [if_pos rfl, if_neg (by omega)] at this; omega
  have co : ∀ j, j ≠ a → j ≠ b → exactly f' j 0 (2 ^ c.p.toNat) = exactly f j 0 (2 ^ c.p.toNat) := fun j h1 h2 => by
    have := hch j; rw [if_neg (fun h => h1 h.symm), if_neg (fun h => h2 h.symm)] at this; omega
  -- the fold
  have key : (1 ≤ a → foldN (fun r => exactly f' r 0 (2 ^ c.p.toNat)) (64 - c.p.toNat) (rnd (2 ^ c.p.toNat * one * t') one)
        ≤ foldN (fun r => exactly f r 0 (2 ^ c.p.toNat)) (64 - c.p.toNat) (rnd (2 ^ c.p.toNat * one * t) one)) ∧
      (a = 0 → rv (foldN (fun r => exactly f' r 0 (2 ^ c.p.toNat)) (64 - c.p.toNat) (rnd (2 ^ c.p.toNat * one * t') one))
        ≤ rv (foldN (fun r => exactly f r 0 (2 ^ c.p.toNat)) (64 - c.p.toNat) (rnd (2 ^ c.p.toNat * one * t) one)) + (1 / 2 + 1 / 2 ^ 18)) := by
    by_cases hbt : b = 64 - c.p.toNat + 1
    · have htp : rv (rnd (2 ^ c.p.toNat * one * t') one) ≤ rv (rnd (2 ^ c.p.toNat * one * t) one) + (1 / 2 + 1 / 2 ^ 18) := by
        rw [← hbt] at et et'
        rw [cb] at et'
        exact tau_part hp18 (by rw [← cb]; exact hle f' b) et et'
      have hfold : ∀ n, n ≤ 64 - c.p.toNat → ∀ Z, foldN (fun r => exactly f' r 0 (2 ^ c.p.toNat)) n Z
          = foldN (fun r => if r = b then exactly f b 0 (2 ^ c.p.toNat) else exactly f' r 0 (2 ^ c.p.toNat)) n Z := by
        intro n
        induction n with
        | zero => intro _ Z; rw [foldN_zero, foldN_zero]
        | succ n ih =>
          intro hn Z
          rw [foldN_succ, foldN_succ, ih (by omega), if_neg (by omega)]
      rw [hfold _ (Nat.le_refl _)]
      have := fold_debt (C := fun r => exactly f r 0 (2 ^ c.p.toNat))
        (C' := fun r => if r = b then exactly f b 0 (2 ^ c.p.toNat) else exactly f' r 0 (2 ^ c.p.toNat)) (a := a)
        (fun j => Nat.le_trans (hle f j) h18) (fun j hj => by
          by_cases e2 : j = b
          · simp only [e2, if_pos]; exact Nat.le_refl _
          · simp only [if_neg e2]; rw [co j hj e2]) (by rw [if_neg (by omega)]; omega) (64 - c.p.toNat) bM bM' htp
      exact ⟨fun h1 => this.1 h1 (by omega), this.2⟩
    · have ett : t' = t := by
        rw [co _ (by omega) (fun h => hbt h.symm), et] at et'
        injection et' with e; injection e with _ e; exact e.symm
      rw [ett]
      exact fold_bump hup (fun j => Nat.le_trans (hle f j) h18) (fun j => Nat.le_trans (hle f' j) h18) co ca cb (64 - c.p.toNat) (by omega) bM
  apply rnd_mono (by omega) (by omega)
  rw [Nat.mul_one, Nat.mul_one]
  rcases Nat.eq_zero_or_pos a with hz | hz
  · have k1 := key.2 hz
    have k2 : rv (rnd (2 ^ c.p.toNat * one * s') one) + (1 / 2 + 1 / 2 ^ 18) ≤ rv (rnd (2 ^ c.p.toNat * one * s) one) := by
      rw [hz] at ca
      rw [← ca] at es h0
      exact sigma_part hp18 h0 es es'
    have ho := one_real_pos
    have k3 := add_le_add k1 k2
    generalize foldN (fun r => exactly f' r 0 (2 ^ c.p.toNat)) (64 - c.p.toNat) (rnd (2 ^ c.p.toNat * one * t') one) = Y' at *
    generalize foldN (fun r => exactly f r 0 (2 ^ c.p.toNat)) (64 - c.p.toNat) (rnd (2 ^ c.p.toNat * one * t) one) = Y at *
    generalize rnd (2 ^ c.p.toNat * one * s') one = W' at *
    generalize rnd (2 ^ c.p.toNat * one * s) one = W at *
    have k4 : rv Y' + rv W' ≤ rv Y + rv W := by linarith
    unfold rv at k4
    rw [← add_div, ← add_div, div_le_div_iff_of_pos_right ho] at k4
    exact_mod_cast k4
  · have k1 := key.1 hz
    have ess : s' = s := by
      rw [co 0 (by omega) (by omega), es] at es'
      injection es' with e; injection e with _ e; exact e.symm
    rw [ess]
    omega

end Starbow.Hll
