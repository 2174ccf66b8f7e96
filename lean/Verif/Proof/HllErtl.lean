import Verif.Proof.HllTau
/-
How far the denominator of `PoissonCount` of hll.go is from the published one.
-/
namespace Starbow.Hll
open Starbow F64 Stat64 Spec

/-! ### the tally -/

/-- how many of the registers `i, …, i+k-1` hold exactly `r` -/
def exactly (f : Nat → Nat) (r : Nat) (i k : Nat) : Nat := (List.range' i k).countP fun j => decide (f j = r)

theorem upTo_zero (f : Nat → Nat) (i k : Nat) : upTo f 0 i k = exactly f 0 i k := by
  unfold upTo exactly
  apply List.countP_congr
  intro j _
  simp

theorem upTo_next (f : Nat → Nat) (R i k : Nat) : upTo f (R + 1) i k = upTo f R i k + exactly f (R + 1) i k := by
  unfold upTo exactly
  generalize List.range' i k = l
  induction l with
  | nil => rfl
  | cons a l ih =>
    rw [List.countP_cons, List.countP_cons, List.countP_cons, ih]
    by_cases h1 : f a ≤ R
    · have h2 : f a ≤ R + 1 := by omega
      have h3 : f a ≠ R + 1 := by omega
      simp [h1, h2, h3]; omega
    · by_cases h3 : f a = R + 1
      · simp [h3]; omega
      · have h2 : ¬ f a ≤ R + 1 := by omega
        simp [h1, h2, h3]

theorem tally_exactly {b : Bitbucket.BB} (hb : Bitbucket.WF b) (hw : b.w = 6#8) {f : Nat → Nat} {m : Nat}
    (hf : ∀ i, i < b.n.toNat → (Bitbucket.field b.data (i * b.w.toNat) b.w.toNat).toNat = f i) (hm : m ≤ b.n.toNat) :
    ∃ cn, tallyLoop b m 0 (List.replicate 64 0) = .val cn ∧ ∀ r, cn.getD r 0 = exactly f r 0 m := by
  obtain ⟨cn, e, hc⟩ := tallyLoop_is hb hw hf m 0 (cn := List.replicate 64 0) (by omega) (by simp)
  have h0 : ∀ n, total (List.replicate 64 0) n = 0 := by
    intro n
    induction n with
    | zero => rfl
    | succ n ih =>
      rw [total, ih, List.getD_eq_getElem?_getD, List.getElem?_replicate]
      split <;> simp
  refine ⟨cn, e, fun r => ?_⟩
  have hr := hc r
  rw [h0, Nat.zero_add] at hr
  cases r with
  | zero => rw [total, total, Nat.zero_add, upTo_zero] at hr; exact hr
  | succ r =>
    have hr' := hc r
    rw [h0, Nat.zero_add] at hr'
    rw [total, hr', upTo_next] at hr
    omega

/-! ### the fold -/

/-- the fold without rounding -/
noncomputable def foldR (C : Nat → Nat) : Nat → ℝ → ℝ
  | 0, w => w
  | k + 1, w => foldR C k ((w + C (k + 1)) / 2)

theorem foldR_eq (C : Nat → Nat) : ∀ k w, foldR C k w = ((List.range k).map fun i => (C (i + 1) : ℝ) / 2 ^ (i + 1)).sum + w / 2 ^ k := by
  intro k
  induction k with
  | zero => intro w; simp [foldR]
  | succ k ih =>
    intro w
    rw [foldR, ih, List.range_succ, List.map_append, List.sum_append, List.map_cons, List.map_nil, List.sum_cons, List.sum_nil, pow_succ]
    field_simp
    ring

theorem fold_round {Z n : Nat} (hZ : Z ≤ 2 ^ 30 * one) (hn : n ≤ 2 ^ 18) :
    ∃ R, F64.mul (F64.dec 1 2) (F64.add (.fin false Z) (F64.ofNat n)) = .fin false R ∧ R ≤ 2 ^ 30 * one ∧
      (rv Z + n) / 2 * (1 - 1 / 2 ^ 51) - eta ≤ rv R ∧ rv R ≤ (rv Z + n) / 2 * (1 + 1 / 2 ^ 51) + eta := by
  rw [ofNat_is (by omega)]
  obtain ⟨e1, b1⟩ := add_le_rep (x := .fin false Z) (y := .fin false (n * one)) rfl rfl (rep_pow_one 31) (pow_one_lt (by omega)) (by
    have : n * one ≤ 2 ^ 18 * one := Nat.mul_le_mul_right _ hn
    omega)
  rw [e1]
  have hh : 2 ^ (expOne - 1) * 2 = one := by
    rw [one_eq, ← Nat.pow_succ]; congr 1; rw [expOne_eq]
  have hhalf : rv (2 ^ (expOne - 1)) = 1 / 2 := by
    unfold rv
    have e' := congrArg (Nat.cast : ℕ → ℝ) hh
    rw [Nat.cast_mul] at e'
    rw [div_eq_div_iff one_real_pos.ne' (by norm_num), ← e', one_mul]; norm_num
  have a1 := abs_le.1 (add_rv Z (n * one))
  rw [rv_mul_one] at a1
  have z0 := rv_nonneg Z
  have n0 : (0 : ℝ) ≤ n := Nat.cast_nonneg _
  have m1 := abs_le.1 (mul_rv (2 ^ (expOne - 1)) (rnd (Z + n * one) 1))
  rw [hhalf] at m1
  obtain ⟨e2, b2⟩ := mul_le_rep (x := F64.dec 1 2) (y := .fin false (rnd (Z + n * one) 1)) half_is rfl (rep_pow_one 30)
    (pow_one_lt (by omega)) (by
      calc 2 ^ (expOne - 1) * rnd (Z + n * one) 1 ≤ 2 ^ (expOne - 1) * (2 ^ 31 * one) := Nat.mul_le_mul_left _ b1
        _ = 2 ^ 30 * (2 ^ (expOne - 1) * 2) * one := by ring
        _ = _ := by rw [hh])
  refine ⟨_, e2, b2, ?_⟩
  generalize rv (rnd (2 ^ (expOne - 1) * rnd (Z + n * one) 1) one) = r at *
  generalize rv (rnd (Z + n * one) 1) = s at *
  generalize rv Z = z at *
  generalize (n : ℝ) = c at *
  generalize eta = η at *
  constructor
  · norm_num at *; linarith
  · norm_num at *; linarith

theorem fold_acc {cn : List Nat} {C : Nat → Nat} (hC : ∀ j, cn.getD j 0 = C j) (hcn : ∀ j, C j ≤ 2 ^ 18) : ∀ (k Z : Nat) (b a wl wh d : ℝ),
    Z ≤ 2 ^ 30 * one → 0 ≤ b → b ≤ 1 → 1 ≤ a → 0 ≤ d → b * wl - d ≤ rv Z → rv Z ≤ a * wh + d →
    ∃ Z', foldLoop cn k (.fin false Z) = .fin false Z' ∧ Z' ≤ 2 ^ 30 * one ∧
      b * (1 - 1 / 2 ^ 51) ^ k * foldR C k wl - (d + k * eta) ≤ rv Z' ∧ rv Z' ≤ a * (1 + 1 / 2 ^ 51) ^ k * foldR C k wh + (d + k * eta) := by
  intro k
  induction k with
  | zero =>
    intro Z b a wl wh d hZ _ _ _ _ h1 h2
    exact ⟨Z, rfl, hZ, by simpa [foldR] using h1, by simpa [foldR] using h2⟩
  | succ k ih =>
    intro Z b a wl wh d hZ hb0 hb1 ha hd h1 h2
    obtain ⟨W, e, bW, l, u⟩ := fold_round hZ (hcn (k + 1))
    have n0 : (0 : ℝ) ≤ C (k + 1) := Nat.cast_nonneg _
    have hη := eta_pos
    obtain ⟨Z', e', b', l', u'⟩ := ih W (b * (1 - 1 / 2 ^ 51)) (a * (1 + 1 / 2 ^ 51)) ((wl + C (k + 1)) / 2) ((wh + C (k + 1)) / 2) (d + eta) bW
      (mul_nonneg hb0 (by norm_num)) (by norm_num; linarith) (by norm_num; linarith) (by linarith) (by
        refine le_trans ?_ l
        have h3 : b * (wl + C (k + 1)) - d ≤ rv Z + C (k + 1) := by nlinarith
        have h4 : (b * (wl + C (k + 1)) - d) * ((1 - 1 / 2 ^ 51) / 2) ≤ (rv Z + C (k + 1)) * ((1 - 1 / 2 ^ 51) / 2) :=
          mul_le_mul_of_nonneg_right h3 (by norm_num)
        have h5 : d * ((1 - 1 / 2 ^ 51) / 2) ≤ d := mul_le_of_le_one_right hd (by norm_num)
        linarith) (by
        refine le_trans u ?_
        have h3 : rv Z + C (k + 1) ≤ a * (wh + C (k + 1)) + d := by nlinarith
        have h4 : (rv Z + C (k + 1)) * ((1 + 1 / 2 ^ 51) / 2) ≤ (a * (wh + C (k + 1)) + d) * ((1 + 1 / 2 ^ 51) / 2) :=
          mul_le_mul_of_nonneg_right h3 (by norm_num)
        have h5 : d * ((1 + 1 / 2 ^ 51) / 2) ≤ d := mul_le_of_le_one_right hd (by norm_num)
        linarith)
    refine ⟨Z', by rw [foldLoop, hC, e, e'], b', ?_, ?_⟩
    · rw [foldR, pow_succ]
      push_cast
      refine le_trans (le_of_eq ?_) l'
      ring
    · rw [foldR, pow_succ]
      push_cast
      refine le_trans u' (le_of_eq ?_)
      ring

/-- powers of numbers close to one -/
theorem pow_near {q : Nat} (hq : q ≤ 64) : (1 + 1 / 2 ^ 51 : ℝ) ^ q ≤ 1 + 1 / 2 ^ 43 ∧ 1 - 1 / 2 ^ 43 ≤ (1 - 1 / 2 ^ 51 : ℝ) ^ q := by
  constructor
  · calc (1 + 1 / 2 ^ 51 : ℝ) ^ q ≤ (1 + 1 / 2 ^ 51) ^ 64 := pow_le_pow_right₀ (by norm_num) hq
      _ ≤ _ := by norm_num
  · calc (1 - 1 / 2 ^ 43 : ℝ) ≤ (1 - 1 / 2 ^ 51) ^ 64 := by norm_num
      _ ≤ _ := pow_le_pow_of_le_one (by norm_num) (by norm_num) hq

/-- the denominator with the counts `C` of the register values -/
noncomputable def ertlOf (p : Nat) (C : Nat → Nat) : ℝ :=
  2 ^ p * ertlSigma (C 0 / 2 ^ p) + ((List.range (64 - p)).map fun k => (C (k + 1) : ℝ) / 2 ^ (k + 1)).sum
    + 2 ^ p * ertlTau (1 - C (64 - p + 1) / 2 ^ p) / 2 ^ (64 - p)

/-- the denominator of the Poisson estimator is the published one, up to a relative error of `2^-29` -/
theorem poisson_close {c : Counter} (h : WF c) {f : Nat → Nat}
    (hf : ∀ i, i < 2 ^ c.p.toNat → (Bitbucket.field c.bits.data (i * c.bits.w.toNat) c.bits.w.toNat).toNat = f i)
    (h0 : exactly f 0 0 (2 ^ c.p.toNat) < 2 ^ c.p.toNat)
    (hroom : (2 : ℝ) ^ c.p.toNat * 2 ^ c.p.toNat / 2 ^ 63 ≤ ertlOf c.p.toNat fun r => exactly f r 0 (2 ^ c.p.toNat)) :
    ∃ Z, poisson c = .val (.fin false Z) ∧ Z ≤ 2 ^ 61 * one ∧
      |rv Z - ertlOf c.p.toNat fun r => exactly f r 0 (2 ^ c.p.toNat)| ≤ (ertlOf c.p.toNat fun r => exactly f r 0 (2 ^ c.p.toNat)) / 2 ^ 29 := by
  have hp := h.p18
  have hp4 := h.p4
  have hn : c.bits.n.toNat = 2 ^ c.p.toNat := by rw [h.n, Int.toNat_natCast]
  have h18 : 2 ^ c.p.toNat ≤ 2 ^ 18 := Nat.pow_le_pow_right (by omega) hp
  have ho := F64.one_pos
  unfold poisson
  simp only
  rw [mInt_eq c.p h.p18, Int.toNat_natCast]
  obtain ⟨cn, e, hC⟩ := tally_exactly h.bits h.w (f := f) (m := 2 ^ c.p.toNat) (by rw [hn]; exact hf) (by omega)
  have hcn : ∀ j, exactly f j 0 (2 ^ c.p.toNat) ≤ 2 ^ c.p.toNat := fun j => by
    unfold exactly
    refine Nat.le_trans List.countP_le_length ?_
    rw [List.length_range']
  generalize hCC : (fun r => exactly f r 0 (2 ^ c.p.toNat)) = C at *
  have hC' : ∀ r, exactly f r 0 (2 ^ c.p.toNat) = C r := fun r => by rw [← hCC]
  simp only [hC'] at hC h0 hcn
  rw [e, Out.bind_val, if_neg (by omega)]
  have eq1 : ((64 : Int) - c.p.toNat + 1).toNat = 64 - c.p.toNat + 1 := by omega
  have eq2 : ((64 : Int) - c.p.toNat).toNat = 64 - c.p.toNat := by omega
  rw [eq1, eq2, hC, hC]
  obtain ⟨t, et, bt, ht, ht0⟩ := tau_close hp (hcn (64 - c.p.toNat + 1))
  obtain ⟨s, es, hsrep, bs, hs, hs0⟩ := sigma_close hp h0
  rw [et, Out.bind_val, es, Out.bind_val]
  have hpn : c.p.toNat ≤ 18 := hp
  unfold ertlOf at hroom ⊢
  generalize c.p.toNat = p at *
  obtain ⟨em, bm⟩ := mul_le_rep (x := F64.ofInt ((2 ^ p : Nat) : Int)) (y := .fin false t) (ofInt_is (by omega)) rfl
    (rep_pow_one 30) (pow_one_lt (by omega)) (by
      calc 2 ^ p * one * t ≤ 2 ^ 18 * one * (1075 * one) := Nat.mul_le_mul (Nat.mul_le_mul_right _ h18) bt
        _ = 2 ^ 18 * 1075 * one * one := by ring
        _ ≤ _ := Nat.mul_le_mul_right _ (Nat.mul_le_mul_right _ (by omega)))
  rw [em]
  have hM := abs_le.1 (mul_rv (2 ^ p * one) t)
  rw [rv_mul_one] at hM
  generalize rnd (2 ^ p * one * t) one = M at *
  have hm0 : (0 : ℝ) < 2 ^ p := by positivity
  have hm1 : (1 : ℝ) ≤ 2 ^ p := one_le_pow₀ (by norm_num)
  have hη := eta_small
  have hη0 := eta_pos
  have ht' := abs_le.1 ht
  have btr : rv t ≤ 1075 := by have := rv_le bt; rw [rv_mul_one] at this; exact_mod_cast this
  have t0 := rv_nonneg t
  push_cast at hM
  -- the product with the number of registers
  have hMlo : 1 * (2 ^ p * (ertlTau (1 - C (64 - p + 1) / 2 ^ p) - 1 / 2 ^ 34)) - 0 ≤ rv M := by
    have h1 : (2 : ℝ) ^ p * (ertlTau (1 - C (64 - p + 1) / 2 ^ p) - 1 / 2 ^ 35) ≤ 2 ^ p * rv t := mul_le_mul_of_nonneg_left (by linarith) hm0.le
    have h2 : (2 : ℝ) ^ p * rv t ≤ 2 ^ p * 1075 := mul_le_mul_of_nonneg_left btr hm0.le
    have h3 := hM.1
    generalize (2 : ℝ) ^ p * rv t = a at *
    generalize rv M = r at *
    generalize ertlTau (1 - C (64 - p + 1) / 2 ^ p) = τ at *
    generalize (2 : ℝ) ^ p = m at *
    norm_num at *
    nlinarith
  have hMhi : rv M ≤ 1 * (2 ^ p * (ertlTau (1 - C (64 - p + 1) / 2 ^ p) + 1 / 2 ^ 34)) + 0 := by
    have h1 : (2 : ℝ) ^ p * rv t ≤ 2 ^ p * (ertlTau (1 - C (64 - p + 1) / 2 ^ p) + 1 / 2 ^ 35) := mul_le_mul_of_nonneg_left (by linarith) hm0.le
    have h2 : (2 : ℝ) ^ p * rv t ≤ 2 ^ p * 1075 := mul_le_mul_of_nonneg_left btr hm0.le
    have h3 := hM.2
    generalize (2 : ℝ) ^ p * rv t = a at *
    generalize rv M = r at *
    generalize ertlTau (1 - C (64 - p + 1) / 2 ^ p) = τ at *
    generalize (2 : ℝ) ^ p = m at *
    norm_num at *
    nlinarith
  obtain ⟨Y, eY, bY, lY, uY⟩ := fold_acc (cn := cn) hC (fun j => Nat.le_trans (hcn j) h18) (64 - p) M 1 1 _ _ 0 bm (by norm_num) (le_refl _)
    (le_refl _) (le_refl _) hMlo hMhi
  rw [eY]
  obtain ⟨es', bs'⟩ := mul_le_rep (x := F64.ofInt ((2 ^ p : Nat) : Int)) (y := .fin false s) (ofInt_is (by omega)) rfl
    (rep_pow_one 60) (pow_one_lt (by omega)) (by
      calc 2 ^ p * one * s ≤ 2 ^ 18 * one * (2 ^ 42 * one) := Nat.mul_le_mul (Nat.mul_le_mul_right _ h18) bs
        _ = 2 ^ 60 * one * one := by ring)
  rw [es']
  have hW := abs_le.1 (mul_rv (2 ^ p * one) s)
  rw [rv_mul_one] at hW
  push_cast at hW
  generalize rnd (2 ^ p * one * s) one = W at *
  obtain ⟨ea, ba⟩ := add_le_rep (x := .fin false Y) (y := .fin false W) rfl rfl
    (rep_pow_one 61) (pow_one_lt (by omega)) (by
      have : 2 ^ 30 * one ≤ 2 ^ 60 * one := Nat.mul_le_mul_right _ (by omega)
      omega)
  refine ⟨_, congrArg Out.val ea, ba, ?_⟩
  have hadd := abs_le.1 (add_rv Y W)
  rw [foldR_eq] at lY uY
  have hs' := abs_le.1 hs
  have hq : (64 - p : Nat) ≤ 64 := by omega
  obtain ⟨pu, pd⟩ := pow_near hq
  have pu1 : (1 : ℝ) ≤ (1 + 1 / 2 ^ 51) ^ (64 - p) := one_le_pow₀ (by norm_num)
  have pd1 : (1 - 1 / 2 ^ 51 : ℝ) ^ (64 - p) ≤ 1 := pow_le_one₀ (by norm_num) (by norm_num)
  have hqc : ((64 - p : Nat) : ℝ) ≤ 64 := by exact_mod_cast hq
  have hqη : ((64 - p : Nat) : ℝ) * eta ≤ 64 * (1 / 2 ^ 250) := mul_le_mul hqc hη hη0.le (by norm_num)
  -- the error of `tau` relative to the whole sum
  have hδ : (2 : ℝ) ^ p * (1 / 2 ^ 34) / 2 ^ (64 - p) = 2 ^ p * 2 ^ p / 2 ^ 98 := by
    have e2 : (2 : ℝ) ^ (64 - p) * 2 ^ p = 2 ^ 64 := by rw [← pow_add]; congr 1; omega
    have h64 : (0 : ℝ) < 2 ^ (64 - p) := by positivity
    rw [div_eq_div_iff h64.ne' (by norm_num)]
    calc (2 : ℝ) ^ p * (1 / 2 ^ 34) * 2 ^ 98 = 2 ^ p * 2 ^ 64 := by norm_num; ring
      _ = 2 ^ p * (2 ^ (64 - p) * 2 ^ p) := by rw [e2]
      _ = _ := by ring
  have hmm : (1 : ℝ) ≤ 2 ^ p * 2 ^ p := by nlinarith
  have hTlo : 2 ^ p * (ertlTau (1 - C (64 - p + 1) / 2 ^ p) - 1 / 2 ^ 34) / 2 ^ (64 - p)
      = 2 ^ p * ertlTau (1 - C (64 - p + 1) / 2 ^ p) / 2 ^ (64 - p) - 2 ^ p * 2 ^ p / 2 ^ 98 := by rw [← hδ]; ring
  have hThi : 2 ^ p * (ertlTau (1 - C (64 - p + 1) / 2 ^ p) + 1 / 2 ^ 34) / 2 ^ (64 - p)
      = 2 ^ p * ertlTau (1 - C (64 - p + 1) / 2 ^ p) / 2 ^ (64 - p) + 2 ^ p * 2 ^ p / 2 ^ 98 := by rw [← hδ]; ring
  rw [hTlo] at lY
  rw [hThi] at uY
  have hT0 : 0 ≤ 2 ^ p * ertlTau (1 - C (64 - p + 1) / 2 ^ p) / 2 ^ (64 - p) := div_nonneg (mul_nonneg hm0.le ht0) (by positivity)
  have hL0 : 0 ≤ ((List.range (64 - p)).map fun i => (C (i + 1) : ℝ) / 2 ^ (i + 1)).sum := by
    apply List.sum_nonneg
    intro x hx
    obtain ⟨j, _, rfl⟩ := List.mem_map.1 hx
    positivity
  have hσ0 : 0 ≤ 2 ^ p * ertlSigma (C 0 / 2 ^ p) := mul_nonneg hm0.le hs0
  have hS1 : 2 ^ p * rv s ≤ 2 ^ p * ertlSigma (C 0 / 2 ^ p) * (1 + 1 / 2 ^ 30) := by
    have := mul_le_mul_of_nonneg_left (by linarith [hs'.2] : rv s ≤ ertlSigma (C 0 / 2 ^ p) * (1 + 1 / 2 ^ 30)) hm0.le
    linarith
  have hS2 : 2 ^ p * ertlSigma (C 0 / 2 ^ p) * (1 - 1 / 2 ^ 30) ≤ 2 ^ p * rv s := by
    have := mul_le_mul_of_nonneg_left (by linarith [hs'.1] : ertlSigma (C 0 / 2 ^ p) * (1 - 1 / 2 ^ 30) ≤ rv s) hm0.le
    linarith
  generalize rv (rnd (Y + W) 1) = z at *
  generalize rv Y = y at *
  generalize rv W = w at *
  generalize 2 ^ p * rv s = g at *
  generalize 2 ^ p * ertlSigma (C 0 / 2 ^ p) = G at *
  generalize ((List.range (64 - p)).map fun i => (C (i + 1) : ℝ) / 2 ^ (i + 1)).sum = L at *
  generalize 2 ^ p * ertlTau (1 - C (64 - p + 1) / 2 ^ p) / 2 ^ (64 - p) = T at *
  generalize (2 : ℝ) ^ p * 2 ^ p = mm at *
  generalize (1 + 1 / 2 ^ 51 : ℝ) ^ (64 - p) = A at *
  generalize (1 - 1 / 2 ^ 51 : ℝ) ^ (64 - p) = B at *
  generalize ((64 - p : Nat) : ℝ) * eta = κ at *
  generalize eta = η at *
  have u1 : A * (L + (T + mm / 2 ^ 98)) ≤ (1 + 1 / 2 ^ 43) * (L + (T + mm / 2 ^ 98)) := mul_le_mul_of_nonneg_right pu (by positivity)
  have l1 : (1 - 1 / 2 ^ 43) * (L + T) ≤ B * (L + T) := mul_le_mul_of_nonneg_right pd (by positivity)
  have l2 : B * (mm / 2 ^ 98) ≤ 1 * (mm / 2 ^ 98) := mul_le_mul_of_nonneg_right pd1 (by positivity)
  have uY' : y ≤ (1 + 1 / 2 ^ 43) * (L + (T + mm / 2 ^ 98)) + κ := by linarith
  have lY' : (1 - 1 / 2 ^ 43) * (L + T) - mm / 2 ^ 98 - κ ≤ y := by
    have : B * (L + (T - mm / 2 ^ 98)) = B * (L + T) - B * (mm / 2 ^ 98) := by ring
    linarith
  have hW1 := hW.1
  have hW2 := hW.2
  have ha1 := hadd.1
  have ha2 := hadd.2
  clear hW hadd lY uY hMlo hMhi hM hs hs' ht ht' hTlo hThi hδ pu pd pu1 pd1 u1 l1 l2 hCC hC' hC
  rw [abs_le]
  constructor
  · norm_num at *; linarith
  · norm_num at *; linarith

end Starbow.Hll
