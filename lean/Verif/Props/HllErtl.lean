import Verif.Proof.HllErtl
import Verif.Props.HllMono
/-
Property theorems C69: `PoissonCount` is the improved raw estimate of Ertl, up to the constant.
-/
namespace Starbow.Props
open Starbow Starbow.Spec Starbow.Hll

theorem exactly_eq (p : Nat) (hs : List Nat) (r : Nat) : exactly (hllRegister p hs) r 0 (2 ^ p) = registersWith p hs r := by
  unfold exactly registersWith
  rw [← List.range_eq_range', List.countP_eq_length_filter]

theorem ertlOf_eq (p : Nat) (hs : List Nat) : (ertlOf p fun r => exactly (hllRegister p hs) r 0 (2 ^ p)) = ertlSum p hs := by
  unfold ertlOf ertlSum
  simp only [exactly_eq]

/-- a value leaves a mark -/
theorem registersWith_zero_lt {p : Nat} (h18 : p ≤ 64) {hs : List Nat} {x : Nat} (hx : x ∈ hs) (hlt : x < 2 ^ 64) :
    registersWith p hs 0 < 2 ^ p := by
  have hi : hllIndex p x < 2 ^ p := by
    unfold hllIndex
    rw [Nat.div_lt_iff_lt_mul (Nat.two_pow_pos _), ← Nat.pow_add, show p + (64 - p) = 64 by omega]
    exact hlt
  have hne : hllRegister p hs (hllIndex p x) ≠ 0 := by
    have h1 : hllRank p x ≤ hllRegister p hs (hllIndex p x) := by
      unfold hllRegister
      apply (foldl_max_ge _ 0).2
      rw [List.mem_map]
      exact ⟨x, hx, if_pos rfl⟩
    have h2 : 1 ≤ hllRank p x := by unfold hllRank; omega
    omega
  unfold registersWith
  rw [← List.countP_eq_length_filter]
  refine Nat.lt_of_le_of_ne ?_ ?_
  · refine Nat.le_trans List.countP_le_length ?_
    rw [List.length_range]
  · intro h
    have h' : List.countP (fun i => decide (hllRegister p hs i = 0)) (List.range (2 ^ p)) = (List.range (2 ^ p)).length := by
      rw [h, List.length_range]
    rw [List.countP_eq_length] at h'
    have := h' _ (List.mem_range.2 hi)
    rw [decide_eq_true_eq] at this
    exact hne this

/-- the denominator leaves room for the estimate in an int64 -/
theorem poisson_room {c : Counter} {hs : List Nat} (hr : Regs c (regsOf c.p.toNat hs)) (h0 : registersWith c.p.toNat hs 0 < 2 ^ c.p.toNat)
    (hS : 0 < ertlSum c.p.toNat hs) (hroom : ertlEstimate c.p.toNat hs ≤ 2 ^ 62) :
    ∃ A Z, alpha c.p = .fin false A ∧ F64.Rep A ∧ 4 * A ≤ 3 * F64.one ∧ poisson c = .val (.fin false Z) ∧ 2 ^ (2 * c.p.toNat) * F64.one ≤ Z * 2 ^ 63 := by
  have h18 := hr.wf.p18
  have h4 := hr.wf.p4
  have ho := one_real_pos
  have hlog : Real.log 2 ≤ 0.7 := by have := Real.log_two_lt_d9; norm_num at *; linarith
  have hlog0 : 0 < Real.log 2 := Real.log_pos (by norm_num)
  have hm : (2 : ℝ) ^ c.p.toNat * 2 ^ c.p.toNat / 2 ^ 63 ≤ ertlSum c.p.toNat hs * (1 - 1 / 8) := by
    unfold ertlEstimate at hroom
    rw [div_le_iff₀ hS, div_mul_eq_mul_div, one_mul, div_le_iff₀ (by positivity)] at hroom
    rw [div_le_iff₀ (by norm_num)]
    have h1 : (2 : ℝ) ^ 62 * ertlSum c.p.toNat hs * (2 * Real.log 2) ≤ 2 ^ 62 * ertlSum c.p.toNat hs * (2 * 0.7) :=
      mul_le_mul_of_nonneg_left (by linarith) (by positivity)
    rw [pow_two] at hroom
    generalize (2 : ℝ) ^ c.p.toNat * 2 ^ c.p.toNat = m at *
    norm_num at *; linarith
  obtain ⟨A, hA, hA2, h34, hrep, hAr⟩ := alpha_real h4 h18
  obtain ⟨Z, eZ, bZ, hZ⟩ := poisson_close hr.wf (regs_field hr) (by rw [exactly_eq]; exact h0) (by
    rw [ertlOf_eq]
    refine le_trans hm ?_
    norm_num at *; linarith)
  rw [ertlOf_eq] at hZ
  have hZ2 : 2 ^ (2 * c.p.toNat) * F64.one ≤ Z * 2 ^ 63 := by
    have h1 := (abs_le.1 hZ).1
    have : (2 : ℝ) ^ c.p.toNat * 2 ^ c.p.toNat / 2 ^ 63 ≤ rv Z := by
      refine le_trans hm ?_
      norm_num at *; linarith
    unfold rv at this
    rw [div_le_div_iff₀ (by norm_num) ho] at this
    have e : (2 : ℝ) ^ (2 * c.p.toNat) = 2 ^ c.p.toNat * 2 ^ c.p.toNat := by rw [two_mul, pow_add]
    rw [← e] at this
    exact_mod_cast this
  exact ⟨A, Z, hA, hrep, h34, eZ, hZ2⟩

theorem poissonCount_ertl {c : Counter} {hs : List Nat} (hr : Regs c (regsOf c.p.toNat hs)) (h0 : registersWith c.p.toNat hs 0 < 2 ^ c.p.toNat)
    (hS : 0 < ertlSum c.p.toNat hs) (hroom : ertlEstimate c.p.toNat hs ≤ 2 ^ 62) :
    ∃ n : Nat, poissonCount c = .val (n : Int) ∧ usedAlpha c.p.toNat * (2 ^ c.p.toNat) ^ 2 / ertlSum c.p.toNat hs * (1 - 1 / 2 ^ 28) ≤ n ∧
      n < usedAlpha c.p.toNat * (2 ^ c.p.toNat) ^ 2 / ertlSum c.p.toNat hs * (1 + 1 / 2 ^ 28) + 1 := by
  have h18 := hr.wf.p18
  have h4 := hr.wf.p4
  have ho := one_real_pos
  have hlog : Real.log 2 ≤ 0.7 := by have := Real.log_two_lt_d9; norm_num at *; linarith
  have hlog0 : 0 < Real.log 2 := Real.log_pos (by norm_num)
  have hm : (2 : ℝ) ^ c.p.toNat * 2 ^ c.p.toNat / 2 ^ 63 ≤ ertlSum c.p.toNat hs * (1 - 1 / 8) := by
    unfold ertlEstimate at hroom
    rw [div_le_iff₀ hS, div_mul_eq_mul_div, one_mul, div_le_iff₀ (by positivity)] at hroom
    rw [div_le_iff₀ (by norm_num)]
    have h1 : (2 : ℝ) ^ 62 * ertlSum c.p.toNat hs * (2 * Real.log 2) ≤ 2 ^ 62 * ertlSum c.p.toNat hs * (2 * 0.7) :=
      mul_le_mul_of_nonneg_left (by linarith) (by positivity)
    rw [pow_two] at hroom
    generalize (2 : ℝ) ^ c.p.toNat * 2 ^ c.p.toNat = m at *
    norm_num at *; linarith
  obtain ⟨A, hA, hA2, h34, hrep, hAr⟩ := alpha_real h4 h18
  obtain ⟨Z, eZ, bZ, hZ⟩ := poisson_close hr.wf (regs_field hr) (by rw [exactly_eq]; exact h0) (by
    rw [ertlOf_eq]
    refine le_trans hm ?_
    norm_num at *; linarith)
  rw [ertlOf_eq] at hZ
  have hZ2 : 2 ^ (2 * c.p.toNat) * F64.one ≤ Z * 2 ^ 63 := by
    have h1 := (abs_le.1 hZ).1
    have : (2 : ℝ) ^ c.p.toNat * 2 ^ c.p.toNat / 2 ^ 63 ≤ rv Z := by
      refine le_trans hm ?_
      norm_num at *; linarith
    unfold rv at this
    rw [div_le_div_iff₀ (by norm_num) ho] at this
    have e : (2 : ℝ) ^ (2 * c.p.toNat) = 2 ^ c.p.toNat * 2 ^ c.p.toNat := by rw [two_mul, pow_add]
    rw [← e] at this
    exact_mod_cast this
  obtain ⟨hpos, hest, _⟩ := estimate_is hr.wf hA hrep h34 hZ2
  refine ⟨est A c.p.toNat Z, ?_, ?_⟩
  · unfold poissonCount
    rw [eZ, Out.bind_val, hest]
    rfl
  · have := est_close (ε := 1 / 2 ^ 29) h4 h18 hA2 hpos (Nat.le_trans bZ (Nat.mul_le_mul_right _ (Nat.pow_le_pow_right (by omega) (by omega))))
      (by norm_num) (by norm_num) hAr hS (by rw [mul_one_div]; exact hZ)
    rw [show (2 : ℝ) * (1 / 2 ^ 29) = 1 / 2 ^ 28 by norm_num] at this
    exact this

/-- the constant of the code against Ertl's from 512 registers on -/
theorem used_ertl {p : Nat} (h9 : 9 ≤ p) : 1 / (2 * Real.log 2) * (1 - 3 / 10 ^ 8) ≤ usedAlpha p ∧
    usedAlpha p ≤ 1 / (2 * Real.log 2) := by
  have e : usedAlpha p = 0.7213475 := by
    unfold usedAlpha usedNum usedDen
    rw [if_neg (by omega), if_neg (by omega)]
    norm_num
  have h1 := Real.log_two_gt_d9
  have h2 := Real.log_two_lt_d9
  have h0 : 0 < 2 * Real.log 2 := by linarith [Real.log_pos (by norm_num : (1 : ℝ) < 2)]
  rw [e]
  constructor
  · rw [div_mul_eq_mul_div, one_mul, div_le_iff₀ h0]
    norm_num at *; linarith
  · rw [le_div_iff₀ h0]
    norm_num at *; linarith

/-- **C69**, what holds for every precision: on a counter that holds a value `PoissonCount` is Ertl's improved raw estimate, rounded
up and to within `2^-28`, with the constant of the code (0.7213475 from 512 registers on, the constant of the original
HyperLogLog below) in the place of Ertl's `1/(2 ln 2)`. The estimate must fit into an int64. -/
theorem C69_used_partial (p : Byte) (h4 : 4 ≤ p.toNat) (h18 : p.toNat ≤ 18) (h : AddHist) (hne : live h ≠ [])
    (hS : 0 < ertlSum p.toNat ((live h).map fun v => fnv1 (nats v)))
    (hroom : ertlEstimate p.toNat ((live h).map fun v => fnv1 (nats v)) ≤ 2 ^ 62) :
    ∃ c0 c, ∃ n : Int, new p = .val c0 ∧ runHll c0 h = .val c ∧ poissonCount c = .val n ∧
      usedAlpha p.toNat * (2 ^ p.toNat) ^ 2 / ertlSum p.toNat ((live h).map fun v => fnv1 (nats v)) * (1 - 1 / 2 ^ 28) ≤ n ∧
      n < usedAlpha p.toNat * (2 ^ p.toNat) ^ 2 / ertlSum p.toNat ((live h).map fun v => fnv1 (nats v)) * (1 + 1 / 2 ^ 28) + 1 := by
  obtain ⟨c0, c, e0, e, hp, hr⟩ := runHll_fresh p h4 h18 h
  rw [← hp] at hr
  obtain ⟨v, hv⟩ := List.exists_mem_of_ne_nil _ hne
  have hz : registersWith p.toNat (hashes (live h)) 0 < 2 ^ p.toNat :=
    registersWith_zero_lt (by omega) (x := fnv1 (nats v)) (List.mem_map.2 ⟨v, hv, rfl⟩) (by
      rw [← Fnv.sum64_toNat]; exact (Fnv.sum64 v).isLt)
  obtain ⟨n, g, g1, g2⟩ := poissonCount_ertl hr (by rw [hp]; exact hz) (by rw [hp]; exact hS) (by rw [hp]; exact hroom)
  rw [hp] at g1 g2
  exact ⟨c0, c, n, e0, e, g, by exact_mod_cast g1, by exact_mod_cast g2⟩

/-- **C69**, what holds from 512 registers on: `PoissonCount` is the published estimate rounded up, to within 4 in 10^8. -/
theorem C69_partial (p : Byte) (h9 : 9 ≤ p.toNat) (h18 : p.toNat ≤ 18) (h : AddHist) (hne : live h ≠ [])
    (hS : 0 < ertlSum p.toNat ((live h).map fun v => fnv1 (nats v)))
    (hroom : ertlEstimate p.toNat ((live h).map fun v => fnv1 (nats v)) ≤ 2 ^ 62) :
    ∃ c0 c, ∃ n : Int, new p = .val c0 ∧ runHll c0 h = .val c ∧ poissonCount c = .val n ∧
      ertlEstimate p.toNat ((live h).map fun v => fnv1 (nats v)) * (1 - 4 / 10 ^ 8) ≤ n ∧
      n < ertlEstimate p.toNat ((live h).map fun v => fnv1 (nats v)) * (1 + 4 / 10 ^ 8) + 1 := by
  obtain ⟨c0, c, n, e0, e, g, g1, g2⟩ := C69_used_partial p (by omega) h18 h hne hS hroom
  refine ⟨c0, c, n, e0, e, g, le_trans ?_ g1, lt_of_lt_of_le g2 ?_⟩
  all_goals
    obtain ⟨k1, k2⟩ := used_ertl h9
    unfold ertlEstimate
    have hk : (0 : ℝ) ≤ (2 ^ p.toNat) ^ 2 / ertlSum p.toNat ((live h).map fun v => fnv1 (nats v)) := by positivity
    have hl : 0 ≤ 1 / (2 * Real.log 2) := by have := Real.log_pos (by norm_num : (1 : ℝ) < 2); positivity
    simp only [mul_div_assoc] at *
    generalize (2 ^ p.toNat) ^ 2 / ertlSum p.toNat ((live h).map fun v => fnv1 (nats v)) = k at *
    have q1 := mul_le_mul_of_nonneg_right k1 hk
    have q2 := mul_le_mul_of_nonneg_right k2 hk
    have q3 := mul_nonneg hl hk
    have e1 : 1 / (2 * Real.log 2) * (1 - 3 / 10 ^ 8) * k = 1 / (2 * Real.log 2) * k * (1 - 3 / 10 ^ 8) := by ring
    rw [e1] at q1
    generalize 1 / (2 * Real.log 2) * k = r at *
    generalize usedAlpha p.toNat * k = u at *
    norm_num at *; linarith

/-- **C69** for `Count`: beyond linear counting, while the sum of `2^-M` (an empty register counting one half) is above the limit
`α m / 7`, `Count` is `PoissonCount`. -/
theorem C69_count_partial (log : F64 → F64) (hl : LogOk log) (p : Byte) (h4 : 4 ≤ p.toNat) (h18 : p.toNat ≤ 18) (h : AddHist)
    (hbeyond : emptyRegisters p.toNat ((live h).map fun v => fnv1 (nats v)) = 0 ∨ linearThreshold p.toNat
      < linearEstimate p.toNat (emptyRegisters p.toNat ((live h).map fun v => fnv1 (nats v))) * (1 - 1 / 2 ^ 33))
    (hlarge : countLimit p.toNat * (1 + 1 / 2 ^ 30) ≤ countedSum p.toNat ((live h).map fun v => fnv1 (nats v)))
    (hS : 0 < ertlSum p.toNat ((live h).map fun v => fnv1 (nats v)))
    (hroom : ertlEstimate p.toNat ((live h).map fun v => fnv1 (nats v)) ≤ 2 ^ 62) :
    ∃ c0 c, ∃ n : Int, new p = .val c0 ∧ runHll c0 h = .val c ∧ count log c = .val n ∧ poissonCount c = .val n ∧
      usedAlpha p.toNat * (2 ^ p.toNat) ^ 2 / ertlSum p.toNat ((live h).map fun v => fnv1 (nats v)) * (1 - 1 / 2 ^ 28) ≤ n ∧
      n < usedAlpha p.toNat * (2 ^ p.toNat) ^ 2 / ertlSum p.toNat ((live h).map fun v => fnv1 (nats v)) * (1 + 1 / 2 ^ 28) + 1 := by
  have hne : live h ≠ [] := by
    intro h0
    rw [h0, List.map_nil] at hbeyond
    have e0 : emptyRegisters p.toNat [] = 2 ^ p.toNat := by
      unfold emptyRegisters
      rw [List.filter_eq_self.2 (by simp), List.length_range]
    rw [e0] at hbeyond
    rcases hbeyond with hb | hb
    · exact absurd hb (Nat.two_pow_pos _).ne'
    · have : linearEstimate p.toNat (2 ^ p.toNat) = 0 := by
        unfold linearEstimate
        push_cast
        rw [div_self (by positivity), Real.log_one, mul_zero]
      rw [this, zero_mul] at hb
      exact absurd hb (not_lt.2 (Nat.cast_nonneg _))
  obtain ⟨c0, c, n, e0, e, g, g1⟩ := C69_used_partial p h4 h18 h hne hS hroom
  refine ⟨c0, c, n, e0, e, ?_, g, g1⟩
  obtain ⟨c1, c', e1, e', hp, hr⟩ := runHll_fresh p h4 h18 h
  rw [e0] at e1
  have e1 := Out.val.inj e1
  subst e1
  rw [e] at e'
  have e' := Out.val.inj e'
  subst e'
  rw [count_is_large hl hp hr hbeyond, countLarge_poisson (hs := hashes (live h)) (by rw [hp]; exact hr) (by rw [hp]; exact hlarge)]
  exact g

/-! ### an empty counter -/

theorem poisson_empty {c : Counter} (h : WF c) (hf : ∀ i, i < 2 ^ c.p.toNat →
    (Bitbucket.field c.bits.data (i * c.bits.w.toNat) c.bits.w.toNat).toNat = 0) : poisson c = .val (.inf false) := by
  have hp := h.p18
  have hp4 := h.p4
  have hn : c.bits.n.toNat = 2 ^ c.p.toNat := by rw [h.n, Int.toNat_natCast]
  have h18 : 2 ^ c.p.toNat ≤ 2 ^ 18 := Nat.pow_le_pow_right (by omega) hp
  have hpos := Nat.two_pow_pos c.p.toNat
  unfold poisson
  simp only
  rw [mInt_eq c.p h.p18, Int.toNat_natCast]
  obtain ⟨cn, e, hC⟩ := tally_exactly h.bits h.w (f := fun _ => 0) (m := 2 ^ c.p.toNat) (by rw [hn]; exact hf) (by omega)
  have hC0 : cn.getD 0 0 = 2 ^ c.p.toNat := by
    rw [hC]
    unfold exactly
    rw [List.countP_eq_length.2 (by simp), List.length_range']
  have hcn : ∀ j, cn.getD j 0 ≤ 2 ^ c.p.toNat := fun j => by
    rw [hC]
    unfold exactly
    refine Nat.le_trans List.countP_le_length ?_
    rw [List.length_range']
  rw [e, Out.bind_val, if_neg (by omega)]
  have eq1 : ((64 : Int) - c.p.toNat + 1).toNat = 64 - c.p.toNat + 1 := by omega
  have eq2 : ((64 : Int) - c.p.toNat).toNat = 64 - c.p.toNat := by omega
  rw [eq1, eq2, hC0]
  obtain ⟨t, et, bt, -, -⟩ := tau_close hp (hcn (64 - c.p.toNat + 1))
  rw [et, Out.bind_val]
  obtain ⟨em, bm⟩ := mul_le_rep (x := F64.ofInt ((2 ^ c.p.toNat : Nat) : Int)) (y := .fin false t) (ofInt_is (by omega)) rfl
    (rep_pow_one 30) (pow_one_lt (by omega)) (by
      calc 2 ^ c.p.toNat * F64.one * t ≤ 2 ^ 18 * F64.one * (1075 * F64.one) := Nat.mul_le_mul (Nat.mul_le_mul_right _ h18) bt
        _ = 2 ^ 18 * 1075 * F64.one * F64.one := by ring
        _ ≤ _ := Nat.mul_le_mul_right _ (Nat.mul_le_mul_right _ (by omega)))
  rw [em]
  obtain ⟨Y, eY, _⟩ := fold_acc (cn := cn) (C := fun j => cn.getD j 0) (fun _ => rfl) (fun j => Nat.le_trans (hcn j) h18) (64 - c.p.toNat) _
    0 1 0 (rv (F64.rnd (2 ^ c.p.toNat * F64.one * t) F64.one)) 0 bm (le_refl _) (by norm_num) (le_refl _) (le_refl _)
    (by rw [zero_mul, sub_zero]; exact rv_nonneg _) (by rw [one_mul, add_zero])
  rw [eY]
  have hs : sigma ((2 ^ c.p.toNat : Nat) : Int) ((2 ^ c.p.toNat : Nat) : Int) = .val (.inf false) := by
    unfold sigma
    rw [quot_is hp (Nat.le_refl _), pow_split hp]
    dsimp only
    rw [if_pos]
    rw [ofNat_is (by omega), Nat.one_mul]
    decide +kernel
  rw [hs, Out.bind_val, ofInt_is (by omega)]
  have hm0 : ¬ (2 ^ c.p.toNat * F64.one = 0) := (Nat.mul_pos hpos F64.one_pos).ne'
  generalize 2 ^ c.p.toNat * F64.one = m at hm0 ⊢
  cases m with
  | zero => exact absurd rfl hm0
  | succ m => rfl

/-- **C69** for a counter that holds nothing: `PoissonCount` is 0. -/
theorem C69_empty (p : Byte) (h4 : 4 ≤ p.toNat) (h18 : p.toNat ≤ 18) (h : AddHist) (hnil : live h = []) :
    ∃ c0 c, new p = .val c0 ∧ runHll c0 h = .val c ∧ poissonCount c = .val 0 := by
  obtain ⟨c0, c, e0, e, hp, hr⟩ := runHll_fresh p h4 h18 h
  refine ⟨c0, c, e0, e, ?_⟩
  rw [← hp] at hr
  obtain ⟨A, T, hA, _, _, h34, hrep, _⟩ := alpha_is hr.wf.p4 hr.wf.p18
  unfold poissonCount
  rw [poisson_empty hr.wf (fun i hi => by rw [regs_field hr i hi, hnil]; rfl), Out.bind_val, estimate_inf hr.wf hA hrep h34]
  rfl

/-! ### the constant below 512 registers -/

theorem ertlSigma_zero : ertlSigma 0 = 0 := by
  unfold ertlSigma
  have : (fun k : ℕ => (0 : ℝ) ^ 2 ^ (k + 1) * 2 ^ k) = fun _ => 0 := by
    funext k
    rw [zero_pow (Nat.two_pow_pos _).ne', zero_mul]
  rw [this, tsum_zero, add_zero]

theorem ertlTau_one : ertlTau 1 = 0 := by
  unfold ertlTau
  simp

theorem full16_ertl : ertlSum 4 ((live full16).map fun v => fnv1 (nats v)) = 331 / 512 := by
  have h0 : registersWith 4 ((live full16).map fun v => fnv1 (nats v)) 0 = 0 := by decide +kernel
  have h61 : registersWith 4 ((live full16).map fun v => fnv1 (nats v)) (64 - 4 + 1) = 0 := by decide +kernel
  have hk : (List.range (64 - 4)).map (fun k => registersWith 4 ((live full16).map fun v => fnv1 (nats v)) (k + 1))
      = [0, 0, 0, 8, 3, 3, 0, 1, 1] ++ List.replicate 51 0 := by decide +kernel
  have hz : (List.range (64 - 4)).map (fun k => (registersWith 4 ((live full16).map fun v => fnv1 (nats v)) (k + 1) : ℝ) / 2 ^ (k + 1))
      = ((List.range (64 - 4)).zip ((List.range (64 - 4)).map fun k => registersWith 4 ((live full16).map fun v => fnv1 (nats v)) (k + 1))).map
        fun x => (x.2 : ℝ) / 2 ^ (x.1 + 1) := by
    generalize List.range (64 - 4) = l
    induction l with
    | nil => rfl
    | cons a l ih => rw [List.map_cons, List.map_cons, List.zip_cons_cons, List.map_cons, ih]
  unfold ertlSum
  rw [h0, h61, hz, hk]
  norm_num [ertlSigma_zero, ertlTau_one, List.range_succ, List.replicate]

/-- **C69** is false below 512 registers: for the sixteen values of `full16` on a counter of precision 4 Ertl's estimate is above
285, but `PoissonCount` is 267, because it uses the constant 0.673 of the original HyperLogLog. -/
theorem C69_alpha_refuted : (do
    let c0 ← new 4#8
    let c ← runHll c0 full16
    poissonCount c) = .val 267 ∧ 285 < ertlEstimate 4 ((live full16).map fun v => fnv1 (nats v)) := by
  refine ⟨by decide +kernel, ?_⟩
  have h2 := Real.log_two_lt_d9
  have h0 : 0 < 2 * Real.log 2 := by linarith [Real.log_pos (by norm_num : (1 : ℝ) < 2)]
  unfold ertlEstimate
  rw [full16_ertl, lt_div_iff₀ (by norm_num), div_mul_eq_mul_div, one_mul, lt_div_iff₀ h0]
  norm_num at *
  linarith

/-! ### the hypotheses can be met -/

/-- an empty register keeps the estimate small -/
theorem ertlSum_ge {p : Nat} (hs : List Nat) : (registersWith p hs 0 : ℝ) ≤ ertlSum p hs := by
  have hlen : ∀ r, (registersWith p hs r : ℝ) ≤ 2 ^ p := fun r => by
    have : registersWith p hs r ≤ 2 ^ p := by
      unfold registersWith
      refine Nat.le_trans (List.length_filter_le _ _) ?_
      rw [List.length_range]
    exact_mod_cast this
  have hm : (0 : ℝ) < 2 ^ p := by positivity
  have h1 : (registersWith p hs 0 : ℝ) ≤ 2 ^ p * ertlSigma (registersWith p hs 0 / 2 ^ p) := by
    have : (registersWith p hs 0 : ℝ) / 2 ^ p ≤ ertlSigma (registersWith p hs 0 / 2 ^ p) := by
      unfold ertlSigma
      have : (0 : ℝ) ≤ ∑' k : ℕ, ((registersWith p hs 0 : ℝ) / 2 ^ p) ^ 2 ^ (k + 1) * 2 ^ k := tsum_nonneg fun k => by positivity
      linarith
    rw [div_le_iff₀ hm] at this
    linarith
  have h2 : 0 ≤ ((List.range (64 - p)).map fun k => (registersWith p hs (k + 1) : ℝ) / 2 ^ (k + 1)).sum := by
    apply List.sum_nonneg
    intro x hx
    obtain ⟨j, _, rfl⟩ := List.mem_map.1 hx
    positivity
  have h3 : 0 ≤ ertlTau (1 - registersWith p hs (64 - p + 1) / 2 ^ p) := by
    have h0 : 0 ≤ 1 - (registersWith p hs (64 - p + 1) : ℝ) / 2 ^ p := by
      rw [sub_nonneg, div_le_one hm]; exact hlen _
    have h1 : 1 - (registersWith p hs (64 - p + 1) : ℝ) / 2 ^ p ≤ 1 := by
      rw [sub_le_self_iff]; positivity
    rw [tau_eq h0 h1]
    refine tsum_nonneg fun k => ?_
    exact tterm_nonneg h0 h1 k
  have h4 : 0 ≤ 2 ^ p * ertlTau (1 - registersWith p hs (64 - p + 1) / 2 ^ p) / 2 ^ (64 - p) := by positivity
  unfold ertlSum
  linarith

theorem ertl_room {p : Nat} (h18 : p ≤ 18) {hs : List Nat} (h : 1 ≤ registersWith p hs 0) : 0 < ertlSum p hs ∧ ertlEstimate p hs ≤ 2 ^ 62 := by
  have h1 : (1 : ℝ) ≤ ertlSum p hs := le_trans (by exact_mod_cast h) (ertlSum_ge hs)
  have h2 := Real.log_two_gt_d9
  have hm : ((2 : ℝ) ^ p) ^ 2 ≤ 2 ^ 36 := by rw [← pow_mul]; exact pow_le_pow_right₀ (by norm_num) (by omega)
  refine ⟨by linarith, ?_⟩
  unfold ertlEstimate
  rw [div_mul_eq_mul_div, one_mul, div_div, div_le_iff₀ (by nlinarith)]
  have : (1 : ℝ) ≤ 2 * Real.log 2 * ertlSum p hs := by nlinarith
  norm_num at *; linarith

theorem countedSum_map (p : Nat) (hs : List Nat) : countedSum p hs
    = (((List.range (2 ^ p)).map (hllRegister p hs)).map fun r => if r = 0 then (1 : ℝ) / 2 else 1 / 2 ^ r).sum := by
  unfold countedSum; rw [List.map_map]; rfl

/-- a city on a counter of precision 9 meets the hypotheses of `C69_partial` -/
example : live [some (asc "Paris")] ≠ [] ∧ 0 < ertlSum 9 ((live [some (asc "Paris")]).map fun v => fnv1 (nats v)) ∧
    ertlEstimate 9 ((live [some (asc "Paris")]).map fun v => fnv1 (nats v)) ≤ 2 ^ 62 :=
  ⟨by decide, ertl_room (by omega) (by decide +kernel)⟩

/-- a full counter of precision 4 meets those of `C69_used_partial` -/
example : live full16 ≠ [] ∧ 0 < ertlSum 4 ((live full16).map fun v => fnv1 (nats v)) ∧
    ertlEstimate 4 ((live full16).map fun v => fnv1 (nats v)) ≤ 2 ^ 62 := by
  refine ⟨by decide +kernel, by rw [full16_ertl]; norm_num, ?_⟩
  have h2 := Real.log_two_gt_d9
  unfold ertlEstimate
  rw [full16_ertl, div_mul_eq_mul_div, one_mul, div_div, div_le_iff₀ (by nlinarith)]
  norm_num at *; linarith

/-- eight of the values of `full16`: half of the registers are filled, linear counting no longer applies (`16 ln 2 > 10`) and the
hypotheses of `C69_count_partial` are met -/
example : linearThreshold 4 < linearEstimate 4 (emptyRegisters 4 ((live (full16.take 8)).map fun v => fnv1 (nats v))) * (1 - 1 / 2 ^ 33) ∧
    countLimit 4 * (1 + 1 / 2 ^ 30) ≤ countedSum 4 ((live (full16.take 8)).map fun v => fnv1 (nats v)) ∧
    0 < ertlSum 4 ((live (full16.take 8)).map fun v => fnv1 (nats v)) ∧
    ertlEstimate 4 ((live (full16.take 8)).map fun v => fnv1 (nats v)) ≤ 2 ^ 62 := by
  refine ⟨?_, ?_, ertl_room (by omega) (by decide +kernel)⟩
  · have e : emptyRegisters 4 ((live (full16.take 8)).map fun v => fnv1 (nats v)) = 8 := by decide +kernel
    have hT : linearThreshold 4 = 10 := rfl
    rw [e, hT]
    unfold linearEstimate
    have h2 := Real.log_two_gt_d9
    norm_num at *
    linarith
  · have e : (List.range (2 ^ 4)).map (hllRegister 4 ((live (full16.take 8)).map fun v => fnv1 (nats v)))
        = [4, 4, 5, 4, 4, 6, 5, 4, 0, 0, 0, 0, 0, 0, 0, 0] := by decide +kernel
    rw [countedSum_map, e]
    norm_num [countLimit, usedAlpha, usedNum, usedDen, alphaNum, alphaDen]

end Starbow.Props
