import Verif.Proof.HllLin
import Verif.Props.Hll
import Mathlib.Analysis.Complex.ExponentialBounds
/-
Property theorems C14, C55 and C56: the HyperLogLog estimate.
-/
namespace Starbow.Props
open Starbow Starbow.Spec Starbow.Hll

/-- **C55**: for every precision 4..18 and every history of Add and Reset calls, each of the four estimators returns; none
panics and no loop runs forever. -/
theorem C55_estimators_return (log : F64 → F64) (p : Byte) (h4 : 4 ≤ p.toNat) (h18 : p.toNat ≤ 18) (h : AddHist) :
    ∃ c0 c, new p = .val c0 ∧ runHll c0 h = .val c ∧ (∃ n, count log c = .val n) ∧ (∃ n, linearCount log c = .val n) ∧
      (∃ n, harmonicCount c = .val n) ∧ (∃ n, poissonCount c = .val n) := by
  obtain ⟨c0, c, e0, e, _, hr⟩ := runHll_fresh p h4 h18 h
  exact ⟨c0, c, e0, e, count_ok log hr.wf, linearCount_ok log hr.wf, harmonicCount_ok hr.wf, poissonCount_ok hr.wf⟩

theorem hllRegister_zero (p : Nat) (hs : List Nat) (i : Nat) : hllRegister p hs i = 0 ↔ ∀ h ∈ hs, hllIndex p h ≠ i := by
  unfold hllRegister
  have hr : ∀ h, 1 ≤ hllRank p h := fun h => by unfold hllRank; omega
  constructor
  · intro h0 h hh he
    have := (foldl_max_ge (hs.map fun h => if hllIndex p h = i then hllRank p h else 0) 0).2 _ (List.mem_map_of_mem hh)
    rw [if_pos he] at this
    have := hr h
    omega
  · intro hall
    rcases foldl_max_mem (hs.map fun h => if hllIndex p h = i then hllRank p h else 0) 0 with h | h
    · exact h
    · obtain ⟨x, hx, e⟩ := List.mem_map.1 h
      rw [if_neg (hall x hx)] at e
      exact e.symm

/-- the counter's number of zero registers -/
theorem zeroRegisters {c : Counter} {hs : List Nat} (hr : Regs c (regsOf c.p.toNat hs)) :
    Bitbucket.countN c.bits 0#8 = .val (emptyRegisters c.p.toNat hs) := by
  unfold Bitbucket.countN
  rw [Bitbucket.countNLoop_eq hr.wf.bits _ _ 0 0 (by omega)]
  unfold emptyRegisters
  rw [Nat.zero_add, ← List.countP_eq_length_filter]
  have hn : c.bits.n.toNat = 2 ^ c.p.toNat := by rw [hr.wf.n, Int.toNat_natCast]
  rw [← List.range_eq_range', hn]
  congr 1
  apply List.countP_congr
  intro i hi
  have hi' : i < 2 ^ c.p.toNat := List.mem_range.1 hi
  have hv := hr.holds.val i (by rw [hn]; exact hi')
  have e : (regsOf c.p.toNat hs).getD i 0 = hllRegister c.p.toNat hs i := by
    unfold regsOf
    rw [List.getD_eq_getElem?_getD, List.getElem?_map, List.getElem?_range hi']
    rfl
  rw [e] at hv
  have h0 := hllRegister_zero c.p.toNat hs i
  rw [← hv] at h0
  simp only [decide_eq_true_eq, List.all_eq_true, bne_iff_ne]
  rw [← h0]
  constructor
  · intro hx; rw [hx]; rfl
  · intro hx; exact BitVec.eq_of_toNat_eq hx

/-- **C14**, the general statement that does hold: as long as linear counting applies, Count is the linear counting estimate
`m ln(m/v)` for the `v` registers that no live value selects, rounded up, with a relative error of at most `2^-33`. -/
theorem C14_linear_partial (log : F64 → F64) (hl : LogOk log) (p : Byte) (h4 : 4 ≤ p.toNat) (h18 : p.toNat ≤ 18) (h : AddHist)
    (hv : 1 ≤ emptyRegisters p.toNat ((live h).map fun v => fnv1 (nats v)))
    (hT : linearEstimate p.toNat (emptyRegisters p.toNat ((live h).map fun v => fnv1 (nats v))) * (1 + 1 / 2 ^ 33)
      ≤ linearThreshold p.toNat) :
    ∃ c0 c, ∃ n : Int, new p = .val c0 ∧ runHll c0 h = .val c ∧ count log c = .val n ∧
      linearEstimate p.toNat (emptyRegisters p.toNat ((live h).map fun v => fnv1 (nats v))) * (1 - 1 / 2 ^ 33) ≤ n ∧
      n < linearEstimate p.toNat (emptyRegisters p.toNat ((live h).map fun v => fnv1 (nats v))) * (1 + 1 / 2 ^ 33) + 1 := by
  obtain ⟨c0, c, e0, e, hp, hr⟩ := runHll_fresh p h4 h18 h
  rw [← hp] at hr
  have hz := zeroRegisters hr
  rw [hp] at hz
  have hle : emptyRegisters p.toNat ((live h).map fun v => fnv1 (nats v)) ≤ 2 ^ p.toNat := by
    unfold emptyRegisters
    refine Nat.le_trans (List.length_filter_le _ _) ?_
    rw [List.length_range]
  obtain ⟨n, h1, h2, h3⟩ := count_linear hl hr.wf hz hv (by rw [hp]; exact hle) (by rw [hp]; exact hT)
  rw [hp] at h2 h3
  exact ⟨c0, c, n, e0, e, h1, h2, h3⟩

theorem emptyRegisters_nil (p : Nat) : emptyRegisters p [] = 2 ^ p := by
  unfold emptyRegisters
  simp

/-- **C14**, first half: an empty or reset counter estimates 0. -/
theorem C14_empty_partial (log : F64 → F64) (hl : LogOk log) (p : Byte) (h4 : 4 ≤ p.toNat) (h18 : p.toNat ≤ 18) (h : AddHist)
    (hempty : live h = []) : ∃ c0 c, new p = .val c0 ∧ runHll c0 h = .val c ∧ count log c = .val 0 := by
  have e0 : linearEstimate p.toNat (2 ^ p.toNat) = 0 := by
    unfold linearEstimate
    push_cast
    rw [div_self (by positivity), Real.log_one, mul_zero]
  obtain ⟨c0, c, n, g0, g, g1, g2, g3⟩ := C14_linear_partial log hl p h4 h18 h
    (by rw [hempty, List.map_nil, emptyRegisters_nil]; exact Nat.two_pow_pos _)
    (by rw [hempty, List.map_nil, emptyRegisters_nil, e0, zero_mul]; positivity)
  rw [hempty, List.map_nil, emptyRegisters_nil, e0] at g2 g3
  have : n = 0 := by
    have h1 : (0 : ℝ) ≤ n := by linarith
    have h2 : (n : ℝ) < 1 := by linarith
    have h1' : 0 ≤ n := by exact_mod_cast h1
    have h2' : n < 1 := by exact_mod_cast h2
    omega
  rw [this] at g1
  exact ⟨c0, c, g0, g, g1⟩

theorem emptyRegisters_const (p : Nat) (hs : List Nat) (h : Nat) (hi : hllIndex p h < 2 ^ p) (hne : hs ≠ [])
    (hall : ∀ x ∈ hs, x = h) : emptyRegisters p hs = 2 ^ p - 1 := by
  unfold emptyRegisters
  have e : ((List.range (2 ^ p)).filter fun i => hs.all fun h => hllIndex p h != i)
      = (List.range (2 ^ p)).filter fun i => !(i == hllIndex p h) := by
    apply List.filter_congr
    intro i _
    rw [Bool.eq_iff_iff]
    simp only [List.all_eq_true, bne_iff_ne, Bool.not_eq_true', beq_eq_false_iff_ne]
    constructor
    · intro hx
      obtain ⟨x, hx'⟩ := List.exists_mem_of_ne_nil hs hne
      have := hx x hx'
      rw [hall x hx'] at this
      exact fun e => this e.symm
    · intro hx x hx'
      rw [hall x hx']
      exact fun e => hx e.symm
  rw [e, ← List.countP_eq_length_filter]
  have h1 := List.length_eq_countP_add_countP (fun i => i == hllIndex p h) (l := List.range (2 ^ p))
  have h2 : (List.range (2 ^ p)).countP (fun i => i == hllIndex p h) = 1 :=
    List.count_eq_one_of_mem List.nodup_range (List.mem_range.2 hi)
  rw [h2, List.length_range] at h1
  have h3 : (List.range (2 ^ p)).countP (fun a => decide ¬(a == hllIndex p h) = true)
      = (List.range (2 ^ p)).countP (fun i => !(i == hllIndex p h)) := by
    apply List.countP_congr; intro i _; simp
  rw [h3] at h1
  omega

/-- `1 < m ln(m/(m-1)) < 3/2` -/
theorem linearEstimate_one {p : Nat} (h4 : 4 ≤ p) (h18 : p ≤ 18) :
    1 + 1 / 2 ^ 19 ≤ linearEstimate p (2 ^ p - 1) ∧ linearEstimate p (2 ^ p - 1) ≤ 3 / 2 := by
  unfold linearEstimate
  have hm4 : 2 ^ 4 ≤ 2 ^ p := Nat.pow_le_pow_right (by omega) h4
  have hm18 : 2 ^ p ≤ 2 ^ 18 := Nat.pow_le_pow_right (by omega) h18
  have e : ((2 ^ p - 1 : Nat) : ℝ) = (2 : ℝ) ^ p - 1 := by
    rw [Nat.cast_sub (by omega)]; push_cast; rfl
  rw [e]
  have h1 : (16 : ℝ) ≤ 2 ^ p := by exact_mod_cast hm4
  have h2 : (2 : ℝ) ^ p ≤ 2 ^ 18 := by exact_mod_cast hm18
  generalize (2 : ℝ) ^ p = m at *
  have e1 : m / (m - 1) = 1 + 1 / (m - 1) := by
    have : m - 1 ≠ 0 := by linarith
    field_simp; ring
  have hpos : (0 : ℝ) < m - 1 := by linarith
  constructor
  · rw [e1]
    have := Real.le_log_one_add_of_nonneg (x := 1 / (m - 1)) (by positivity)
    have e2 : 2 * (1 / (m - 1)) / (1 / (m - 1) + 2) = 2 / (2 * m - 1) := by
      have : m - 1 ≠ 0 := by linarith
      have : 2 * m - 1 ≠ 0 := by linarith
      field_simp; ring
    rw [e2] at this
    refine le_trans ?_ (mul_le_mul_of_nonneg_left this (by linarith))
    rw [← mul_div_assoc, le_div_iff₀ (by linarith)]
    norm_num at *
    linarith
  · have hy : 0 < m / (m - 1) := by apply div_pos <;> linarith
    have := Real.log_le_sub_one_of_pos hy
    rw [e1] at this ⊢
    calc m * Real.log (1 + 1 / (m - 1)) ≤ m * (1 + 1 / (m - 1) - 1) := mul_le_mul_of_nonneg_left this (by linarith)
      _ = m / (m - 1) := by ring
      _ ≤ 3 / 2 := by rw [div_le_div_iff₀ hpos (by norm_num)]; linarith

/-- **C14**, second half, is false: a counter that has seen exactly one distinct value, any number of times, estimates 2, at
every precision and for every value. -/
theorem C14_single_is_two (log : F64 → F64) (hl : LogOk log) (p : Byte) (h4 : 4 ≤ p.toNat) (h18 : p.toNat ≤ 18) (h : AddHist)
    (v : Bytes) (hne : live h ≠ []) (hall : ∀ w ∈ live h, w = v) :
    ∃ c0 c, new p = .val c0 ∧ runHll c0 h = .val c ∧ count log c = .val 2 := by
  have hi : hllIndex p.toNat (fnv1 (nats v)) < 2 ^ p.toNat := by
    have := (idx_toInt p h4 h18 (Fnv.sum64 v)).2
    rw [Fnv.sum64_toNat] at this
    exact this
  have he := emptyRegisters_const p.toNat ((live h).map fun v => fnv1 (nats v)) (fnv1 (nats v)) hi (by simpa using hne) (by
    intro x hx
    obtain ⟨w, hw, rfl⟩ := List.mem_map.1 hx
    rw [hall w hw])
  obtain ⟨b1, b2⟩ := linearEstimate_one h4 h18
  have hT := (threshold_eq p h4 h18).2.1
  have hT' : (10 : ℝ) ≤ (linearThreshold p.toNat : ℝ) := by exact_mod_cast hT
  have h16 : 2 ^ 4 ≤ 2 ^ p.toNat := Nat.pow_le_pow_right (by omega) h4
  obtain ⟨c0, c, n, g0, g, g1, g2, g3⟩ := C14_linear_partial log hl p h4 h18 h (by rw [he]; omega) (by
    rw [he]; refine le_trans ?_ hT'; norm_num at *; linarith)
  rw [he] at g2 g3
  have : n = 2 := by
    have h1 : (1 : ℝ) < n := by refine lt_of_lt_of_le ?_ g2; norm_num at *; linarith
    have h2 : (n : ℝ) < 3 := by refine lt_of_lt_of_le g3 ?_; norm_num at *; linarith
    have h1' : 1 < n := by exact_mod_cast h1
    have h2' : n < 3 := by exact_mod_cast h2
    omega
  rw [this] at g1
  exact ⟨c0, c, g0, g, g1⟩

/-- 29 values that select 29 different registers at precision 6, each with rank 1 -/
def crowd : AddHist := (["0", "1000", "3000", "6000", "7000", "8000", "9100", "11000", "14000", "16000", "21000", "22000", "23000", "24000", "29500", "32000", "40000", "41000", "42000", "46000", "47000", "49000", "50000", "51000", "52000", "58000", "59000", "62000", "65000"]).map fun s => some (asc s)


/-- the counter after the crowd and one more value, evaluated -/
theorem crowd_large : (do
    let c0 ← new 6#8
    let c ← runHll c0 (crowd ++ [some (asc "66000")])
    countLarge c) = .val 37 := by decide +kernel

theorem crowd_empty : emptyRegisters 6 ((live crowd).map fun v => fnv1 (nats v)) = 35 := by decide +kernel

theorem crowd_empty' : emptyRegisters 6 ((live (crowd ++ [some (asc "66000")])).map fun v => fnv1 (nats v)) = 34 := by
  decide +kernel

/-- **C56** is false: adding a value can lower the estimate. After 29 values Count is at least 39; adding a thirtieth, new
value makes it 37. -/
theorem C56_count_can_drop (log : F64 → F64) (hl : LogOk log) :
    ∃ c0 c c', ∃ n : Int, new 6#8 = .val c0 ∧ runHll c0 crowd = .val c ∧ runHll c0 (crowd ++ [some (asc "66000")]) = .val c' ∧
      count log c = .val n ∧ 39 ≤ n ∧ count log c' = .val 37 := by
  have l1 := Real.log_two_gt_d9
  have l2 := Real.log_two_lt_d9
  have e6 : (6#8).toNat = 6 := rfl
  have hT : linearThreshold 6 = 40 := rfl
  have x35 : linearEstimate 6 35 = 64 * (Real.log 2 + Real.log (32 / 35)) := by
    unfold linearEstimate
    rw [← Real.log_mul (by norm_num) (by norm_num)]; norm_num
  have x34 : linearEstimate 6 34 = 64 * (Real.log 2 + Real.log (32 / 34)) := by
    unfold linearEstimate
    rw [← Real.log_mul (by norm_num) (by norm_num)]; norm_num
  have u35 := Real.log_le_sub_one_of_pos (x := 32 / 35) (by norm_num)
  have v35 := Real.one_sub_inv_le_log_of_pos (x := 32 / 35) (by norm_num)
  have v34 := Real.one_sub_inv_le_log_of_pos (x := 32 / 34) (by norm_num)
  obtain ⟨c0, c, n, g0, g, g1, g2, g3⟩ := C14_linear_partial log hl 6#8 (by decide) (by decide) crowd
    (by rw [e6, crowd_empty]; omega)
    (by rw [e6, crowd_empty, x35, hT]; norm_num at *; linarith)
  rw [e6, crowd_empty, x35] at g2
  have hn : 39 ≤ n := by
    have h1 : (38 : ℝ) < n := by refine lt_of_lt_of_le ?_ g2; norm_num at *; linarith
    have h1' : 38 < n := by exact_mod_cast h1
    omega
  obtain ⟨c0', c', f0, f, hp, hr⟩ := runHll_fresh 6#8 (by decide) (by decide) (crowd ++ [some (asc "66000")])
  rw [g0] at f0
  have f0 := Out.val.inj f0
  subst f0
  refine ⟨c0, c, c', n, g0, g, f, g1, hn, ?_⟩
  rw [← hp] at hr
  have hz := zeroRegisters hr
  have hz' : Bitbucket.countN c'.bits 0#8 = .val 34 := by
    rw [hz, hp, e6]; exact congrArg _ crowd_empty'
  rw [count_beyond hl hr.wf hz' (by omega) (by rw [hp, e6]; omega) (by
    rw [hp, e6, x34, hT]; norm_num at *; linarith)]
  have := crowd_large
  rw [g0, Out.bind_val, f, Out.bind_val] at this
  exact this


/-! ### the assumption about `math.Log` can be met -/

/-- a double other than 1 is at least `2^-53` away from 1 -/
theorem away_from_one {m : Nat} (hr : F64.Rep m) (hne : m ≠ F64.one) :
    m + 2 ^ (F64.expOne - 53) ≤ F64.one ∨ F64.one + 2 ^ (F64.expOne - 53) ≤ m := by
  have e1 : F64.one = 2 ^ (F64.expOne - 53) * 2 ^ 53 := by
    rw [F64.one_eq, ← Nat.pow_add, F64.expOne_eq]
  by_cases hs : 2 ^ (F64.expOne - 53) * 2 ^ 52 ≤ m
  · have h1 : F64.expOne - 53 ≤ F64.shiftOf m := F64.le_shiftOf_of_le (by rw [Nat.pow_add, Nat.mul_comm]; exact hs)
    obtain ⟨k, hk⟩ := Nat.dvd_trans (Nat.pow_dvd_pow 2 h1) hr
    rw [hk, e1] at hne
    rw [hk, e1]
    clear hk hs h1 hr e1
    generalize 2 ^ (F64.expOne - 53) = u at *
    rcases Nat.lt_trichotomy k (2 ^ 53) with h | h | h
    · left
      calc u * k + u = u * (k + 1) := by ring
        _ ≤ u * 2 ^ 53 := Nat.mul_le_mul_left _ h
    · exact absurd (by rw [h]) hne
    · right
      calc u * 2 ^ 53 + u = u * (2 ^ 53 + 1) := by ring
        _ ≤ u * k := Nat.mul_le_mul_left _ h
  · left
    rw [e1]
    generalize 2 ^ (F64.expOne - 53) = u at *
    omega

/-- the natural logarithm, rounded towards zero to a multiple of the smallest double -/
noncomputable def refLog (x : F64) : F64 :=
  match value x with
  | some q => .fin (decide (Real.log q < 0)) ⌊|Real.log q| * F64.one⌋₊
  | none => .nan

theorem log_ge {q : ℝ} (hq : 0 < q) {d : ℝ} (hd : d ≤ 1) (h : q + d ≤ 1 ∨ 1 + d ≤ q) : d / 2 ≤ |Real.log q| := by
  rcases h with h | h
  · by_cases h0 : d ≤ 0
    · have := abs_nonneg (Real.log q); linarith
    have h1 := Real.log_le_sub_one_of_pos hq
    rw [abs_of_nonpos (by linarith)]
    linarith
  · by_cases h0 : d ≤ 0
    · have := abs_nonneg (Real.log q); linarith
    have h1 := Real.one_sub_inv_le_log_of_pos hq
    refine le_trans (le_trans ?_ h1) (le_abs_self _)
    rw [le_sub_iff_add_le, inv_eq_one_div, div_add_div _ _ (by norm_num) hq.ne', div_le_one (by positivity)]
    nlinarith

theorem refLog_ok : LogOk refLog := by
  intro x q hd hv hq
  have ho := one_real_pos
  refine ⟨(if Real.log q < 0 then -(⌊|Real.log q| * F64.one⌋₊ : ℚ) else ⌊|Real.log q| * F64.one⌋₊) / 2 ^ 1074, ?_, ?_⟩
  · unfold refLog
    rw [hv]
    by_cases h : Real.log q < 0
    · simp only [value, h, decide_true, if_true]
    · simp only [value, h, decide_false, if_false, Bool.false_eq_true]
  · obtain ⟨m, hx, hqm⟩ := value_pos hv hq
    have hwf := isDouble_iff.1 hd
    rw [hx] at hwf
    have e2 : ((2 ^ 1074 : ℚ) : ℝ) = F64.one := by rw [← one_rat]; norm_cast
    have hfl : ((⌊|Real.log q| * F64.one⌋₊ : Nat) : ℝ) ≤ |Real.log q| * F64.one := Nat.floor_le (by positivity)
    have hfu := Nat.lt_floor_add_one (|Real.log q| * (F64.one : ℝ))
    by_cases h1 : m = F64.one
    · have e : (q : ℝ) = 1 := by rw [hqm, h1, div_self ho.ne']
      rw [e, Real.log_one, abs_zero, zero_mul, Nat.floor_zero, if_neg (lt_irrefl _)]
      rw [Nat.cast_zero, zero_div, Rat.cast_zero, sub_zero, abs_zero, zero_div]
    · have hq' : (0 : ℝ) < q := by exact_mod_cast hq
      have haway := away_from_one hwf.1 h1
      have hu : ((2 ^ (F64.expOne - 53) : Nat) : ℝ) = F64.one / 2 ^ 53 := by
        have : F64.one = 2 ^ (F64.expOne - 53) * 2 ^ 53 := by rw [F64.one_eq, ← Nat.pow_add, F64.expOne_eq]
        rw [eq_div_iff (by positivity)]
        have h2 := congrArg (Nat.cast : ℕ → ℝ) this
        rw [Nat.cast_mul, Nat.cast_pow 2 53, Nat.cast_ofNat] at h2
        exact h2.symm
      have hd' : (1 : ℝ) / 2 ^ 53 / 2 ≤ |Real.log q| := by
        apply log_ge hq' (by norm_num)
        rw [hqm]
        rcases haway with h | h
        · left
          have h' : (m : ℝ) + ((2 ^ (F64.expOne - 53) : Nat) : ℝ) ≤ F64.one := by exact_mod_cast h
          rw [hu] at h'
          have : (m : ℝ) / F64.one + 1 / 2 ^ 53 = ((m : ℝ) + F64.one / 2 ^ 53) / F64.one := by field_simp
          rw [this, div_le_one ho]; exact h'
        · right
          have h' : (F64.one : ℝ) + ((2 ^ (F64.expOne - 53) : Nat) : ℝ) ≤ m := by exact_mod_cast h
          rw [hu] at h'
          have : (1 : ℝ) + 1 / 2 ^ 53 = (F64.one + F64.one / 2 ^ 53) / F64.one := by field_simp
          rw [this]; exact div_le_div_of_nonneg_right h' ho.le
      have hbig := one_big
      have hgap : (1 : ℝ) / F64.one ≤ |Real.log q| / 2 ^ 50 := by
        have : (1 : ℝ) / F64.one ≤ 1 / 2 ^ 200 := one_div_le_one_div_of_le (by positivity) hbig
        refine le_trans this (le_trans ?_ (div_le_div_of_nonneg_right hd' (by positivity)))
        norm_num
      generalize (⌊|Real.log q| * (F64.one : ℝ)⌋₊ : Nat) = k at *
      have hk1 : (k : ℝ) / F64.one ≤ |Real.log q| := by rw [div_le_iff₀ ho]; exact hfl
      have hk2 : |Real.log q| ≤ k / F64.one + 1 / F64.one := by
        rw [← add_div, le_div_iff₀ ho]; exact hfu.le
      push_cast at e2
      split
      · rename_i hneg
        push_cast
        rw [e2]
        rw [abs_of_neg hneg] at *
        have : -(k : ℝ) / F64.one = -(k / F64.one) := by ring
        rw [this, abs_le]
        constructor <;> linarith
      · rename_i hneg
        push_cast
        rw [e2]
        rw [abs_of_nonneg (not_lt.1 hneg)] at *
        rw [abs_le]
        constructor <;> linarith

/-- there are functions that satisfy the assumption, so the theorems above are not vacuous -/
example : ∃ log, LogOk log := ⟨refLog, refLog_ok⟩

example : live [some (asc "a"), none, some (asc "b"), some (asc "b")] ≠ [] ∧
    (∀ w ∈ live [some (asc "a"), none, some (asc "b"), some (asc "b")], w = asc "b") ∧
    live [some (asc "a"), none] = [] := by decide


/-! ### the estimate can be negative -/

/-- sixteen 14-byte values whose 64-bit FNV-1 hashes are `i * 2^60`, for `i` = 0..15 -/
def saturating : List Bytes := ([
  [5, 23, 7, 21, 8, 118, 5, 1, 5, 12, 249, 58, 21, 4],
  [9, 9, 30, 23, 9, 10, 30, 60, 13, 12, 8, 4, 9, 1],
  [46, 21, 1, 13, 53, 4, 0, 12, 23, 29, 112, 18, 113, 10],
  [5, 19, 21, 5, 1, 7, 25, 13, 0, 2, 61, 24, 57, 7],
  [4, 15, 18, 25, 5, 10, 2, 53, 20, 248, 55, 3, 8, 5],
  [3, 29, 30, 0, 17, 48, 11, 14, 120, 18, 4, 19, 13, 5],
  [57, 10, 3, 15, 63, 55, 31, 16, 14, 1, 30, 18, 8, 2],
  [9, 63, 2, 114, 25, 14, 26, 10, 17, 8, 112, 228, 59, 18],
  [8, 7, 26, 59, 4, 26, 6, 8, 241, 5, 15, 1, 10, 7],
  [60, 15, 9, 4, 27, 6, 19, 22, 10, 55, 26, 126, 4, 8],
  [4, 6, 8, 4, 15, 116, 6, 7, 9, 15, 10, 17, 12, 8],
  [5, 11, 7, 28, 122, 4, 255, 19, 1, 1, 24, 5, 40, 11],
  [8, 24, 13, 0, 30, 1, 4, 3, 7, 26, 251, 10, 6, 0],
  [48, 23, 21, 5, 16, 114, 124, 10, 8, 15, 255, 25, 13, 8],
  [51, 1, 2, 15, 127, 58, 4, 53, 2, 2, 15, 62, 252, 1],
  [4, 49, 1, 120, 6, 10, 50, 10, 13, 25, 51, 24, 9, 3]] : List (List Nat)).map fun v => v.map (BitVec.ofNat 8)

theorem saturating_hashes : (saturating.map fun v => fnv1 (nats v)) = (List.range 16).map fun i => i * 2 ^ 60 := by
  decide +kernel

theorem saturating_count : (do
    let c0 ← new 4#8
    let c ← runHll c0 (saturating.map some)
    countLarge c) = .val (-2 ^ 63) := by decide +kernel

theorem saturating_full : emptyRegisters 4 ((live (saturating.map some)).map fun v => fnv1 (nats v)) = 0 := by decide +kernel

/-- **C57** is false: sixteen short values make the counter of precision 4 report a negative number of distinct values (the
float64 estimate exceeds the int64 range; `int64(x)` is modelled as on amd64). -/
theorem C57_count_can_be_negative (log : F64 → F64) : ∃ vs : List Bytes, vs.length = 16 ∧ ∃ c0 c,
    new 4#8 = .val c0 ∧ runHll c0 (vs.map some) = .val c ∧ count log c = .val (-2 ^ 63) := by
  obtain ⟨c0, c, f0, f, hp, hr⟩ := runHll_fresh 4#8 (by decide) (by decide) (saturating.map some)
  refine ⟨saturating, by decide, c0, c, f0, f, ?_⟩
  rw [← hp] at hr
  have hz := zeroRegisters hr
  have hz' : Bitbucket.countN c.bits 0#8 = .val 0 := by
    rw [hz, hp]; exact congrArg _ saturating_full
  unfold count
  rw [hz', Out.bind_val, if_neg (fun h => absurd h.1 (by omega))]
  have := saturating_count
  rw [f0, Out.bind_val, f, Out.bind_val] at this
  exact this

end Starbow.Props
