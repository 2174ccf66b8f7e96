import Verif.Proof.Ieee
import Verif.Proof.See
import Verif.Spec.See
import Verif.Props.Stats
/-
Property theorems C71: `See` of internal/stats.
-/
namespace Starbow.Props
open Starbow Starbow.Spec Starbow.Hll

theorem eta_tiny : 8 * eta ≤ (1 / 2 ^ 240) ^ 2 := by
  have h : (2 : ℝ) ^ 250 * 2 ^ 250 ≤ F64.one := by
    have : 2 ^ 250 * 2 ^ 250 ≤ F64.one := by
      rw [F64.one_eq, ← Nat.pow_add]; exact Nat.pow_le_pow_right (by omega) (by rw [F64.expOne_eq]; omega)
    exact_mod_cast this
  unfold eta
  have h2 : 1 / (F64.one : ℝ) ≤ 1 / (2 ^ 250 * 2 ^ 250) := one_div_le_one_div_of_le (by positivity) h
  refine le_trans (mul_le_mul_of_nonneg_left h2 (by norm_num)) ?_
  norm_num

theorem sqrt_rv (R : Nat) : ∃ X, F64.sqrt (.fin false R) = .fin false X ∧ |rv X - Real.sqrt (rv R)| ≤ Real.sqrt (rv R) / 2 ^ 52 := by
  by_cases h : R = 0
  · subst h
    refine ⟨0, by simp [F64.sqrt], ?_⟩
    have : rv 0 = 0 := by unfold rv; simp
    rw [this, Real.sqrt_zero]; simp
  · refine ⟨F64.sqrtMag R, by simp [F64.sqrt, h], sqrt_close ?_⟩
    have h1 : 2 ^ 104 ≤ F64.one := by rw [F64.one_eq]; exact Nat.pow_le_pow_right (by omega) (by rw [F64.expOne_eq]; omega)
    calc 2 ^ 104 ≤ 1 * F64.one := by omega
      _ ≤ R * F64.one := Nat.mul_le_mul_right _ (by omega)

/-- in units: `See` of at least three numbers -/
theorem see_units {e : F64} {w : Int} (he : F64.Is e w) (hw : w.natAbs ≤ 2 ^ 200 * F64.one) {xs : List F64} {zs : List Int}
    (hx : List.Forall₂ F64.Is xs zs) (hz : ∀ z ∈ zs, z.natAbs ≤ 2 ^ 200 * F64.one) (h3 : 3 ≤ xs.length) (hn : xs.length ≤ 2 ^ 31) :
    ∃ X, Stats.see xs e = .fin false X ∧
      |rv X - Real.sqrt ((zs.map fun z => (((z - w : Int) : ℝ) / F64.one) ^ 2).sum / ((xs.length : ℝ) - 2))|
        ≤ Real.sqrt ((zs.map fun z => (((z - w : Int) : ℝ) / F64.one) ^ 2).sum / ((xs.length : ℝ) - 2)) * ((xs.length + 8) / 2 ^ 52) + 1 / 2 ^ 230 := by
  have ho := F64.one_pos
  obtain ⟨A, eA, bA, cA⟩ := Stats.squares_close he hw xs zs 0 0 0 hx hz (by omega) (by omega) (le_refl _) (by unfold rv; simp)
  rw [zero_add, Nat.zero_add] at cA
  rw [Nat.zero_add] at bA
  have hsum0 : 0 ≤ (zs.map fun z => (((z - w : Int) : ℝ) / F64.one) ^ 2).sum := by
    apply List.sum_nonneg
    intro x hx
    obtain ⟨j, _, rfl⟩ := List.mem_map.1 hx
    positivity
  generalize (zs.map fun z => (((z - w : Int) : ℝ) / F64.one) ^ 2).sum = σ at *
  have hsq : Stats.squares e xs = .fin false A := eA
  unfold Stats.see
  rw [hsq]
  have hi : ((xs.length : Int) - 2) = ((xs.length - 2 : Nat) : Int) := by omega
  have hd : ((xs.length - 2 : Nat) : ℝ) = (xs.length : ℝ) - 2 := by rw [Nat.cast_sub (by omega)]; norm_num
  rw [hi, ofInt_is (by omega), ← hd]
  have hd3 : (xs.length : ℝ) ≤ 3 * ((xs.length - 2 : Nat) : ℝ) := by
    have : xs.length ≤ 3 * (xs.length - 2) := by omega
    exact_mod_cast this
  have hdpos : 0 < xs.length - 2 := by omega
  have hnr : (xs.length : ℝ) ≤ 2 ^ 31 := by exact_mod_cast hn
  have hnr0 : (0 : ℝ) ≤ xs.length := Nat.cast_nonneg _
  generalize xs.length - 2 = d at *
  generalize xs.length = n at *
  have hdr : (1 : ℝ) ≤ d := by exact_mod_cast hdpos
  have hdo : 0 < d * F64.one := Nat.mul_pos hdpos ho
  -- the quotient
  have hrep : F64.Rep (n * (2 ^ 402 * F64.one)) := by rw [F64.one_eq, ← Nat.pow_add]; exact F64.rep_of_mul (by omega)
  have hlim : n * (2 ^ 402 * F64.one) < F64.limit := by
    calc n * (2 ^ 402 * F64.one) ≤ 2 ^ 31 * (2 ^ 402 * F64.one) := Nat.mul_le_mul_right _ (by omega)
      _ = 2 ^ (31 + 402) * F64.one := by rw [Nat.pow_add]; ring
      _ < F64.limit := pow_one_lt (by omega)
  have hR : F64.rnd (A * F64.one) (d * F64.one) ≤ n * (2 ^ 402 * F64.one) := by
    apply F64.rnd_le_of_rep hdo hrep
    calc A * F64.one ≤ n * (2 ^ 402 * F64.one) * F64.one := Nat.mul_le_mul_right _ bA
      _ ≤ n * (2 ^ 402 * F64.one) * (d * F64.one) := Nat.mul_le_mul_left _ (Nat.le_mul_of_pos_left _ hdpos)
  have ediv : F64.div (.fin false A) (.fin false (d * F64.one)) = .fin false (F64.rnd (A * F64.one) (d * F64.one)) := by
    show (if d * F64.one = 0 then _ else _) = _
    rw [if_neg (by omega), F64.mk, if_pos (Nat.lt_of_le_of_lt hR hlim)]
    rfl
  rw [ediv]
  have hq := rnd_err_real (a := A * F64.one) (b := d * F64.one) hdo
  have hor := one_real_pos
  have hq2 : |rv (F64.rnd (A * F64.one) (d * F64.one)) - rv A / d| ≤ rv A / d / 2 ^ 53 + eta := by
    have e1 : ((A * F64.one : Nat) : ℝ) / ((d * F64.one : Nat) : ℝ) = rv A / d * F64.one := by
      unfold rv; push_cast; field_simp
    rw [e1] at hq
    unfold rv eta at *
    generalize (A : ℝ) / F64.one / d = q at *
    have e2 : (F64.rnd (A * F64.one) (d * F64.one) : ℝ) / F64.one - q = ((F64.rnd (A * F64.one) (d * F64.one) : ℝ) - q * F64.one) / F64.one := by
      field_simp
    rw [e2, abs_div, abs_of_pos hor, div_le_iff₀ hor]
    refine le_trans hq (le_of_eq ?_)
    field_simp
  obtain ⟨X, eX, cX⟩ := sqrt_rv (F64.rnd (A * F64.one) (d * F64.one))
  refine ⟨X, eX, ?_⟩
  have hRn := rv_nonneg (F64.rnd (A * F64.one) (d * F64.one))
  have hdiv : |rv A / d - σ / d| ≤ σ / d * ((n + 4) / 2 ^ 52) + 6 * eta := by
    rw [← sub_div, abs_div, abs_of_pos (by linarith : (0 : ℝ) < d), div_le_iff₀ (by linarith)]
    refine le_trans cA ?_
    have e1 : (σ / d * ((n + 4) / 2 ^ 52) + 6 * eta) * d = σ * ((n + 4) / 2 ^ 52) + 6 * d * eta := by field_simp
    rw [e1]
    have : 2 * (n : ℝ) * eta ≤ 6 * d * eta := mul_le_mul_of_nonneg_right (by linarith) eta_pos.le
    linarith
  have hQ0 : 0 ≤ σ / d := by positivity
  have hη := eta_tiny
  have hη0 := eta_pos
  generalize rv (F64.rnd (A * F64.one) (d * F64.one)) = R at *
  generalize rv A / d = a at *
  generalize σ / (d : ℝ) = Q at *
  have hnear : |R - Q| ≤ Q * ((n + 5) / 2 ^ 52) + (1 / 2 ^ 240) ^ 2 := by
    have h1 := abs_le.1 hdiv
    have h2 := abs_le.1 hq2
    have hQn : Q * n ≤ Q * 2 ^ 31 := mul_le_mul_of_nonneg_left hnr hQ0
    have hQn0 : 0 ≤ Q * n := mul_nonneg hQ0 hnr0
    have e1 : Q * ((n + 4) / 2 ^ 52) = Q * n / 2 ^ 52 + Q / 2 ^ 50 := by ring
    have e2 : Q * ((n + 5) / 2 ^ 52) = Q * n / 2 ^ 52 + 5 * Q / 2 ^ 52 := by ring
    rw [e1] at h1
    rw [e2, abs_le]
    generalize Q * n = g at *
    generalize ((1 : ℝ) / 2 ^ 240) ^ 2 = k at *
    clear hdiv hq2 e1 e2 cA bA hR hrep hlim ediv eX hsq eA hq
    generalize eta = η at *
    constructor <;> norm_num at * <;> linarith
  have hroot := Stats.sqrt_near hRn hQ0 (by positivity) (by
    rw [div_le_one (by norm_num)]; refine le_trans (add_le_add_left hnr 5) ?_; norm_num) (by positivity) hnear
  have hs0 := Real.sqrt_nonneg Q
  generalize Real.sqrt Q = s at *
  generalize Real.sqrt R = r at *
  generalize rv X = x at *
  have h1 := abs_le.1 hroot
  have h2 := abs_le.1 cX
  have hsn : s * n ≤ s * 2 ^ 31 := mul_le_mul_of_nonneg_left hnr hs0
  have hsn0 : 0 ≤ s * n := mul_nonneg hs0 hnr0
  have e1 : s * ((n + 5) / 2 ^ 52) = s * n / 2 ^ 52 + 5 * s / 2 ^ 52 := by ring
  have e2 : s * ((n + 8) / 2 ^ 52) = s * n / 2 ^ 52 + 8 * s / 2 ^ 52 := by ring
  rw [e1] at h1
  rw [e2, abs_le]
  generalize s * n = g at *
  clear hroot cX e1 e2 hnear hdiv hq2 cA bA hR hrep hlim ediv eX hsq eA hq hη
  constructor <;> norm_num at * <;> linarith

/-- what a double of magnitude `q` is in units -/
theorem units_of_value {x : F64} {q : ℚ} (h : value x = some q) (hq : |q| ≤ 2 ^ 200) :
    ∃ z : Int, F64.Is x z ∧ z.natAbs ≤ 2 ^ 200 * F64.one ∧ (q : ℝ) = (z : ℝ) / F64.one := by
  cases x with
  | nan => simp [value] at h
  | inf s => simp [value] at h
  | fin s m =>
    have hi : F64.Is (.fin s m) (F64.signed s m) := ⟨s, m, rfl, rfl⟩
    have := value_iff.1 hi
    rw [this] at h
    have h := Option.some.inj h
    have ho : (0 : ℚ) < (F64.one : ℚ) := by exact_mod_cast F64.one_pos
    rw [← one_rat] at h
    refine ⟨_, hi, ?_, ?_⟩
    · rw [← h, abs_div, abs_of_pos ho, div_le_iff₀ ho] at hq
      have h2 : (((F64.signed s m).natAbs : Nat) : ℚ) ≤ ((2 ^ 200 * F64.one : Nat) : ℚ) := by
        rw [Nat.cast_natAbs]; push_cast; exact hq
      exact_mod_cast h2
    · rw [← h]; push_cast; rfl

theorem cast_squares (a : ℚ) : ∀ qs : List ℚ,
    (((qs.map fun x => (x - a) ^ 2).sum : ℚ) : ℝ) = ((qs.map fun q : ℚ => (q : ℝ)).map fun x : ℝ => (x - (a : ℝ)) ^ 2).sum
  | [] => by simp
  | q :: qs => by
    rw [List.map_cons, List.sum_cons, List.map_cons, List.map_cons, List.sum_cons, ← cast_squares a qs]; push_cast; rfl

/-- **C71**, what holds: for three to `2^31` numbers up to `2^200`, `See` is the standard error of the estimate, up to a relative error
of `(n+8) 2^-52` and an absolute one of `2^-230`. -/
theorem C71_partial (xs : List F64) (e : F64) (qs : List ℚ) (a : ℚ) (hv : List.Forall₂ (fun x q => value x = some q) xs qs)
    (he : value e = some a) (hb : ∀ q ∈ qs, |q| ≤ 2 ^ 200) (ha : |a| ≤ 2 ^ 200) (h3 : 3 ≤ xs.length) (hn : xs.length ≤ 2 ^ 31) :
    ∃ r : ℚ, value (Stats.see xs e) = some r ∧
      |(r : ℝ) - standardError qs a| ≤ standardError qs a * ((xs.length + 8) / 2 ^ 52) + 1 / 2 ^ 230 := by
  obtain ⟨w, hw, bw, cw⟩ := units_of_value he ha
  have hz : ∃ zs : List Int, List.Forall₂ F64.Is xs zs ∧ (∀ z ∈ zs, z.natAbs ≤ 2 ^ 200 * F64.one) ∧
      qs.map (fun q : ℚ => (q : ℝ)) = zs.map fun z : Int => (z : ℝ) / F64.one := by
    clear h3 hn
    induction hv with
    | nil => exact ⟨[], .nil, by simp, rfl⟩
    | cons h _ ih =>
      obtain ⟨z, z1, z2, z3⟩ := units_of_value h (hb _ (by simp))
      obtain ⟨zs, g1, g2, g3⟩ := ih (fun q hq => hb q (by simp [hq]))
      refine ⟨z :: zs, .cons z1 g1, ?_, by rw [List.map_cons, List.map_cons, z3, g3]⟩
      intro y hy
      rcases List.mem_cons.1 hy with rfl | hy
      · exact z2
      · exact g2 y hy
  obtain ⟨zs, g1, g2, g3⟩ := hz
  obtain ⟨X, eX, cX⟩ := see_units hw bw g1 g2 h3 hn
  have hval : value (.fin false X) = some ((X : ℚ) / F64.one) := by
    rw [one_rat]; rfl
  refine ⟨(X : ℚ) / F64.one, by rw [eX, hval], ?_⟩
  have hlen : qs.length = xs.length := hv.length_eq.symm
  have hS : standardError qs a = Real.sqrt ((zs.map fun z => (((z - w : Int) : ℝ) / F64.one) ^ 2).sum / ((xs.length : ℝ) - 2)) := by
    unfold standardError
    rw [hlen]
    congr 1
    rw [Rat.cast_div, cast_squares, g3, List.map_map, cw]
    have e2 : (((xs.length : ℚ) - 2 : ℚ) : ℝ) = (xs.length : ℝ) - 2 := by push_cast; rfl
    rw [e2]
    congr 2
    apply List.map_congr_left
    intro z _
    simp only [Function.comp]
    rw [← sub_div]; push_cast; rfl
  rw [hS]
  have : (((X : ℚ) / F64.one : ℚ) : ℝ) = rv X := by unfold rv; push_cast; rfl
  rw [this]
  exact cX

/-- **C71** where the formula is not defined: `See` of no numbers, or of one number that is met exactly, is `-0` instead of NaN; of
two numbers that are not both met it is infinite. -/
theorem C71_few_refuted : Stats.see [] (F64.ofNat 5) = .fin true 0 ∧ Stats.see [F64.ofNat 5] (F64.ofNat 5) = .fin true 0 ∧
    Stats.see [F64.ofNat 5, F64.ofNat 6] (F64.ofNat 5) = .inf false := by decide +kernel

/-- **C71** for large numbers: the squares overflow. Of `2^600`, 0 and 0, with the estimate 0, `See` is infinite although the standard error is
`2^600`, a double. -/
theorem C71_overflow_refuted : Stats.see [F64.ofNat (2 ^ 600), F64.ofNat 0, F64.ofNat 0] (F64.ofNat 0) = .inf false ∧
    value (F64.ofNat (2 ^ 600)) = some (2 ^ 600) ∧ value (F64.ofNat 0) = some 0 ∧ standardError [2 ^ 600, 0, 0] 0 = 2 ^ 600 := by
  have h1 : F64.ofNat (2 ^ 600) = .fin false (2 ^ 600 * F64.one) := by decide +kernel
  have h2 : F64.ofNat 0 = .fin false 0 := by decide +kernel
  refine ⟨by decide +kernel, ?_, ?_, ?_⟩
  · rw [h1]
    obtain ⟨b, hb⟩ : ∃ b : Nat, b = 2 ^ 600 := ⟨_, rfl⟩
    have hb' : (2 : ℚ) ^ 600 = (b : ℚ) := by rw [hb]; push_cast; rfl
    rw [hb', ← hb]
    have hval : ∀ m : Nat, value (.fin false m) = some ((m : ℚ) / 2 ^ 1074) := fun m => by
      unfold value; simp only [Bool.false_eq_true, if_false]
    have hone : (F64.one : ℚ) = 2 ^ 1074 := F64.one_q
    have hdiv : ((b * F64.one : Nat) : ℚ) / 2 ^ 1074 = b := by
      rw [Nat.cast_mul, hone]
      exact mul_div_cancel_right₀ _ (pow_ne_zero _ two_ne_zero)
    rw [hval, hdiv]
  · rw [h2]
    unfold value
    simp
  · unfold standardError
    obtain ⟨b, hb⟩ : ∃ b : ℚ, b = 2 ^ 600 := ⟨_, rfl⟩
    have hb' : (2 : ℝ) ^ 600 = (b : ℝ) := by rw [hb]; push_cast; rfl
    have h0 : (0 : ℝ) ≤ (b : ℝ) := by rw [← hb']; exact pow_nonneg two_pos.le _
    rw [hb', ← hb]
    have : (([b, 0, 0].map fun x => (x - 0) ^ 2).sum / (([b, 0, 0].length : ℚ) - 2) : ℚ) = b ^ 2 := by
      simp only [List.map_cons, List.map_nil, List.sum_cons, List.sum_nil, List.length_cons, List.length_nil]
      norm_num
    rw [this]
    push_cast
    exact Real.sqrt_sq h0

/-- the numbers 1, 2, 4 and the estimate 2 meet the hypotheses; `See` is then the double next to the root of 5 -/
example : List.Forall₂ (fun x q => value x = some q) [F64.ofNat 1, F64.ofNat 2, F64.ofNat 4] [(1 : ℚ), 2, 4] ∧
    value (F64.ofNat 2) = some 2 ∧ (∀ q ∈ [(1 : ℚ), 2, 4], |q| ≤ 2 ^ 200) ∧ standardError [1, 2, 4] 2 = Real.sqrt 5 := by
  have hval : ∀ n : Nat, n ≤ 2 ^ 53 → value (F64.ofNat n) = some (n : ℚ) := fun n hn => by
    have := value_int (x := F64.ofNat n) (k := n)
    rw [Int.cast_natCast] at this
    exact this.1 ⟨false, n * F64.one, ofNat_is hn, by simp [F64.signed]⟩
  refine ⟨?_, hval 2 (by norm_num), ?_, ?_⟩
  · exact .cons (by exact_mod_cast hval 1 (by norm_num)) (.cons (by exact_mod_cast hval 2 (by norm_num)) (.cons (by exact_mod_cast hval 4 (by norm_num)) .nil))
  · intro q hq
    simp only [List.mem_cons, List.not_mem_nil, or_false] at hq
    rcases hq with rfl | rfl | rfl <;> norm_num
  · unfold standardError
    norm_num

end Starbow.Props
