import Verif.Proof.HllTau
import Verif.Model.Stats
/-
How far `See` of stats.go is from the standard error of the estimate.
-/
namespace Starbow.Stats
open Starbow F64 Stat64 Hll

/-- one squared distance -/
theorem square_term {v e : F64} {z w : Int} (hv : Is v z) (he : Is e w) (hz : z.natAbs ≤ 2 ^ 200 * one) (hw : w.natAbs ≤ 2 ^ 200 * one) :
    ∃ S, F64.mul (F64.sub v e) (F64.sub v e) = .fin false S ∧ S ≤ 2 ^ 402 * one ∧
      |rv S - (((z - w : Int) : ℝ) / one) ^ 2| ≤ (((z - w : Int) : ℝ) / one) ^ 2 / 2 ^ 51 + eta := by
  have hle : (z - w).natAbs ≤ 2 ^ 201 * one := by
    have h1 : (z - w).natAbs ≤ z.natAbs + w.natAbs := by omega
    have h2 : 2 ^ 201 * one = 2 ^ 200 * one + 2 ^ 200 * one := by rw [show (201 : Nat) = 200 + 1 from rfl, Nat.pow_succ]; ring
    omega
  have hD : rnd (z - w).natAbs 1 ≤ 2 ^ 201 * one := rnd_le_of_rep (by omega) (rep_pow_one 201) (by omega)
  have hres := (sub_res hv he).is (by
    rw [rq_natAbs]
    exact Nat.lt_of_le_of_lt hD (pow_one_lt (by omega)))
  obtain ⟨s, D, es, eD⟩ := hres
  have hDD : D = rnd (z - w).natAbs 1 := by
    have := congrArg Int.natAbs eD
    rw [rq_natAbs] at this
    rw [← this]
    unfold signed
    cases s <;> simp
  rw [es]
  have emul : F64.mul (.fin s D) (.fin s D) = F64.mul (.fin false D) (.fin false D) := by
    cases s <;> rfl
  rw [emul]
  rw [← hDD] at hD
  obtain ⟨e1, b1⟩ := mul_le_rep (x := .fin false D) (y := .fin false D) rfl rfl (rep_pow_one 402) (pow_one_lt (by omega)) (by
    calc D * D ≤ 2 ^ 201 * one * (2 ^ 201 * one) := Nat.mul_le_mul hD hD
      _ = 2 ^ (201 + 201) * one * one := by rw [Nat.pow_add]; ring
      _ = _ := rfl)
  refine ⟨_, e1, b1, ?_⟩
  have ha := abs_le.1 (add_rv (z - w).natAbs 0)
  rw [Nat.add_zero, ← hDD] at ha
  have h0 : rv 0 = 0 := by unfold rv; simp
  rw [h0, add_zero] at ha
  have hsq : (((z - w : Int) : ℝ) / one) ^ 2 = rv (z - w).natAbs ^ 2 := by
    unfold rv
    rw [div_pow, div_pow, Nat.cast_natAbs, Int.cast_abs, sq_abs]
  rw [hsq]
  have hm := abs_le.1 (mul_rv D D)
  have hn := rv_nonneg (z - w).natAbs
  have hd := rv_nonneg D
  generalize rv (rnd (D * D) one) = S at *
  generalize rv (z - w).natAbs = a at *
  generalize rv D = d at *
  have d1 : d * d ≤ a ^ 2 * (1 + 1 / 2 ^ 53) ^ 2 := by
    rw [← mul_pow, pow_two]
    exact mul_le_mul (by linarith) (by linarith) hd (by positivity)
  have d2 : a ^ 2 * (1 - 1 / 2 ^ 53) ^ 2 ≤ d * d := by
    rw [← mul_pow, pow_two]
    have : 0 ≤ a * (1 - 1 / 2 ^ 53) := mul_nonneg hn (by norm_num)
    exact mul_le_mul (by linarith) (by linarith) this hd
  have ha2 : 0 ≤ a ^ 2 := sq_nonneg a
  generalize a ^ 2 = q at *
  generalize d * d = r at *
  rw [abs_le]
  constructor <;> norm_num at * <;> linarith

/-- adding one term -/
theorem acc_step {A S T t k η : ℝ} {A' : ℝ} (hT : 0 ≤ T) (ht : 0 ≤ t) (hk : 0 ≤ k) (hk2 : k ≤ 2 ^ 31) (hη : 0 ≤ η)
    (hA : |A - T| ≤ T * ((k + 4) / 2 ^ 52) + 2 * k * η) (hS : |S - t| ≤ t / 2 ^ 51 + η)
    (h : |A' - (A + S)| ≤ (A + S) / 2 ^ 53) :
    |A' - (T + t)| ≤ (T + t) * ((k + 1 + 4) / 2 ^ 52) + 2 * (k + 1) * η := by
  have a := abs_le.1 hA
  have b := abs_le.1 hS
  have c := abs_le.1 h
  have e1 : T * ((k + 4) / 2 ^ 52) = T * k / 2 ^ 52 + T / 2 ^ 50 := by ring
  have e2 : (T + t) * ((k + 1 + 4) / 2 ^ 52) = T * k / 2 ^ 52 + t * k / 2 ^ 52 + 5 * (T + t) / 2 ^ 52 := by ring
  have h1 : T * k ≤ T * 2 ^ 31 := mul_le_mul_of_nonneg_left hk2 hT
  have h2 : 0 ≤ T * k := mul_nonneg hT hk
  have h3 : 0 ≤ t * k := mul_nonneg ht hk
  have h4 : k * η ≤ 2 ^ 31 * η := mul_le_mul_of_nonneg_right hk2 hη
  have h5 : 0 ≤ k * η := mul_nonneg hk hη
  have e3 : 2 * k * η = 2 * (k * η) := by ring
  have e4 : 2 * (k + 1) * η = 2 * (k * η) + 2 * η := by ring
  rw [e1, e3] at a
  rw [e2, e4, abs_le]
  generalize T * k = x at *
  generalize t * k = y at *
  generalize k * η = g at *
  clear hA hS h e1 e2 e3 e4
  constructor <;> norm_num at * <;> linarith

theorem squares_close {e : F64} {w : Int} (he : Is e w) (hw : w.natAbs ≤ 2 ^ 200 * one) : ∀ (xs : List F64) (zs : List Int) (k A : Nat) (T : ℝ),
    List.Forall₂ Is xs zs → (∀ z ∈ zs, z.natAbs ≤ 2 ^ 200 * one) → k + xs.length ≤ 2 ^ 31 → A ≤ k * (2 ^ 402 * one) → 0 ≤ T →
    |rv A - T| ≤ T * ((k + 4) / 2 ^ 52) + 2 * k * eta →
    ∃ A', xs.foldl (fun acc v => Arith.add acc (Arith.mul (Arith.sub v e) (Arith.sub v e))) (.fin false A) = .fin false A' ∧
      A' ≤ (k + xs.length : Nat) * (2 ^ 402 * one) ∧
      |rv A' - (T + (zs.map fun z => (((z - w : Int) : ℝ) / one) ^ 2).sum)|
        ≤ (T + (zs.map fun z => (((z - w : Int) : ℝ) / one) ^ 2).sum) * (((k + xs.length : Nat) + 4) / 2 ^ 52) + 2 * (k + xs.length : Nat) * eta := by
  intro xs
  induction xs with
  | nil =>
    intro zs k A T h _ _ hA _ hT
    cases h
    exact ⟨A, rfl, hA, by simpa using hT⟩
  | cons x xs ih =>
    intro zs k A T h hz hk hA hT0 hT
    cases h with
    | cons hx hxs =>
      rename_i z zs
      rw [List.length_cons] at hk
      obtain ⟨S, eS, bS, cS⟩ := square_term hx he (hz z (by simp)) hw
      have hsum : A + S ≤ (k + 1) * (2 ^ 402 * one) := by
        calc A + S ≤ k * (2 ^ 402 * one) + 2 ^ 402 * one := Nat.add_le_add hA bS
          _ = _ := by ring
      have hrep : Rep ((k + 1) * (2 ^ 402 * one)) := by
        rw [one_eq, ← Nat.pow_add]; exact rep_of_mul (by omega)
      have hlim : (k + 1) * (2 ^ 402 * one) < limit := by
        calc (k + 1) * (2 ^ 402 * one) ≤ 2 ^ 31 * (2 ^ 402 * one) := Nat.mul_le_mul_right _ (by omega)
          _ = 2 ^ (31 + 402) * one := by rw [Nat.pow_add]; ring
          _ < limit := pow_one_lt (by omega)
      obtain ⟨e1, b1⟩ := add_le_rep (x := .fin false A) (y := .fin false S) rfl rfl hrep hlim hsum
      have hk2 : (k : ℝ) ≤ 2 ^ 31 := by
        have : k ≤ 2 ^ 31 := by omega
        exact_mod_cast this
      have hstep := acc_step hT0 (sq_nonneg _) (Nat.cast_nonneg k) hk2 eta_pos.le hT cS (add_rv A S)
      obtain ⟨A', e2, b2, c2⟩ := ih zs (k + 1) (rnd (A + S) 1) (T + (((z - w : Int) : ℝ) / one) ^ 2) hxs (fun y hy => hz y (by simp [hy])) (by omega)
        b1 (by positivity) (by push_cast at hstep ⊢; exact hstep)
      refine ⟨A', ?_, ?_, ?_⟩
      · rw [List.foldl_cons]
        have : Arith.add (F64.fin false A) (Arith.mul (Arith.sub x e) (Arith.sub x e)) = .fin false (rnd (A + S) 1) := by
          show F64.add _ (F64.mul (F64.sub x e) (F64.sub x e)) = _
          rw [eS, e1]
        rw [this, e2]
      · rw [List.length_cons]
        rw [show k + (xs.length + 1) = k + 1 + xs.length by omega]; exact b2
      · rw [List.length_cons, List.map_cons, List.sum_cons, ← add_assoc]
        rw [show k + (xs.length + 1) = k + 1 + xs.length by omega]; exact c2

/-- from the radicand to the root -/
theorem sqrt_near {R Q ε κ : ℝ} (hR : 0 ≤ R) (hQ : 0 ≤ Q) (hε : 0 ≤ ε) (hε1 : ε ≤ 1) (hκ : 0 ≤ κ) (h : |R - Q| ≤ Q * ε + κ ^ 2) :
    |Real.sqrt R - Real.sqrt Q| ≤ Real.sqrt Q * ε + κ := by
  have h1 := abs_le.1 h
  have hs := Real.sq_sqrt hQ
  have hs0 := Real.sqrt_nonneg Q
  generalize Real.sqrt Q = s at *
  rw [abs_le]
  constructor
  · by_cases hc : s * (1 - ε) ≤ κ
    · have := Real.sqrt_nonneg R
      linarith
    · have : s * (1 - ε) - κ ≤ Real.sqrt R := by
        apply Real.le_sqrt_of_sq_le
        have h2 : κ * κ ≤ κ * (s * (1 - ε)) := mul_le_mul_of_nonneg_left (not_le.1 hc).le hκ
        have h3 : (s * (1 - ε)) ^ 2 ≤ Q * (1 - ε) := by
          rw [mul_pow, hs]
          apply mul_le_mul_of_nonneg_left _ hQ
          nlinarith
        nlinarith
      linarith
  · have : Real.sqrt R ≤ s * (1 + ε) + κ := by
      rw [Real.sqrt_le_left (by positivity)]
      have h2 : Q * (1 + ε) ≤ (s * (1 + ε)) ^ 2 := by
        rw [mul_pow, hs]
        apply mul_le_mul_of_nonneg_left _ hQ
        nlinarith
      have h3 : 0 ≤ s * (1 + ε) * κ := by positivity
      nlinarith
    linarith

end Starbow.Stats
