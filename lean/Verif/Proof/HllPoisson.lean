import Verif.Proof.HllBound
/-
A lower bound for the denominator of the Poisson estimator of hll.go.
-/
namespace Starbow.Hll
open Starbow F64 Stat64 Spec

/-- `cn[0] + … + cn[n-1]` -/
def total (cn : List Nat) : Nat → Nat
  | 0 => 0
  | n + 1 => total cn n + cn.getD n 0

theorem total_set (cn : List Nat) (r : Nat) (hr : r < cn.length) : ∀ n,
    total (cn.set r (cn.getD r 0 + 1)) n = total cn n + if r < n then 1 else 0 := by
  intro n
  induction n with
  | zero => simp [total]
  | succ n ih =>
    have e : (cn.set r (cn.getD r 0 + 1)).getD n 0 = cn.getD n 0 + if r = n then 1 else 0 := by
      rw [List.getD_eq_getElem?_getD, List.getElem?_set]
      by_cases h : r = n
      · subst h; simp [hr]
      · simp [h]
    rw [total, total, ih, e]
    by_cases h1 : r < n
    · rw [if_pos h1, if_neg (by omega), if_pos (by omega)]; omega
    · by_cases h2 : r = n
      · rw [if_neg h1, if_pos h2, if_pos (by omega)]; omega
      · rw [if_neg h1, if_neg h2, if_neg (by omega)]; omega

theorem tallyLoop_is {b : Bitbucket.BB} (hb : Bitbucket.WF b) (hw : b.w = 6#8) {f : Nat → Nat}
    (hf : ∀ i, i < b.n.toNat → (Bitbucket.field b.data (i * b.w.toNat) b.w.toNat).toNat = f i) :
    ∀ k i {cn : List Nat}, i + k ≤ b.n.toNat → cn.length = 64 →
    ∃ cn', tallyLoop b k i cn = .val cn' ∧ ∀ R, total cn' (R + 1) = total cn (R + 1) + upTo f R i k := by
  intro k
  induction k with
  | zero => intro i cn _ _; exact ⟨cn, rfl, fun R => by simp [upTo]⟩
  | succ k ih =>
    intro i cn h hl
    have hlt := Bitbucket.field_lt b.data (i * b.w.toNat) b.w.toNat hb.w0 hb.w8
    have e6 : b.w.toNat = 6 := by rw [hw]; rfl
    have hfi := hf i (by omega)
    rw [tallyLoop, Bitbucket.get_eq hb (by omega), Out.bind_val, hfi]
    have h64 : f i < 64 := by rw [← hfi]; rw [e6] at hlt; rw [e6]; exact hlt
    rw [if_neg (by omega)]
    obtain ⟨cn', e, hc⟩ := ih (i + 1) (cn := cn.set (f i) (cn.getD (f i) 0 + 1)) (by omega) (by rw [List.length_set]; exact hl)
    refine ⟨cn', e, fun R => ?_⟩
    rw [hc R, total_set cn _ (by omega), upTo_succ]
    by_cases hR : f i ≤ R
    · rw [if_pos hR, if_pos (by omega)]; omega
    · rw [if_neg hR, if_neg (by omega)]; omega

theorem total_ge (cn : List Nat) {j n : Nat} (h : j < n) : cn.getD j 0 ≤ total cn n := by
  induction n with
  | zero => omega
  | succ n ih =>
    rw [total]
    by_cases hj : j = n
    · subst hj; omega
    · have := ih (by omega); omega

/-- `cn[1] + … + cn[k]` -/
def part (cn : List Nat) : Nat → Nat
  | 0 => 0
  | k + 1 => part cn k + cn.getD (k + 1) 0

theorem total_part (cn : List Nat) (k : Nat) : total cn (k + 1) = cn.getD 0 0 + part cn k := by
  induction k with
  | zero => simp [total, part]
  | succ k ih => rw [total, ih, part]; omega

/-- one round of the fold -/
theorem fold_step {Z n : Nat} (hZ : Z ≤ 2 ^ 30 * one) (hn : n ≤ 2 ^ 18) :
    ∃ R, F64.mul (F64.dec 1 2) (F64.add (.fin false Z) (F64.ofNat n)) = .fin false R ∧ R ≤ 2 ^ 30 * one ∧
      ∀ A e, A + n ≤ 2 ^ 53 → e + 1 ≤ expOne → A * 2 ^ (e + 1) ≤ Z → (A + n) * 2 ^ e ≤ R := by
  rw [ofNat_is (by omega)]
  have ho := F64.one_pos
  obtain ⟨e1, b1⟩ := add_le_rep (x := .fin false Z) (y := .fin false (n * one)) rfl rfl (rep_pow_one 31) (pow_one_lt (by omega)) (by
    have : n * one ≤ 2 ^ 18 * one := Nat.mul_le_mul_right _ hn
    omega)
  rw [e1]
  have hh : 2 ^ (expOne - 1) * 2 = one := by
    rw [one_eq, ← Nat.pow_succ]; congr 1; rw [expOne_eq]
  obtain ⟨e2, b2⟩ := mul_le_rep (x := F64.dec 1 2) (y := .fin false (rnd (Z + n * one) 1)) half_is rfl (rep_pow_one 30)
    (pow_one_lt (by omega)) (by
      calc 2 ^ (expOne - 1) * rnd (Z + n * one) 1 ≤ 2 ^ (expOne - 1) * (2 ^ 31 * one) := Nat.mul_le_mul_left _ b1
        _ = 2 ^ 30 * (2 ^ (expOne - 1) * 2) * one := by ring
        _ = _ := by rw [hh])
  refine ⟨_, e2, b2, ?_⟩
  intro A e hA he hAZ
  have h1 : (A + n) * 2 ^ (e + 1) ≤ rnd (Z + n * one) 1 := by
    apply le_rnd_of_rep (by omega) (rep_of_mul hA)
    rw [Nat.mul_one, Nat.add_mul]
    have : n * 2 ^ (e + 1) ≤ n * one := by
      rw [one_eq]; exact Nat.mul_le_mul_left _ (Nat.pow_le_pow_right (by omega) he)
    omega
  apply le_rnd_of_rep ho (rep_of_mul hA)
  calc (A + n) * 2 ^ e * one = (A + n) * 2 ^ e * (2 ^ (expOne - 1) * 2) := by rw [hh]
    _ = 2 ^ (expOne - 1) * ((A + n) * 2 ^ (e + 1)) := by rw [Nat.pow_succ]; ring
    _ ≤ _ := Nat.mul_le_mul_left _ h1

theorem foldLoop_low {cn : List Nat} (hcn : ∀ j, cn.getD j 0 ≤ 2 ^ 18) {R : Nat} (hR : R < 100) : ∀ k {Z A : Nat}, k ≤ R →
    Z ≤ 2 ^ 30 * one → A + part cn k ≤ 2 ^ 53 → A * 2 ^ (expOne - (R - k)) ≤ Z →
    ∃ Z', foldLoop cn k (.fin false Z) = .fin false Z' ∧ Z' ≤ 2 ^ 30 * one ∧ (A + part cn k) * 2 ^ (expOne - R) ≤ Z' := by
  intro k
  induction k with
  | zero => intro Z A _ hZ _ h; exact ⟨Z, rfl, hZ, by simpa [part] using h⟩
  | succ k ih =>
    intro Z A hk hZ hA h
    obtain ⟨W, e, b, hlow⟩ := fold_step hZ (hcn (k + 1))
    rw [foldLoop, e]
    rw [part] at hA
    have h2 := hlow A (expOne - (R - k)) (by omega) (by rw [expOne_eq]; omega) (by
      rw [show expOne - (R - k) + 1 = expOne - (R - (k + 1)) by rw [expOne_eq]; omega]; exact h)
    obtain ⟨Z', e', b', hl'⟩ := ih (Z := W) (A := A + cn.getD (k + 1) 0) (by omega) b (by omega) h2
    refine ⟨Z', e', b', ?_⟩
    rw [part, show A + (part cn k + cn.getD (k + 1) 0) = A + cn.getD (k + 1) 0 + part cn k by omega]
    exact hl'

theorem foldLoop_is {cn : List Nat} (hcn : ∀ j, cn.getD j 0 ≤ 2 ^ 18) {R : Nat} (hR : R < 100) (hs : part cn R ≤ 2 ^ 53) :
    ∀ d {Z : Nat}, Z ≤ 2 ^ 30 * one →
    ∃ Z', foldLoop cn (R + d) (.fin false Z) = .fin false Z' ∧ Z' ≤ 2 ^ 30 * one ∧ part cn R * 2 ^ (expOne - R) ≤ Z' := by
  intro d
  induction d with
  | zero =>
    intro Z hZ
    obtain ⟨Z', e, b, h⟩ := foldLoop_low hcn hR R (A := 0) (Nat.le_refl _) hZ (by omega) (by rw [Nat.zero_mul]; exact Nat.zero_le _)
    exact ⟨Z', e, b, by rw [Nat.zero_add] at h; exact h⟩
  | succ d ih =>
    intro Z hZ
    obtain ⟨W, e, b, _⟩ := fold_step hZ (hcn (R + d + 1))
    rw [← Nat.add_assoc, foldLoop, e]
    exact ih b

/-- the denominator of the Poisson estimator is infinite (all registers empty) or at least the contribution of the registers
holding at most `R` -/
theorem poisson_is {c : Counter} (h : WF c) {f : Nat → Nat}
    (hf : ∀ i, i < 2 ^ c.p.toNat → (Bitbucket.field c.bits.data (i * c.bits.w.toNat) c.bits.w.toNat).toNat = f i)
    {R : Nat} (hR : R ≤ 64 - c.p.toNat) :
    ∃ z, poisson c = .val z ∧ (z = .inf false ∨ ∃ Z, z = .fin false Z ∧ upTo f R 0 (2 ^ c.p.toNat) * 2 ^ (expOne - R) ≤ Z) := by
  have hp := h.p18
  have hp4 := h.p4
  have hn : c.bits.n.toNat = 2 ^ c.p.toNat := by rw [h.n, Int.toNat_natCast]
  have h18 : 2 ^ c.p.toNat ≤ 2 ^ 18 := Nat.pow_le_pow_right (by omega) hp
  have ho := F64.one_pos
  unfold poisson
  simp only
  rw [mInt_eq c.p h.p18, Int.toNat_natCast]
  obtain ⟨cn, e, hc⟩ := tallyLoop_is h.bits h.w (f := f) (by rw [hn]; exact hf) (2 ^ c.p.toNat) 0 (cn := List.replicate 64 0)
    (by omega) (by simp)
  have h0 : ∀ n, total (List.replicate 64 0) n = 0 := by
    intro n
    induction n with
    | zero => rfl
    | succ n ih =>
      rw [total, ih, List.getD_eq_getElem?_getD, List.getElem?_replicate]
      split <;> simp
  have hc' : ∀ R, total cn (R + 1) = upTo f R 0 (2 ^ c.p.toNat) := fun R => by rw [hc R, h0, Nat.zero_add]
  have hcn : ∀ j, cn.getD j 0 ≤ 2 ^ c.p.toNat := fun j => by
    have h1 := total_ge cn (Nat.lt_succ_self j)
    have h2 := upTo_le f j 0 (2 ^ c.p.toNat)
    have h3 := hc' j
    rw [Nat.succ_eq_add_one] at h1
    omega
  rw [e, Out.bind_val, if_neg (by omega)]
  obtain ⟨t, et, bt⟩ := tau_ok hp (hcn ((64 : Int) - c.p.toNat + 1).toNat)
  obtain ⟨s, es, hs⟩ := sigma_ok hp (hcn 0)
  rw [et, Out.bind_val, es, Out.bind_val]
  obtain ⟨em, bm⟩ := mul_le_rep (x := F64.ofInt ((2 ^ c.p.toNat : Nat) : Int)) (y := .fin false t) (ofInt_is (by omega)) rfl
    (rep_pow_one 30) (pow_one_lt (by omega)) (by
      calc 2 ^ c.p.toNat * one * t ≤ 2 ^ 18 * one * (1075 * one) := Nat.mul_le_mul (Nat.mul_le_mul_right _ h18) bt
        _ = 2 ^ 18 * 1075 * one * one := by ring
        _ ≤ _ := Nat.mul_le_mul_right _ (Nat.mul_le_mul_right _ (by omega)))
  rw [em]
  have htot := hc' R
  rw [total_part] at htot
  have hup := upTo_le f R 0 (2 ^ c.p.toNat)
  obtain ⟨Y, eY, bY, lY⟩ := foldLoop_is (cn := cn) (fun j => Nat.le_trans (hcn j) h18) (R := R) (by omega) (by omega)
    (64 - c.p.toNat - R) bm
  have eq : ((64 : Int) - c.p.toNat).toNat = R + (64 - c.p.toNat - R) := by omega
  rw [eq, eY]
  rcases hs with rfl | ⟨S, rfl, lS, uS⟩
  · refine ⟨_, rfl, .inl ?_⟩
    rw [ofInt_is (by omega), F64.mul, if_neg (Nat.mul_ne_zero (Nat.two_pow_pos _).ne' ho.ne'), F64.add]
    rfl
  · obtain ⟨es', bs'⟩ := mul_le_rep (x := F64.ofInt ((2 ^ c.p.toNat : Nat) : Int)) (y := .fin false S) (ofInt_is (by omega)) rfl
      (rep_pow_one 60) (pow_one_lt (by omega)) (by
        calc 2 ^ c.p.toNat * one * S ≤ 2 ^ 18 * one * (2 ^ 42 * one) := Nat.mul_le_mul (Nat.mul_le_mul_right _ h18) uS
          _ = 2 ^ 60 * one * one := by ring)
    have lS' : cn.getD 0 0 * one ≤ rnd (2 ^ c.p.toNat * one * S) one := by
      apply le_rnd_of_rep ho (rep_mul_one (by have := hcn 0; omega))
      calc cn.getD 0 0 * one * one = cn.getD 0 0 * (2 ^ c.p.toNat * 2 ^ (expOne - c.p.toNat)) * one := by rw [pow_split hp]
        _ = 2 ^ c.p.toNat * one * (cn.getD 0 0 * 2 ^ (expOne - c.p.toNat)) := by ring
        _ ≤ _ := Nat.mul_le_mul_left _ lS
    rw [es']
    obtain ⟨ea, ba⟩ := add_le_rep (x := .fin false Y) (y := .fin false (rnd (2 ^ c.p.toNat * one * S) one)) rfl rfl
      (rep_pow_one 61) (pow_one_lt (by omega)) (by
        have : 2 ^ 30 * one ≤ 2 ^ 60 * one := Nat.mul_le_mul_right _ (by omega)
        omega)
    refine ⟨_, rfl, .inr ⟨_, ea, ?_⟩⟩
    apply le_rnd_of_rep (by omega) (rep_of_mul (by omega))
    rw [← htot, Nat.mul_one, Nat.add_mul]
    have : cn.getD 0 0 * 2 ^ (expOne - R) ≤ cn.getD 0 0 * one := by
      rw [one_eq]; exact Nat.mul_le_mul_left _ (Nat.pow_le_pow_right (by omega) (by omega))
    omega

end Starbow.Hll
