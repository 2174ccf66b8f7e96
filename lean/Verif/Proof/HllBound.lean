import Verif.Proof.HllLin
import Verif.Spec.HllRaw
/-
Bounds for the harmonic and the Poisson estimator of hll.go: their denominators are at least what the small registers
contribute, so that the estimate fits into an int64; the harmonic one is monotone in the registers.
-/
namespace Starbow.Hll
open Starbow F64 Stat64 Spec

/-! ### the harmonic sum -/

/-- what a register holding `r` contributes, in units -/
def term (r : Nat) : Nat := 2 ^ (expOne - max r 1)

/-- the rounded sum over the registers `i, …, i+k-1` holding `f i, …` -/
def hsum (f : Nat → Nat) : Nat → Nat → Nat → Nat
  | 0, _, z => z
  | k + 1, i, z => hsum f k (i + 1) (rnd (z + term (f i)) 1)

theorem term_le (r : Nat) : term r ≤ 2 ^ (expOne - 1) := Nat.pow_le_pow_right (by omega) (by omega)

theorem term_anti {r s : Nat} (h : r ≤ s) : term s ≤ term r := Nat.pow_le_pow_right (by omega) (by omega)

theorem hsum_mono {f g : Nat → Nat} : ∀ k i {y z : Nat}, (∀ j, i ≤ j → j < i + k → f j ≤ g j) → y ≤ z →
    hsum g k i y ≤ hsum f k i z := by
  intro k
  induction k with
  | zero => intro i y z _ h; exact h
  | succ k ih =>
    intro i y z hfg h
    rw [hsum, hsum]
    apply ih
    · intro j h1 h2; exact hfg j (by omega) (by omega)
    · have := term_anti (hfg i (Nat.le_refl _) (by omega))
      exact rnd_mono (by omega) (by omega) (by omega)

theorem hsum_congr {f g : Nat → Nat} : ∀ k i (z : Nat), (∀ j, i ≤ j → j < i + k → f j = g j) → hsum f k i z = hsum g k i z := by
  intro k
  induction k with
  | zero => intro i z _; rfl
  | succ k ih =>
    intro i z h
    rw [hsum, hsum, h i (Nat.le_refl _) (by omega)]
    exact ih _ _ fun j h1 h2 => h j (by omega) (by omega)

theorem hsum_le {f : Nat → Nat} : ∀ k i {z : Nat}, z ≤ i * 2 ^ (expOne - 1) → i + k ≤ 2 ^ 18 →
    hsum f k i z ≤ (i + k) * 2 ^ (expOne - 1) := by
  intro k
  induction k with
  | zero => intro i z h _; exact h
  | succ k ih =>
    intro i z h hk
    rw [hsum]
    have := ih (i + 1) (z := rnd (z + term (f i)) 1) (by
      apply rnd_le_of_rep (by omega) (rep_of_mul (by omega))
      have := term_le (f i)
      rw [Nat.mul_one, Nat.add_mul]; omega) (by omega)
    rw [show i + (k + 1) = i + 1 + k by omega]
    exact this

/-- how many of the registers `i, …, i+k-1` hold at most `R` -/
def upTo (f : Nat → Nat) (R : Nat) (i k : Nat) : Nat := (List.range' i k).countP fun j => decide (f j ≤ R)

theorem upTo_succ (f : Nat → Nat) (R i k : Nat) : upTo f R i (k + 1) = (if f i ≤ R then 1 else 0) + upTo f R (i + 1) k := by
  unfold upTo
  rw [List.range'_succ, List.countP_cons]
  by_cases h : f i ≤ R <;> simp [h]; omega

theorem upTo_le (f : Nat → Nat) (R i k : Nat) : upTo f R i k ≤ k := by
  unfold upTo
  refine Nat.le_trans List.countP_le_length ?_
  rw [List.length_range']

theorem hsum_ge {f : Nat → Nat} {R : Nat} (hR : 1 ≤ R) : ∀ k i {z C : Nat}, C * 2 ^ (expOne - R) ≤ z → C + k ≤ 2 ^ 53 →
    (C + upTo f R i k) * 2 ^ (expOne - R) ≤ hsum f k i z := by
  intro k
  induction k with
  | zero => intro i z C h _; rw [hsum]; simpa [upTo] using h
  | succ k ih =>
    intro i z C h hC
    rw [hsum, upTo_succ, ← Nat.add_assoc]
    apply ih
    · apply le_rnd_of_rep (by omega) (rep_of_mul (by split <;> omega))
      rw [Nat.mul_one, Nat.add_mul]
      split
      · rename_i hf
        have : 2 ^ (expOne - R) ≤ term (f i) := Nat.pow_le_pow_right (by omega) (by omega)
        rw [Nat.one_mul]; omega
      · rw [Nat.zero_mul]; omega
    · split <;> omega

/-- `1/float64(1<<r)` -/
theorem inv_is {r : Nat} (h1 : 1 ≤ r) (h : r < 64) : F64.div (F64.ofNat 1) (F64.ofU64 (1#64 <<< r)) = .fin false (term r) := by
  have e1 : (1#64 <<< r).toNat = 2 ^ r := by
    rw [BitVec.toNat_shiftLeft, BitVec.toNat_ofNat, Nat.shiftLeft_eq, show 1 % 2 ^ 64 = 1 from rfl, Nat.one_mul]
    exact Nat.mod_eq_of_lt (Nat.pow_lt_pow_right (by omega) h)
  have e2 : F64.ofU64 (1#64 <<< r) = .fin false (2 ^ r * one) := by
    unfold F64.ofU64 F64.ofNat mk
    rw [e1, rnd_exact_one (rep_pow_one r), if_pos (pow_one_lt (by omega))]
  have hpos : 0 < 2 ^ r * one := Nat.mul_pos (Nat.two_pow_pos r) F64.one_pos
  have hs : 2 ^ (expOne - r) * 2 ^ r = one := by
    rw [one_eq, ← Nat.pow_add]; congr 1; rw [expOne_eq]; omega
  have e3 : 1 * one * one = 2 ^ (expOne - r) * (2 ^ r * one) := by rw [Nat.one_mul, ← Nat.mul_assoc, hs]
  have hlt : 2 ^ (expOne - r) < limit := by
    rw [limit_eq]; exact Nat.pow_lt_pow_right (by omega) (by rw [expOne_eq, expLimit_eq]; omega)
  rw [ofNat_is (by omega), e2, F64.div, if_neg (by omega), mk, e3, rnd_exact hpos (rep_pow _), if_pos hlt]
  unfold term
  rw [Nat.max_eq_left h1]
  rfl

theorem half_term : F64.dec 1 2 = .fin false (term 0) := by
  rw [half_is]; rfl

/-- the loop of `HarmonicCount` computes the rounded sum -/
theorem harmonicLoop_is {b : Bitbucket.BB} (hb : Bitbucket.WF b) (hw : b.w = 6#8) {f : Nat → Nat}
    (hf : ∀ i, i < b.n.toNat → (Bitbucket.field b.data (i * b.w.toNat) b.w.toNat).toNat = f i) :
    ∀ k i {z : Nat}, i + k ≤ b.n.toNat → i + k ≤ 2 ^ 18 → z ≤ i * 2 ^ (expOne - 1) →
    harmonicLoop b k i (.fin false z) = .val (.fin false (hsum f k i z)) := by
  intro k
  induction k with
  | zero => intro i z _ _ _; rfl
  | succ k ih =>
    intro i z h h18 hz
    have hB : (i + 1) * 2 ^ (expOne - 1) < limit := by
      have h1 : (i + 1) * 2 ^ (expOne - 1) ≤ 2 ^ 64 * one := by
        apply Nat.mul_le_mul (by omega)
        rw [one_eq]; exact Nat.pow_le_pow_right (by omega) (by omega)
      exact Nat.lt_of_le_of_lt h1 pow64_one
    have hadd : F64.add (.fin false z) (.fin false (term (f i))) = .fin false (rnd (z + term (f i)) 1) ∧
        rnd (z + term (f i)) 1 ≤ (i + 1) * 2 ^ (expOne - 1) :=
      add_le_rep rfl rfl (rep_of_mul (by omega)) hB (by
        have := term_le (f i)
        rw [Nat.add_mul]; omega)
    have hlt := Bitbucket.field_lt b.data (i * b.w.toNat) b.w.toNat hb.w0 hb.w8
    have e6 : b.w.toNat = 6 := by rw [hw]; rfl
    have hfi := hf i (by omega)
    rw [harmonicLoop, Bitbucket.get_eq hb (by omega), Out.bind_val, hsum]
    generalize hreg : Bitbucket.field b.data (i * b.w.toNat) b.w.toNat = reg at *
    split
    · rename_i h0
      have hf0 : f i = 0 := by rw [← hfi, h0]; rfl
      rw [half_term, ← hf0, hadd.1]
      exact ih (i + 1) (by omega) (by omega) hadd.2
    · rename_i h0
      have hf1 : 1 ≤ f i := by
        rw [← hfi]
        rcases Nat.eq_zero_or_pos reg.toNat with h | h
        · exact absurd (BitVec.eq_of_toNat_eq h) h0
        · exact h
      rw [hfi, inv_is hf1 (by rw [← hfi]; rw [e6] at hlt; omega), hadd.1]
      exact ih (i + 1) (by omega) (by omega) hadd.2

theorem harmonic_is {c : Counter} (h : WF c) {f : Nat → Nat}
    (hf : ∀ i, i < 2 ^ c.p.toNat → (Bitbucket.field c.bits.data (i * c.bits.w.toNat) c.bits.w.toNat).toNat = f i) :
    harmonic c = .val (.fin false (hsum f (2 ^ c.p.toNat) 0 0)) := by
  have hn : c.bits.n.toNat = 2 ^ c.p.toNat := by rw [h.n, Int.toNat_natCast]
  unfold harmonic
  rw [mInt_eq c.p h.p18, Int.toNat_natCast]
  have h18 : 2 ^ c.p.toNat ≤ 2 ^ 18 := Nat.pow_le_pow_right (by omega) h.p18
  exact harmonicLoop_is h.bits h.w (f := f) (by rw [hn]; exact hf) _ 0 (z := 0) (by omega) (by omega) (Nat.zero_le _)

/-! ### the constants -/

theorem rep_mul_one_big : Rep (3 * 2 ^ 61 * one) := by
  rw [one_eq, Nat.mul_assoc, ← Nat.pow_add]; exact rep_of_mul (by omega)

/-- what is needed to know about `alpha`: it is a positive double of at most 3/4, within `2^-40` of the intended constant, which is
within 0.3% of the published one, and
the limit of `Count` for the harmonic mean is a seventh of this constant times the number of registers, to within `2^-40` -/
def alphaOk (p : Nat) : Bool :=
  match alpha (BitVec.ofNat 8 p), F64.div (F64.mul (alpha (BitVec.ofNat 8 p)) (F64.ofInt (mInt (BitVec.ofNat 8 p)))) (F64.ofNat 7) with
  | .fin false A, .fin false T =>
    decide (one ≤ 2 * A) && decide (4 * A ≤ 3 * one) && decide (2 ^ shiftOf A ∣ A) &&
      (decide ((2 ^ 40 - 1) * (usedNum p * 2 ^ p * one) ≤ 2 ^ 40 * (7 * T * usedDen p)) &&
      decide (2 ^ 40 * (7 * T * usedDen p) ≤ (2 ^ 40 + 1) * (usedNum p * 2 ^ p * one))) &&
      decide ((2 ^ 40 - 1) * (usedNum p * one) ≤ 2 ^ 40 * (A * usedDen p)) &&
      decide (2 ^ 40 * (A * usedDen p) ≤ (2 ^ 40 + 1) * (usedNum p * one)) &&
      decide (997 * (alphaNum p * usedDen p) ≤ 1000 * (usedNum p * alphaDen p)) &&
      decide (1000 * (usedNum p * alphaDen p) ≤ 1003 * (alphaNum p * usedDen p))
  | _, _ => false

theorem alphaOk_all : ∀ p ∈ List.range' 4 15, alphaOk p = true := by decide +kernel

theorem alpha_is {p : Byte} (h4 : 4 ≤ p.toNat) (h18 : p.toNat ≤ 18) : ∃ A T, alpha p = .fin false A ∧
    F64.div (F64.mul (alpha p) (F64.ofInt (mInt p))) (F64.ofNat 7) = .fin false T ∧ one ≤ 2 * A ∧ 4 * A ≤ 3 * one ∧ Rep A ∧
    ((2 ^ 40 - 1) * (usedNum p.toNat * 2 ^ p.toNat * one) ≤ 2 ^ 40 * (7 * T * usedDen p.toNat) ∧
      2 ^ 40 * (7 * T * usedDen p.toNat) ≤ (2 ^ 40 + 1) * (usedNum p.toNat * 2 ^ p.toNat * one)) ∧
    (2 ^ 40 - 1) * (usedNum p.toNat * one) ≤ 2 ^ 40 * (A * usedDen p.toNat) ∧
    2 ^ 40 * (A * usedDen p.toNat) ≤ (2 ^ 40 + 1) * (usedNum p.toNat * one) ∧
    997 * (alphaNum p.toNat * usedDen p.toNat) ≤ 1000 * (usedNum p.toNat * alphaDen p.toNat) ∧
    1000 * (usedNum p.toNat * alphaDen p.toNat) ≤ 1003 * (alphaNum p.toNat * usedDen p.toNat) := by
  have h := alphaOk_all p.toNat (by rw [List.mem_range'_1]; omega)
  unfold alphaOk at h
  have e : BitVec.ofNat 8 p.toNat = p := BitVec.eq_of_toNat_eq (by rw [BitVec.toNat_ofNat]; exact Nat.mod_eq_of_lt p.isLt)
  rw [e] at h
  split at h
  · rename_i A T e1 e2
    simp only [Bool.and_eq_true, decide_eq_true_eq] at h
    obtain ⟨⟨⟨⟨⟨⟨⟨h1, h2⟩, h3⟩, h4⟩, h5⟩, h6⟩, h7⟩, h8⟩ := h
    exact ⟨A, T, e1, e2, h1, h2, h3, h4, h5, h6, h7, h8⟩
  · exact absurd h (by simp)

/-- the constant as a real number -/
theorem alpha_real {p : Byte} (h4 : 4 ≤ p.toNat) (h18 : p.toNat ≤ 18) : ∃ A, alpha p = .fin false A ∧ one ≤ 2 * A ∧ 4 * A ≤ 3 * one ∧
    Rep A ∧ |(A : ℝ) / one - usedAlpha p.toNat| ≤ usedAlpha p.toNat / 2 ^ 40 := by
  obtain ⟨A, T, e, _, h1, h2, h3, _, h5, h6, _⟩ := alpha_is h4 h18
  refine ⟨A, e, h1, h2, h3, ?_⟩
  have ho := one_real_pos
  have hd : 0 < usedDen p.toNat := by
    unfold usedDen alphaDen
    split
    · split <;> omega
    · omega
  have hden : (0 : ℝ) < usedDen p.toNat := by exact_mod_cast hd
  have r5 : (((2 ^ 40 - 1) * (usedNum p.toNat * one) : Nat) : ℝ) ≤ ((2 ^ 40 * (A * usedDen p.toNat) : Nat) : ℝ) := by exact_mod_cast h5
  have r6 : ((2 ^ 40 * (A * usedDen p.toNat) : Nat) : ℝ) ≤ (((2 ^ 40 + 1) * (usedNum p.toNat * one) : Nat) : ℝ) := by exact_mod_cast h6
  push_cast at r5 r6
  unfold usedAlpha
  generalize (usedDen p.toNat : ℝ) = d at *
  generalize (usedNum p.toNat : ℝ) = n at *
  generalize (A : ℝ) = a at *
  generalize ((one : Nat) : ℝ) = o at *
  rw [div_sub_div _ _ ho.ne' hden.ne', abs_div, abs_of_pos (mul_pos ho hden), div_div, div_le_div_iff₀ (by positivity) (by positivity)]
  have hk : |a * d - o * n| * 2 ^ 40 ≤ n * o := by
    rw [← abs_of_nonneg (show (0 : ℝ) ≤ 2 ^ 40 by norm_num), ← abs_mul, abs_le]
    constructor <;> norm_num at * <;> linarith
  calc |a * d - o * n| * (d * 2 ^ 40) = |a * d - o * n| * 2 ^ 40 * d := by ring
    _ ≤ n * o * d := mul_le_mul_of_nonneg_right hk hden.le
    _ = _ := by ring

theorem usedDen_pos (p : Nat) : 0 < usedDen p := by
  unfold usedDen alphaDen
  split
  · split <;> omega
  · omega

/-- the limit of `Count` as a real number -/
theorem limit_real {p : Byte} (h4 : 4 ≤ p.toNat) (h18 : p.toNat ≤ 18) : ∃ T,
    F64.div (F64.mul (alpha p) (F64.ofInt (mInt p))) (F64.ofNat 7) = .fin false T ∧
    countLimit p.toNat * (1 - 1 / 2 ^ 40) ≤ T / one ∧ (T / one : ℝ) ≤ countLimit p.toNat * (1 + 1 / 2 ^ 40) := by
  obtain ⟨A, T, _, e, _, _, _, ⟨h5, h6⟩, _⟩ := alpha_is h4 h18
  refine ⟨T, e, ?_⟩
  have ho := one_real_pos
  have hden : (0 : ℝ) < usedDen p.toNat := by exact_mod_cast usedDen_pos p.toNat
  have r5 : (((2 ^ 40 - 1) * (usedNum p.toNat * 2 ^ p.toNat * one) : Nat) : ℝ) ≤ ((2 ^ 40 * (7 * T * usedDen p.toNat) : Nat) : ℝ) := by
    exact_mod_cast h5
  have r6 : ((2 ^ 40 * (7 * T * usedDen p.toNat) : Nat) : ℝ) ≤ (((2 ^ 40 + 1) * (usedNum p.toNat * 2 ^ p.toNat * one) : Nat) : ℝ) := by
    exact_mod_cast h6
  push_cast at r5 r6
  unfold countLimit usedAlpha
  generalize (usedDen p.toNat : ℝ) = d at *
  generalize (usedNum p.toNat : ℝ) = n at *
  generalize (T : ℝ) = a at *
  generalize ((one : Nat) : ℝ) = o at *
  generalize (2 : ℝ) ^ p.toNat = m at *
  have e1 : n / d * m / 7 * (1 - 1 / 2 ^ 40) = (2 ^ 40 - 1) * (n * m) / (2 ^ 40 * 7 * d) := by field_simp
  have e2 : n / d * m / 7 * (1 + 1 / 2 ^ 40) = (2 ^ 40 + 1) * (n * m) / (2 ^ 40 * 7 * d) := by field_simp
  rw [e1, e2]
  constructor
  · rw [div_le_div_iff₀ (by positivity) ho]
    norm_num at *; linarith
  · rw [div_le_div_iff₀ ho (by positivity)]
    norm_num at *; linarith

theorem used_close {p : Nat} (h4 : 4 ≤ p) (h18 : p ≤ 18) : 0 < usedAlpha p ∧ usedAlpha p ≤ 3 / 4 ∧ 0.997 * publishedAlpha p ≤ usedAlpha p ∧
    usedAlpha p ≤ 1.003 * publishedAlpha p := by
  unfold usedAlpha publishedAlpha usedNum usedDen alphaNum alphaDen
  interval_cases p <;> norm_num

/-! ### from the denominator to the estimate -/

theorem rep_shift {A : Nat} (h : Rep A) (k : Nat) : Rep (A * 2 ^ k) := by
  unfold Rep at h
  obtain ⟨q, hq⟩ := h
  have hlt := lt_of_shiftOf A
  generalize shiftOf A = s at *
  have hq53 : q ≤ 2 ^ 53 := by
    by_contra hc
    have : 2 ^ s * 2 ^ 53 ≤ 2 ^ s * q := Nat.mul_le_mul_left _ (by omega)
    rw [← hq, ← Nat.pow_add, Nat.add_comm s] at this
    omega
  have e : A * 2 ^ k = q * 2 ^ (s + k) := by rw [hq, Nat.pow_add]; ring
  rw [e]
  exact rep_of_mul hq53

theorem mul_pow_is {A k : Nat} (hA : Rep A) (hk : k ≤ 53) (hl : A * 2 ^ k < limit) :
    F64.mul (.fin false A) (F64.ofInt ((2 ^ k : Nat) : Int)) = .fin false (A * 2 ^ k) := by
  rw [ofInt_is (Nat.pow_le_pow_right (by omega) hk), F64.mul, mk, ← Nat.mul_assoc, rnd_exact F64.one_pos (rep_shift hA k), if_pos hl]
  rfl

/-- numerator of the estimate -/
theorem normalize_is {c : Counter} (h : WF c) {A : Nat} (hA : alpha c.p = .fin false A) (hr : Rep A) (h4 : 4 * A ≤ 3 * one) (z : F64) :
    normalize c z = F64.div (.fin false (A * 2 ^ (2 * c.p.toNat))) z := by
  have hp := h.p18
  have hl : A * 2 ^ (2 * c.p.toNat) < limit := by
    refine Nat.lt_of_le_of_lt (m := 2 ^ (2 * c.p.toNat) * one) ?_ (pow_one_lt (by omega))
    rw [Nat.mul_comm]; exact Nat.mul_le_mul_left _ (by omega)
  have hl1 : A * 2 ^ c.p.toNat < limit := by
    refine Nat.lt_of_le_of_lt (Nat.mul_le_mul_left _ (Nat.pow_le_pow_right (by omega) (by omega))) hl
  have e : A * 2 ^ (2 * c.p.toNat) = A * 2 ^ c.p.toNat * 2 ^ c.p.toNat := by
    rw [Nat.mul_assoc, ← Nat.pow_add]; congr 2; omega
  unfold normalize
  rw [mInt_eq c.p h.p18, hA, mul_pow_is hr (by omega) hl1, mul_pow_is (rep_shift hr _) (by omega) (by rw [← e]; exact hl), ← e]

/-- the estimate for the denominator `Z` -/
noncomputable def est (A p Z : Nat) : Nat := ⌈(rnd (A * 2 ^ (2 * p) * one) Z : ℝ) / one⌉₊

theorem est_anti {A p Y Z : Nat} (hY : 0 < Y) (h : Y ≤ Z) : est A p Z ≤ est A p Y := by
  unfold est
  apply Nat.ceil_mono
  apply div_le_div_of_nonneg_right _ one_real_pos.le
  exact_mod_cast rnd_mono (by omega) hY (Nat.mul_le_mul_left _ h)

theorem estimate_is {c : Counter} (h : WF c) {A : Nat} (hA : alpha c.p = .fin false A) (hr : Rep A) (h4 : 4 * A ≤ 3 * one) {Z : Nat}
    (hZ : 2 ^ (2 * c.p.toNat) * one ≤ Z * 2 ^ 63) :
    0 < Z ∧ F64.toInt64 (F64.ceil (normalize c (.fin false Z))) = (est A c.p.toNat Z : Nat) ∧ est A c.p.toNat Z ≤ 3 * 2 ^ 61 := by
  have ho := F64.one_pos
  have hZ0 : 0 < Z := by
    rcases Nat.eq_zero_or_pos Z with h0 | h0
    · subst h0
      have := Nat.mul_pos (Nat.two_pow_pos (2 * c.p.toNat)) ho
      omega
    · exact h0
  have hle : rnd (A * 2 ^ (2 * c.p.toNat) * one) Z ≤ 3 * 2 ^ 61 * one := by
    apply rnd_le_of_rep hZ0 (rep_mul_one_big)
    calc A * 2 ^ (2 * c.p.toNat) * one = A * (2 ^ (2 * c.p.toNat) * one) := by ring
      _ ≤ A * (Z * 2 ^ 63) := Nat.mul_le_mul_left _ hZ
      _ = 4 * A * (Z * 2 ^ 61) := by ring
      _ ≤ 3 * one * (Z * 2 ^ 61) := Nat.mul_le_mul_right _ h4
      _ = _ := by ring
  have hlim : rnd (A * 2 ^ (2 * c.p.toNat) * one) Z < limit :=
    Nat.lt_of_le_of_lt (Nat.le_trans hle (Nat.mul_le_mul_right _ (by omega : 3 * 2 ^ 61 ≤ 2 ^ 64))) pow64_one
  have hest : est A c.p.toNat Z ≤ 3 * 2 ^ 61 := by
    unfold est
    rw [Nat.ceil_le, div_le_iff₀ one_real_pos]
    exact_mod_cast hle
  refine ⟨hZ0, ?_, hest⟩
  rw [normalize_is h hA hr h4, F64.div, if_neg (by omega), mk, if_pos hlim]
  have := ceil_is (x := .fin false (rnd (A * 2 ^ (2 * c.p.toNat) * one) Z)) ⟨_, rfl, rfl⟩
  rw [show (false != false) = false from rfl, this, toInt64_is _ _ _ (.inr rfl)]
  · rfl
  · unfold est at hest; omega

end Starbow.Hll
