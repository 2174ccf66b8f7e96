import Verif.Spec.Ieee
import Verif.Proof.F64
/-
The rounding of `Model/F64.lean` is the rounding of IEEE 754.
-/
namespace Starbow.F64
open Starbow.Spec

/-- `r` is the best representable magnitude for `x`, ties to even, without a limit on the exponent -/
def Best (x : ℝ) (r : Nat) : Prop :=
  Rep r ∧ ∀ m : Nat, Rep m → m ≠ r → |x - r| < |x - m| ∨ |x - r| = |x - m| ∧ (r / 2 ^ shiftOf r) % 2 = 0

/-- a representable number that is not on the grid of step `2^s` is below its normalised part -/
theorem lt_of_not_dvd {m s : Nat} (hm : Rep m) (h : ¬ 2 ^ s ∣ m) : m < 2 ^ (52 + s) := by
  by_contra hc
  have := le_shiftOf_of_le (Nat.le_of_not_lt hc)
  exact h (Nat.dvd_trans (Nat.pow_dvd_pow 2 this) hm)

/-- the significand of `r * 2^s` -/
theorem sig_of_mul {r s : Nat} (h : r < 2 ^ 53) (h2 : 2 ^ 52 ≤ r ∨ s = 0) : r * 2 ^ s / 2 ^ shiftOf (r * 2 ^ s) = r := by
  have e : shiftOf (r * 2 ^ s) = s := by
    apply Nat.le_antisymm
    · apply shiftOf_le_of_lt
      rw [Nat.pow_add]
      exact (Nat.mul_lt_mul_right (Nat.two_pow_pos s)).2 h
    · rcases h2 with h2 | h2
      · apply le_shiftOf_of_le
        rw [Nat.pow_add]
        exact Nat.mul_le_mul_right _ h2
      · omega
  rw [e, Nat.mul_div_cancel _ (Nat.two_pow_pos s)]

theorem sig_even_of_mul {r s : Nat} (h : r ≤ 2 ^ 53) (h2 : 2 ^ 52 ≤ r ∨ s = 0) (he : r % 2 = 0) :
    (r * 2 ^ s / 2 ^ shiftOf (r * 2 ^ s)) % 2 = 0 := by
  rcases Nat.lt_or_ge r (2 ^ 53) with hr | hr
  · rw [sig_of_mul hr h2]; exact he
  · have : r = 2 ^ 53 := Nat.le_antisymm h hr
    subst this
    have e : 2 ^ 53 * 2 ^ s = 2 ^ 52 * 2 ^ (s + 1) := by rw [Nat.pow_succ 2 s]; ring
    rw [e, sig_of_mul (by norm_num) (Or.inl (le_refl _))]; norm_num

theorem best_grid {x : ℝ} {r s : Nat} (hr : r ≤ 2 ^ 53) (h2 : 2 ^ 52 ≤ r ∨ s = 0) (hx : (2 : ℝ) ^ (52 + s) ≤ x ∨ s = 0)
    (hlo : x ≤ ((r : ℝ) + 1 / 2) * 2 ^ s) (hhi : ((r : ℝ) - 1 / 2) * 2 ^ s ≤ x)
    (ht : x = ((r : ℝ) + 1 / 2) * 2 ^ s ∨ x = ((r : ℝ) - 1 / 2) * 2 ^ s → r % 2 = 0) : Best x (r * 2 ^ s) := by
  refine ⟨rep_of_mul hr, ?_⟩
  intro m hm hne
  have hp : (0 : ℝ) < 2 ^ s := by positivity
  by_cases hd : 2 ^ s ∣ m
  · obtain ⟨k, rfl⟩ := hd
    have hk : k ≠ r := by rintro rfl; exact hne (Nat.mul_comm _ _)
    push_cast
    have hk2 : (k : ℝ) + 1 ≤ r ∨ (r : ℝ) + 1 ≤ k := by
      rcases Nat.lt_or_gt_of_ne hk with h | h
      · left; exact_mod_cast h
      · right; exact_mod_cast h
    have hev := fun h => sig_even_of_mul hr h2 (ht h)
    rw [mul_comm (2 ^ s : ℝ) (k : ℝ)]
    generalize (2 : ℝ) ^ s = c at *
    have e1 : ((r : ℝ) + 1 / 2) * c = r * c + c / 2 := by ring
    have e2 : ((r : ℝ) - 1 / 2) * c = r * c - c / 2 := by ring
    rw [e1] at hlo hev
    rw [e2] at hhi hev
    have hdist : |x - r * c| ≤ c / 2 := by rw [abs_le]; constructor <;> linarith
    have hfar : c / 2 ≤ |x - k * c| := by
      rcases hk2 with h | h
      · have := mul_le_mul_of_nonneg_right h hp.le
        rw [add_mul, one_mul] at this
        exact le_trans (by linarith) (le_abs_self _)
      · have := mul_le_mul_of_nonneg_right h hp.le
        rw [add_mul, one_mul] at this
        exact le_trans (by linarith) (neg_le_abs _)
    rcases lt_or_eq_of_le (le_trans hdist hfar) with h | h
    · exact Or.inl h
    · refine Or.inr ⟨h, hev ?_⟩
      have : |x - r * c| = c / 2 := le_antisymm hdist (by rw [h]; exact hfar)
      rcases (abs_eq (by linarith)).1 this with g | g
      · left; linarith
      · right; linarith
  · have hs : s ≠ 0 := by rintro rfl; exact hd (by simp)
    have hx := hx.resolve_right hs
    have h2 := h2.resolve_right hs
    have hlt := lt_of_not_dvd hm hd
    left
    have hm1 : (m : ℝ) < 2 ^ (52 + s) := by exact_mod_cast hlt
    have e52 : (2 : ℝ) ^ (52 + s) = 2 ^ 52 * 2 ^ s := pow_add _ _ _
    rw [e52] at hx hm1
    have hr1 : (2 : ℝ) ^ 52 ≤ r := by exact_mod_cast h2
    push_cast
    have hfar : x - 2 ^ 52 * 2 ^ s < |x - m| := lt_of_lt_of_le (by linarith) (le_abs_self _)
    refine lt_of_le_of_lt ?_ hfar
    rcases Nat.eq_or_lt_of_le h2 with h | h
    · have : (r : ℝ) = 2 ^ 52 := by rw [← h]; norm_num
      rw [this, abs_of_nonneg (by linarith)]
    · have h1 : (2 : ℝ) ^ 52 + 1 ≤ r := by exact_mod_cast h
      have := mul_le_mul_of_nonneg_right h1 hp.le
      rw [add_mul, one_mul] at this
      have e1 : ((r : ℝ) + 1 / 2) * 2 ^ s = r * 2 ^ s + 2 ^ s / 2 := by ring
      have e2 : ((r : ℝ) - 1 / 2) * 2 ^ s = r * 2 ^ s - 2 ^ s / 2 := by ring
      rw [e1] at hlo
      rw [e2] at hhi
      rw [abs_le]
      constructor <;> linarith

/-- `rnd` rounds to nearest, ties to even -/
theorem rnd_best (a b : Nat) (hb : 0 < b) : Best ((a : ℝ) / b) (rnd a b) := by
  have hbr : (0 : ℝ) < b := by exact_mod_cast hb
  have hle := rhe_le_53 a b hb
  have hq := le_of_shiftOf (a / b)
  unfold rnd
  generalize shiftOf (a / b) = s at *
  have hc : 0 < b * 2 ^ s := Nat.mul_pos hb (Nat.two_pow_pos s)
  have h1 := rhe_lo a (b * 2 ^ s) hc
  have h2 := rhe_hi a (b * 2 ^ s) hc
  have h3 := rhe_even a (b * 2 ^ s) hc
  have hab : 0 < s → (2 : ℝ) ^ (52 + s) * b ≤ a := by
    intro h
    have := (Nat.le_div_iff_mul_le hb).1 (hq h)
    exact_mod_cast this
  have hge : 0 < s → 2 ^ 52 ≤ rhe a (b * 2 ^ s) := by
    intro h
    have := (Nat.le_div_iff_mul_le hb).1 (hq h)
    have g : rhe (2 ^ 52 * (b * 2 ^ s)) (b * 2 ^ s) ≤ rhe a (b * 2 ^ s) := by
      apply rhe_mono hc hc
      apply Nat.mul_le_mul_right
      calc 2 ^ 52 * (b * 2 ^ s) = 2 ^ (52 + s) * b := by rw [Nat.pow_add]; ring
        _ ≤ a := this
    rwa [rhe_mul _ _ hc] at g
  generalize rhe a (b * 2 ^ s) = r at *
  have r1 : 2 * (a : ℝ) ≤ (2 * r + 1) * (b * 2 ^ s) := by exact_mod_cast h1
  have r2 : 2 * (r : ℝ) * (b * 2 ^ s) ≤ 2 * a + b * 2 ^ s := by exact_mod_cast h2
  have hp : (0 : ℝ) < 2 ^ s := by positivity
  apply best_grid hle
  · rcases Nat.eq_zero_or_pos s with h | h
    · exact Or.inr h
    · exact Or.inl (hge h)
  · rcases Nat.eq_zero_or_pos s with h | h
    · exact Or.inr h
    · exact Or.inl ((le_div_iff₀ hbr).2 (hab h))
  · rw [div_le_iff₀ hbr]; linarith
  · rw [le_div_iff₀ hbr]; linarith
  · intro h
    apply h3
    rcases h with h | h
    · left
      rw [div_eq_iff (ne_of_gt hbr)] at h
      have : 2 * (a : ℝ) = (2 * r + 1) * (b * 2 ^ s) := by rw [h]; ring
      exact_mod_cast this
    · right
      rw [div_eq_iff (ne_of_gt hbr)] at h
      have : 2 * (r : ℝ) * (b * 2 ^ s) = 2 * a + b * 2 ^ s := by rw [h]; ring
      exact_mod_cast this

/-! ### the limit -/

/-- the greatest exponent -/
@[irreducible] def expTop : Nat := 2045
theorem expTop_eq : expTop = 2045 := by rw [expTop]

/-- the greatest finite magnitude -/
def top : Nat := (2 ^ 53 - 1) * 2 ^ expTop

theorem limit_exp : limit = 2 ^ (53 + expTop) := by rw [limit_eq, expLimit_eq, expTop_eq]

theorem limit_top : limit = top + 2 ^ expTop := by
  rw [limit_exp, top, Nat.pow_add]
  generalize 2 ^ expTop = c
  omega

theorem top_lt : top < limit := by rw [limit_top]; exact Nat.lt_add_of_pos_right (Nat.two_pow_pos _)

theorem rep_limit : Rep limit := by rw [limit_eq]; exact rep_pow _
theorem rep_top : Rep top := rep_of_mul (by norm_num)
theorem sig_top : top / 2 ^ shiftOf top = 2 ^ 53 - 1 := by
  unfold top
  exact sig_of_mul (by norm_num) (Or.inl (by norm_num))

theorem le_top {r : Nat} (hr : Rep r) (h : r < limit) : r ≤ top := by
  by_cases hd : 2 ^ expTop ∣ r
  · obtain ⟨k, rfl⟩ := hd
    rw [limit_exp, Nat.add_comm, Nat.pow_add] at h
    have := Nat.lt_of_mul_lt_mul_left h
    rw [top, Nat.mul_comm (2 ^ 53 - 1)]
    exact Nat.mul_le_mul_left _ (by omega)
  · refine Nat.le_trans (Nat.le_of_lt (lt_of_not_dvd hr hd)) ?_
    rw [Nat.pow_add, top]
    exact Nat.mul_le_mul_right _ (by norm_num)

/-- half-way between the greatest finite magnitude and the limit -/
noncomputable def mid : ℝ := (top + limit) / 2

theorem mid_eq : (mid : ℝ) * 2 = top + limit := by unfold mid; ring

theorem Best.lt_limit {x : ℝ} {r : Nat} (h : Best x r) (hx : x < mid) : r < limit := by
  by_contra hc
  have hc : limit ≤ r := Nat.le_of_not_lt hc
  have h1 : (limit : ℝ) ≤ r := by exact_mod_cast hc
  have htl := top_lt
  have h2 : (top : ℝ) < limit := by exact_mod_cast htl
  have hm := mid_eq
  have hne : top ≠ r := by omega
  have hle : |x - r| ≤ |x - top| := by
    rcases h.2 top rep_top hne with g | g
    · exact g.le
    · exact g.1.le
  have hr : (r : ℝ) - x ≤ |x - r| := by rw [← neg_sub]; exact neg_le_abs _
  rcases abs_cases (x - (top : ℝ)) with ⟨g, _⟩ | ⟨g, _⟩ <;> rw [g] at hle <;> linarith

theorem Best.ge_limit {x : ℝ} {r : Nat} (h : Best x r) (hx : mid ≤ x) : limit ≤ r := by
  by_contra hc
  have hc : r < limit := Nat.lt_of_not_le hc
  have h1 : (r : ℝ) ≤ top := by exact_mod_cast le_top h.1 hc
  have hm := mid_eq
  have hle : x - r ≤ |x - r| := le_abs_self _
  have htl := top_lt
  have h2 : (top : ℝ) < limit := by exact_mod_cast htl
  rcases h.2 limit rep_limit (by omega) with g | ⟨g, ge⟩
  · rcases abs_cases (x - (limit : ℝ)) with ⟨k, _⟩ | ⟨k, _⟩ <;> rw [k] at g <;> linarith
  · have : r = top := by
      have : (r : ℝ) = top := by
        rcases abs_cases (x - (limit : ℝ)) with ⟨k, _⟩ | ⟨k, _⟩ <;> rw [k] at g <;> linarith
      exact_mod_cast this
    rw [this, sig_top] at ge
    omega

/-! ### rationals -/

theorem one_q : (one : ℚ) = 2 ^ 1074 := by rw [one_eq, expOne_eq]; push_cast; rfl
theorem one_r : (one : ℝ) = 2 ^ 1074 := by rw [one_eq, expOne_eq]; push_cast; rfl
theorem oneq_pos : (0 : ℚ) < one := by exact_mod_cast one_pos
theorem oner_pos : (0 : ℝ) < one := by exact_mod_cast one_pos

theorem binary64_iff {q : ℚ} : Binary64 q ↔ ∃ z : ℤ, Rep z.natAbs ∧ z.natAbs < limit ∧ q = z / one := by
  unfold Binary64
  rw [← expTop_eq]
  constructor
  · rintro ⟨m, e, hm, he, rfl⟩
    have hm' : m.natAbs < 2 ^ 53 := by zify; exact hm
    refine ⟨m * 2 ^ e, ?_, ?_, ?_⟩
    · rw [Int.natAbs_mul, Int.natAbs_pow]
      exact rep_of_mul hm'.le
    · rw [Int.natAbs_mul, Int.natAbs_pow, limit_top, top]
      have h1 : m.natAbs ≤ 2 ^ 53 - 1 := by omega
      refine Nat.lt_of_le_of_lt (Nat.mul_le_mul h1 (Nat.pow_le_pow_right (by decide) he)) ?_
      exact Nat.lt_add_of_pos_right (Nat.two_pow_pos _)
    · rw [one_q]; push_cast; rfl
  · rintro ⟨z, hr, hl, rfl⟩
    have hs : shiftOf z.natAbs ≤ expTop := by
      apply shiftOf_le_of_lt
      rwa [limit_exp] at hl
    have hlt := lt_of_shiftOf z.natAbs
    obtain ⟨k, hk⟩ := hr
    have hz : z = z.sign * k * 2 ^ shiftOf z.natAbs := by
      have := Int.sign_mul_natAbs z
      conv_lhs => rw [← this, hk]
      push_cast; ring
    refine ⟨z.sign * k, shiftOf z.natAbs, ?_, hs, ?_⟩
    · have hk2 : k < 2 ^ 53 := by
        have hlt := lt_of_eq_of_lt hk.symm hlt
        rw [Nat.add_comm, Nat.pow_add] at hlt
        exact Nat.lt_of_mul_lt_mul_left hlt
      rw [abs_mul]
      have h1 : |z.sign| ≤ 1 := by
        rcases Int.lt_trichotomy z 0 with h | h | h
        · rw [Int.sign_eq_neg_one_of_neg h]; norm_num
        · rw [h]; norm_num
        · rw [Int.sign_eq_one_of_pos h]; norm_num
      have h2 : |((k : Nat) : Int)| < 2 ^ 53 := by rw [abs_of_nonneg (by omega)]; exact_mod_cast hk2
      calc |z.sign| * |(k : Int)| ≤ 1 * |(k : Int)| := mul_le_mul_of_nonneg_right h1 (abs_nonneg _)
        _ < 2 ^ 53 := by rw [one_mul]; exact h2
    · rw [one_q]
      congr 1
      exact_mod_cast hz

theorem mid_bound : ((2 : ℝ) ^ 1024 - 2 ^ 970) * one = mid := by
  have e1 : (2 : ℝ) ^ 1024 * one = limit := by
    rw [one_eq, expOne_eq, limit_eq, expLimit_eq, Nat.cast_pow, Nat.cast_pow, Nat.cast_ofNat, ← pow_add]
  have e2 : (2 : ℝ) ^ 970 * one * 2 = 2 ^ expTop := by
    rw [one_eq, expOne_eq, expTop_eq, Nat.cast_pow, Nat.cast_ofNat, ← pow_add, ← pow_succ]
  have e3 : (limit : ℝ) = top + 2 ^ expTop := by rw [limit_top]; push_cast; rfl
  rw [sub_mul, e1]
  unfold mid
  rw [e3]
  linarith

theorem value_fin (s : Bool) (m : Nat) : value (.fin s m) = some ((signed s m : ℤ) / (one : ℚ)) := by
  rw [one_q]
  unfold value signed
  cases s <;> simp

theorem even_fin {r : Nat} (hr : Rep r) (he : (r / 2 ^ shiftOf r) % 2 = 0) (s : Bool) :
    EvenSignificand ((signed s r : ℤ) / (one : ℚ)) := by
  have hlt := lt_of_shiftOf r
  have hge := le_of_shiftOf r
  obtain ⟨k, hk⟩ := hr
  have hp := Nat.two_pow_pos (shiftOf r)
  have hkq : r / 2 ^ shiftOf r = k := by
    exact Nat.div_eq_of_eq_mul_right hp hk
  have hk2 : k < 2 ^ 53 := by
    have hlt := lt_of_eq_of_lt hk.symm hlt
    rw [Nat.add_comm, Nat.pow_add] at hlt
    exact Nat.lt_of_mul_lt_mul_left hlt
  have hk3 : 0 < shiftOf r → 2 ^ 52 ≤ k := by
    intro h
    have hge := le_of_le_of_eq (hge h) hk
    rw [Nat.add_comm, Nat.pow_add] at hge
    exact Nat.le_of_mul_le_mul_left hge hp
  rw [hkq] at he
  have hs : |signed s k| = (k : Int) := by
    unfold signed
    cases s
    · simp
    · simp
  refine ⟨signed s k, shiftOf r, ?_, ?_, ?_, ?_⟩
  · rw [hs]; exact_mod_cast hk2
  · rcases Nat.eq_zero_or_pos (shiftOf r) with h | h
    · exact Or.inr h
    · left; rw [hs]; exact_mod_cast hk3 h
  · have : Even (k : Int) := by
      rw [Int.even_iff]; omega
    unfold signed
    cases s
    · simpa using this
    · simpa using this
  · rw [one_q]
    congr 1
    have : signed s r = signed s k * 2 ^ shiftOf r := by
      unfold signed
      have : (r : Int) = k * 2 ^ shiftOf r := by
        conv_lhs => rw [hk]
        push_cast; ring
      cases s
      · simpa using this
      · simp only [if_true]
        rw [neg_mul, ← this]
    exact_mod_cast this

theorem signed_self (s : Bool) (z : Int) : z = signed s (1 : Nat) * (signed s (1 : Nat) * z) := by
  unfold signed; cases s <;> simp

/-- also against negative numbers -/
theorem Best.int {y : ℝ} {r : Nat} (h : Best y r) (hy : 0 ≤ y) {z : Int} (hz : Rep z.natAbs) (hne : z ≠ r) :
    |y - r| < |y - z| ∨ |y - r| = |y - z| ∧ (r / 2 ^ shiftOf r) % 2 = 0 := by
  rcases lt_or_ge z 0 with hn | hn
  · left
    have hz0 : (z : ℝ) < 0 := by exact_mod_cast hn
    have e1 : |y - (z : ℝ)| = y - z := abs_of_pos (by linarith)
    rw [e1]
    rcases hy.eq_or_lt with h0 | h0
    · have hr : r = 0 := by
        by_contra hr
        have hr0 : (0 : ℝ) < r := by exact_mod_cast Nat.pos_of_ne_zero hr
        have := h.2 0 rep_zero (Ne.symm hr)
        rw [← h0] at this
        simp only [zero_sub, abs_neg, Nat.cast_zero, neg_zero, abs_zero] at this
        rw [abs_of_pos hr0] at this
        rcases this with g | g
        · linarith
        · linarith [g.1]
      rw [hr, ← h0]
      simpa using hz0
    · have hcast : ((z.natAbs : Nat) : ℝ) = -z := by
        rw [Nat.cast_natAbs, Int.cast_abs, abs_of_neg hz0]
      have hle : |y - r| ≤ |y - (z.natAbs : Nat)| := by
        by_cases hc : z.natAbs = r
        · rw [hc]
        · rcases h.2 _ hz hc with g | g
          · exact g.le
          · exact g.1.le
      refine lt_of_le_of_lt hle ?_
      rw [hcast, abs_lt]
      constructor <;> linarith
  · have hcast : ((z.natAbs : Nat) : ℝ) = z := by
      rw [Nat.cast_natAbs, Int.cast_abs, abs_of_nonneg (by exact_mod_cast hn)]
    rw [← hcast]
    exact h.2 _ hz (by omega)

theorem rounded_of_best {x : ℝ} (hx : 0 ≤ x) {r : Nat} (h : Best (x * one) r) (s : Bool) :
    Rounded (if s then -x else x) (if r < limit then .fin s r else .inf s) := by
  have hb := mid_bound
  have ho := oner_pos
  have habs : |(if s then -x else x)| = x := by cases s <;> simp [abs_of_nonneg hx]
  have hbpos : (0 : ℝ) < 2 ^ 1024 - 2 ^ 970 := by
    have h1 : (0 : ℝ) < mid := by
      have : (0 : ℝ) < limit := by exact_mod_cast limit_pos
      have : (0 : ℝ) ≤ top := Nat.cast_nonneg _
      unfold mid; positivity
    rw [← hb] at h1
    exact (mul_pos_iff_of_pos_right ho).1 h1
  unfold Rounded
  rw [habs]
  generalize (2 : ℝ) ^ 1024 - 2 ^ 970 = B at *
  have hge : B ≤ x → (if r < limit then F64.fin s r else .inf s) = .inf s := by
    intro g
    have : mid ≤ x * one := by rw [← hb]; exact mul_le_mul_of_nonneg_right g ho.le
    rw [if_neg (Nat.not_lt.2 (h.ge_limit this))]
  refine ⟨?_, ?_, ?_⟩
  · intro hlt
    have hr : r < limit := h.lt_limit (by rw [← hb]; exact mul_lt_mul_of_pos_right hlt ho)
    rw [if_pos hr]
    refine ⟨_, value_fin s r, ?_, ?_⟩
    · exact binary64_iff.2 ⟨signed s r, by rw [signed_natAbs]; exact h.1, by rw [signed_natAbs]; exact hr, rfl⟩
    · intro p hp hne
      obtain ⟨z, z1, z2, rfl⟩ := binary64_iff.1 hp
      -- everything in units, with the sign removed
      have key : |x * one - r| < |x * one - (signed s 1 * z : Int)| ∨ |x * one - r| = |x * one - (signed s 1 * z : Int)| ∧ (r / 2 ^ shiftOf r) % 2 = 0 := by
        have hne2 : signed s 1 * z ≠ r := by
          intro hc
          apply hne
          congr 2
          rw [signed_self s z, hc]
          unfold signed; cases s <;> simp
        have hna : (signed s 1 * z).natAbs = z.natAbs := by
          rw [Int.natAbs_mul, signed_natAbs, Nat.one_mul]
        rw [← hna] at z1
        exact h.int (mul_nonneg hx ho.le) z1 hne2
      have hsc : ∀ w : Int, |(if s then -x else x) - (((w : ℚ) / one : ℚ) : ℝ)| = |x * one - (signed s 1 * w : Int)| / one := by
        intro w
        rw [eq_div_iff (ne_of_gt ho), ← abs_of_pos ho, ← abs_mul, abs_of_pos ho, sub_mul]
        push_cast
        rw [div_mul_cancel₀ _ (ne_of_gt ho)]
        unfold signed
        cases s
        · simp
        · simp only [if_true]
          rw [← abs_neg]
          congr 1
          push_cast
          ring
      rw [hsc, hsc]
      have e1 : ((signed s 1 * signed s r : Int) : ℝ) = r := by
        unfold signed; cases s <;> simp
      rw [e1]
      rcases key with k | ⟨k, ke⟩
      · left; exact div_lt_div_of_pos_right k ho
      · right; exact ⟨by rw [k], even_fin h.1 ke s⟩
  · intro g
    cases s
    · exact hge g
    · simp only [if_true] at g; linarith
  · intro g
    cases s
    · simp only [Bool.false_eq_true, if_false] at g; linarith
    · simp only [if_true] at g; exact hge (by linarith)

/-- a rounded quotient of units -/
theorem mk_rounded (s : Bool) (a b : Nat) (hb : 0 < b) : Rounded (if s then -((a : ℝ) / b / one) else (a : ℝ) / b / one) (mk s a b) := by
  have h := rnd_best a b hb
  have e : (a : ℝ) / b = (a : ℝ) / b / one * one := (div_mul_cancel₀ _ (ne_of_gt oner_pos)).symm
  rw [e] at h
  exact rounded_of_best (by positivity) h s

/-- the odd part of a representable number has at most 53 bits -/
theorem rep_odd {c t : Nat} (h : Rep (c * 2 ^ t)) (hc : c % 2 = 1) : c < 2 ^ 53 := by
  have hlt := lt_of_shiftOf (c * 2 ^ t)
  unfold Rep at h
  generalize shiftOf (c * 2 ^ t) = s at *
  have hs : s ≤ t := by
    by_contra hs
    obtain ⟨d, hd⟩ : ∃ d, s = t + 1 + d := ⟨s - t - 1, by omega⟩
    obtain ⟨k, hk⟩ := h
    rw [hd, Nat.pow_add, Nat.pow_succ] at hk
    have : 2 ^ t * c = 2 ^ t * (2 * (2 ^ d * k)) := by rw [Nat.mul_comm, hk]; ring
    have := Nat.eq_of_mul_eq_mul_left (Nat.two_pow_pos t) this
    omega
  have : c * 2 ^ t < 2 ^ 53 * 2 ^ t := by
    rw [← Nat.pow_add]
    exact Nat.lt_of_lt_of_le hlt (Nat.pow_le_pow_right (by omega) (by omega))
  exact Nat.lt_of_mul_lt_mul_right this

/-- a square root is never half-way between two numbers of the grid it is rounded to -/
theorem sqrt_no_tie {m q s : Nat} (hm : Rep m) (hq : 2 ^ 52 ≤ q ∨ s = 0) : (2 * q + 1) ^ 2 * 4 ^ s ≠ 4 * (m * one) := by
  intro h
  have hodd : (2 * q + 1) ^ 2 % 2 = 1 := by
    rw [Nat.pow_mod]; have : (2 * q + 1) % 2 = 1 := by omega
    rw [this]
  cases s with
  | zero =>
    rw [Nat.pow_zero, Nat.mul_one] at h
    omega
  | succ s =>
    have hq := hq.resolve_right (by omega)
    have h1 : (2 * q + 1) ^ 2 * 4 ^ s = m * one := by
      rw [Nat.pow_succ] at h
      have : 4 * ((2 * q + 1) ^ 2 * 4 ^ s) = 4 * (m * one) := by rw [← h]; ring
      exact Nat.eq_of_mul_eq_mul_left (by omega) this
    have e4 : 4 ^ s = 2 ^ (2 * s) := by rw [show (4 : Nat) = 2 ^ 2 from rfl, ← Nat.pow_mul]
    rw [e4, one_eq] at h1
    have hle : expOne ≤ 2 * s := by
      by_contra hc
      obtain ⟨d, hd⟩ : ∃ d, expOne = 2 * s + 1 + d := ⟨expOne - 2 * s - 1, by omega⟩
      rw [hd, Nat.pow_add, Nat.pow_add 2 (2 * s) 1] at h1
      have : 2 ^ (2 * s) * (2 * q + 1) ^ 2 = 2 ^ (2 * s) * (2 * (m * 2 ^ d)) := by
        rw [Nat.mul_comm, h1]; ring
      have := Nat.eq_of_mul_eq_mul_left (Nat.two_pow_pos _) this
      omega
    obtain ⟨t, ht⟩ : ∃ t, 2 * s = t + expOne := ⟨2 * s - expOne, by omega⟩
    rw [ht, Nat.pow_add, ← Nat.mul_assoc] at h1
    have h2 := Nat.eq_of_mul_eq_mul_right (Nat.two_pow_pos _) h1
    rw [← h2] at hm
    have h3 := rep_odd hm hodd
    have h4 : (2 ^ 52) ^ 2 ≤ (2 * q + 1) ^ 2 := Nat.pow_le_pow_left (by omega) 2
    have h5 : (2 ^ 53 : Nat) ≤ (2 ^ 52) ^ 2 := by norm_num
    omega

/-- the rounded square root -/
theorem sqrt_best {m : Nat} (hm : Rep m) : Best (Real.sqrt ((m * one : Nat) : ℝ)) (sqrtMag m) := by
  have htie := fun q s => sqrt_no_tie (q := q) (s := s) hm
  unfold sqrtMag
  dsimp only
  have hs0 := le_of_shiftOf (Nat.sqrt (m * one))
  have hs1 := lt_of_shiftOf (Nat.sqrt (m * one))
  have hnat := Real.nat_sqrt_le_real_sqrt (a := m * one)
  have hS : Nat.sqrt (m * one) * Nat.sqrt (m * one) ≤ m * one := Nat.sqrt_le _
  have hS1 : m * one < (Nat.sqrt (m * one) + 1) * (Nat.sqrt (m * one) + 1) := Nat.lt_succ_sqrt _
  generalize m * one = N at *
  generalize Nat.sqrt N = S at *
  generalize hs : shiftOf S = s at *
  have hp := Nat.two_pow_pos s
  have e4 : 4 ^ s = 2 ^ s * 2 ^ s := by rw [show (4 : Nat) = 2 * 2 from rfl, Nat.mul_pow]
  have hpp := Nat.mul_pos hp hp
  rw [e4]
  have htie := fun q => htie q s
  rw [e4] at htie
  generalize hq : Nat.sqrt (N / (2 ^ s * 2 ^ s)) = q
  have hlo : q * q * (2 ^ s * 2 ^ s) ≤ N := by
    rw [← Nat.le_div_iff_mul_le hpp, ← hq]
    exact Nat.sqrt_le _
  have hhi : N < (q + 1) * (q + 1) * (2 ^ s * 2 ^ s) := by
    have h1 := Nat.lt_succ_sqrt (N / (2 ^ s * 2 ^ s))
    rw [hq] at h1
    exact (Nat.div_lt_iff_lt_mul hpp).1 h1
  have hq52 : 2 ^ 52 ≤ q ∨ s = 0 := by
    rcases Nat.eq_zero_or_pos s with h | h
    · exact Or.inr h
    · left
      by_contra hc
      have h1 : q + 1 ≤ 2 ^ 52 := by omega
      have h2 : (q + 1) * 2 ^ s ≤ S := by
        refine Nat.le_trans (Nat.mul_le_mul_right _ h1) ?_
        rw [← Nat.pow_add]; exact hs0 h
      have h3 := Nat.mul_le_mul h2 h2
      have h4 : (q + 1) * 2 ^ s * ((q + 1) * 2 ^ s) = (q + 1) * (q + 1) * (2 ^ s * 2 ^ s) := by ring
      omega
  have hq53 : q < 2 ^ 53 := by
    by_contra hc
    have h1 : 2 ^ 53 ≤ q := by omega
    have h2 : S + 1 ≤ q * 2 ^ s := by
      refine Nat.le_trans hs1 ?_
      rw [Nat.pow_add]; exact Nat.mul_le_mul_right _ h1
    have h3 := Nat.mul_le_mul h2 h2
    have h4 : q * 2 ^ s * (q * 2 ^ s) = q * q * (2 ^ s * 2 ^ s) := by ring
    omega
  have hx : (2 : ℝ) ^ (52 + s) ≤ Real.sqrt (N : ℝ) ∨ s = 0 := by
    rcases Nat.eq_zero_or_pos s with h | h
    · exact Or.inr h
    · left
      refine le_trans ?_ hnat
      exact_mod_cast hs0 h
  have rlo : ((q : ℝ) * 2 ^ s) ≤ Real.sqrt (N : ℝ) := by
    apply Real.le_sqrt_of_sq_le
    have : ((q * q * (2 ^ s * 2 ^ s) : Nat) : ℝ) ≤ N := by exact_mod_cast hlo
    push_cast at this
    nlinarith
  have rhi : Real.sqrt (N : ℝ) ≤ ((q : ℝ) + 1) * 2 ^ s := by
    rw [Real.sqrt_le_left (by positivity)]
    have : (N : ℝ) ≤ (((q + 1) * (q + 1) * (2 ^ s * 2 ^ s) : Nat) : ℝ) := by exact_mod_cast hhi.le
    push_cast at this
    nlinarith
  have hp2 : (0 : ℝ) < 2 ^ s := by positivity
  have hne := htie q hq52
  have hmid : ∀ c : Nat, ((2 * (q : ℝ) + 1) ^ 2 * (2 ^ s * 2 ^ s)) = 4 * (((q : ℝ) + 1 / 2) * 2 ^ s) ^ 2 := by intro _; ring
  split
  · rename_i hlt
    have hgt : ((q : ℝ) + 1 / 2) * 2 ^ s < Real.sqrt (N : ℝ) := by
      apply Real.lt_sqrt_of_sq_lt
      have : (((2 * q + 1) ^ 2 * (2 ^ s * 2 ^ s) : Nat) : ℝ) < ((4 * N : Nat) : ℝ) := by exact_mod_cast hlt
      push_cast at this
      rw [hmid 0] at this
      linarith
    apply best_grid (by omega) (by omega) hx
    · push_cast
      have e : ((q : ℝ) + 1 + 1 / 2) * 2 ^ s = ((q : ℝ) + 1) * 2 ^ s + 2 ^ s / 2 := by ring
      rw [e]; linarith
    · push_cast
      have e : ((q : ℝ) + 1 - 1 / 2) * 2 ^ s = ((q : ℝ) + 1 / 2) * 2 ^ s := by ring
      rw [e]; exact hgt.le
    · push_cast
      have e : ((q : ℝ) + 1 - 1 / 2) * 2 ^ s = ((q : ℝ) + 1 / 2) * 2 ^ s := by ring
      have e2 : ((q : ℝ) + 1 + 1 / 2) * 2 ^ s = ((q : ℝ) + 1) * 2 ^ s + 2 ^ s / 2 := by ring
      rw [e, e2]
      intro h
      rcases h with h | h <;> linarith
  · rename_i hlt
    have hgt : Real.sqrt (N : ℝ) < ((q : ℝ) + 1 / 2) * 2 ^ s := by
      rw [Real.sqrt_lt' (by positivity)]
      have h1 : 4 * N < (2 * q + 1) ^ 2 * (2 ^ s * 2 ^ s) := by omega
      have : ((4 * N : Nat) : ℝ) < (((2 * q + 1) ^ 2 * (2 ^ s * 2 ^ s) : Nat) : ℝ) := by exact_mod_cast h1
      push_cast at this
      rw [hmid 0] at this
      linarith
    have e : ((q : ℝ) - 1 / 2) * 2 ^ s = q * 2 ^ s - 2 ^ s / 2 := by ring
    apply best_grid (by omega) hq52 hx hgt.le
    · rw [e]; linarith
    · rw [e]
      intro h
      rcases h with h | h <;> linarith

end Starbow.F64
