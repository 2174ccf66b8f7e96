import Verif.Model.F64
import Mathlib.Tactic.Ring
import Mathlib.Tactic.Linarith
import Mathlib.Algebra.Order.Ring.Int
/-
Facts about rounding to 53 bits: monotone, exact on representable numbers, result representable, nearest.
-/
namespace Starbow.F64

theorem one_pos : 0 < one := by rw [one]; exact Nat.two_pow_pos _
theorem limit_pos : 0 < limit := by rw [limit]; exact Nat.two_pow_pos _

/-! ### rounding a quotient to an integer -/

theorem rhe_lo (a b : Nat) (hb : 0 < b) : 2 * a ≤ (2 * rhe a b + 1) * b := by
  have h := Nat.div_add_mod a b
  have hm := Nat.mod_lt a hb
  unfold rhe
  generalize a / b = q at *
  generalize a % b = r at *
  have e : (2 * q + 1) * b = 2 * (b * q) + b := by ring
  split
  · rw [e]; omega
  · split
    · have e : (2 * (q + 1) + 1) * b = 2 * (b * q) + 3 * b := by ring
      rw [e]; omega
    · have e : (2 * (q + q % 2) + 1) * b = 2 * (b * q) + (2 * (q % 2)) * b + b := by ring
      rw [e]; omega

theorem rhe_hi (a b : Nat) (hb : 0 < b) : 2 * rhe a b * b ≤ 2 * a + b := by
  have h := Nat.div_add_mod a b
  have hm := Nat.mod_lt a hb
  unfold rhe
  generalize a / b = q at *
  generalize a % b = r at *
  split
  · have e : 2 * q * b = 2 * (b * q) := by ring
    rw [e]; omega
  · split
    · have e : 2 * (q + 1) * b = 2 * (b * q) + 2 * b := by ring
      rw [e]; omega
    · have e : 2 * (q + q % 2) * b = 2 * (b * q) + (q % 2) * (2 * b) := by ring
      have : q % 2 = 0 ∨ q % 2 = 1 := by omega
      rw [e]; rcases this with h | h <;> rw [h] <;> omega

/-- a tie goes to the even neighbour -/
theorem rhe_even (a b : Nat) (hb : 0 < b) (h : 2 * a = (2 * rhe a b + 1) * b ∨ 2 * rhe a b * b = 2 * a + b) :
    rhe a b % 2 = 0 := by
  have hd := Nat.div_add_mod a b
  have hm := Nat.mod_lt a hb
  unfold rhe at *
  generalize a / b = q at *
  generalize a % b = r at *
  split at h
  · have e : (2 * q + 1) * b = 2 * (b * q) + b := by ring
    have e' : 2 * q * b = 2 * (b * q) := by ring
    rw [e, e'] at h; omega
  · split at h
    · have e : (2 * (q + 1) + 1) * b = 2 * (b * q) + 3 * b := by ring
      have e' : 2 * (q + 1) * b = 2 * (b * q) + 2 * b := by ring
      rw [e, e'] at h; omega
    · rename_i h1 h2
      rw [if_neg h1, if_neg h2]
      omega

theorem rhe_mono {a b c d : Nat} (hb : 0 < b) (hd : 0 < d) (h : a * d ≤ c * b) : rhe a b ≤ rhe c d := by
  by_contra hlt
  have hlt : rhe c d + 1 ≤ rhe a b := by omega
  have h1 := rhe_hi a b hb
  have h2 := rhe_lo c d hd
  have t1 := rhe_even a b hb
  have t2 := rhe_even c d hd
  generalize rhe a b = x at *
  generalize rhe c d = y at *
  -- 2 x b d ≤ 2 a d + b d ≤ 2 c b + b d ≤ (2y+1) d b + b d = (2y+2) b d
  have k1 : 2 * x * b * d ≤ (2 * a + b) * d := Nat.mul_le_mul_right d h1
  have k2 : 2 * c * b ≤ (2 * y + 1) * d * b := Nat.mul_le_mul_right b h2
  have k3 : (2 * (y + 1)) * (b * d) ≤ (2 * x) * (b * d) := Nat.mul_le_mul_right _ (by omega)
  have e1 : 2 * x * b * d = 2 * x * (b * d) := by ring
  have e2 : (2 * a + b) * d = 2 * (a * d) + b * d := by ring
  have e3 : 2 * c * b = 2 * (c * b) := by ring
  have e4 : (2 * y + 1) * d * b = 2 * (y * (b * d)) + b * d := by ring
  have e5 : 2 * (y + 1) * (b * d) = 2 * (y * (b * d)) + 2 * (b * d) := by ring
  rw [e1, e2] at k1
  rw [e3, e4] at k2
  rw [e5] at k3
  have hxy : (2 * x) * (b * d) = (2 * (y + 1)) * (b * d) := by rw [e5]; omega
  have hx : 2 * x = 2 * (y + 1) := Nat.eq_of_mul_eq_mul_right (Nat.mul_pos hb hd) hxy
  have hx : x = y + 1 := by omega
  have u1 : 2 * x * b = 2 * a + b := by
    apply Nat.eq_of_mul_eq_mul_right hd
    rw [e1, e2]; omega
  have u2 : 2 * c = (2 * y + 1) * d := by
    apply Nat.eq_of_mul_eq_mul_right hb
    rw [e3, e4]; omega
  have v1 := t1 (Or.inr u1)
  have v2 := t2 (Or.inl u2)
  omega

theorem rhe_mul (m b : Nat) (hb : 0 < b) : rhe (m * b) b = m := by
  unfold rhe
  rw [Nat.mul_mod_left, Nat.mul_div_cancel _ hb]
  simp [hb]

theorem rhe_scale (a b k : Nat) (hb : 0 < b) (hk : 0 < k) : rhe (a * k) (b * k) = rhe a b := by
  apply Nat.le_antisymm
  · exact rhe_mono (Nat.mul_pos hb hk) hb (by rw [Nat.mul_assoc, Nat.mul_comm k])
  · exact rhe_mono hb (Nat.mul_pos hb hk) (by rw [Nat.mul_assoc, Nat.mul_comm k])

/-! ### rounding to 53 bits -/

theorem shiftOf_mono {p q : Nat} (h : p ≤ q) : shiftOf p ≤ shiftOf q := by
  unfold shiftOf
  by_cases hp : p = 0
  · subst hp; simp
  · have := (Nat.le_log2 (by omega : q ≠ 0)).2 (Nat.le_trans (Nat.log2_self_le hp) h)
    omega

theorem lt_of_shiftOf (q : Nat) : q < 2 ^ (53 + shiftOf q) := by
  by_cases h : q = 0
  · subst h; exact Nat.two_pow_pos _
  · have h1 := Nat.lt_log2_self (n := q)
    refine Nat.lt_of_lt_of_le h1 (Nat.pow_le_pow_right (by omega) ?_)
    unfold shiftOf; omega

theorem le_of_shiftOf (q : Nat) (h : 0 < shiftOf q) : 2 ^ (52 + shiftOf q) ≤ q := by
  have hq : q ≠ 0 := by intro h0; subst h0; simp [shiftOf] at h
  have h1 := Nat.log2_self_le hq
  refine Nat.le_trans (Nat.pow_le_pow_right (by omega) ?_) h1
  unfold shiftOf at *; omega

theorem shiftOf_le_of_lt {q s : Nat} (h : q < 2 ^ (53 + s)) : shiftOf q ≤ s := by
  unfold shiftOf
  by_cases hq : q = 0
  · subst hq; simp
  · have := (Nat.log2_lt hq).2 h
    omega

theorem le_shiftOf_of_le {q s : Nat} (h : 2 ^ (52 + s) ≤ q) : s ≤ shiftOf q := by
  unfold shiftOf
  have hq : q ≠ 0 := by have := Nat.two_pow_pos (52 + s); omega
  have := (Nat.le_log2 hq).2 h
  omega

/-- the significand stays within 53 bits, or becomes `2^53` -/
theorem rhe_le_53 (a b : Nat) (hb : 0 < b) : rhe a (b * 2 ^ shiftOf (a / b)) ≤ 2 ^ 53 := by
  have h := lt_of_shiftOf (a / b)
  generalize shiftOf (a / b) = s at *
  have h2 : a < b * 2 ^ (53 + s) := by
    rw [Nat.div_lt_iff_lt_mul hb, Nat.mul_comm] at h; exact h
  have hp := Nat.two_pow_pos s
  have e : rhe (2 ^ 53 * (b * 2 ^ s)) (b * 2 ^ s) = 2 ^ 53 := rhe_mul _ _ (Nat.mul_pos hb hp)
  rw [← e]
  apply rhe_mono (Nat.mul_pos hb hp) (Nat.mul_pos hb hp)
  apply Nat.mul_le_mul_right
  rw [Nat.pow_add] at h2
  have : b * (2 ^ 53 * 2 ^ s) = 2 ^ 53 * (b * 2 ^ s) := by ring
  omega

theorem rnd_mono {a b c d : Nat} (hb : 0 < b) (hd : 0 < d) (h : a * d ≤ c * b) : rnd a b ≤ rnd c d := by
  have hq : a / b ≤ c / d := by
    rw [Nat.le_div_iff_mul_le hd]
    have h1 : a / b * d * b ≤ c * b := by
      have := Nat.div_mul_le_self a b
      calc a / b * d * b = a / b * b * d := by ring
        _ ≤ a * d := Nat.mul_le_mul_right d this
        _ ≤ c * b := h
    exact Nat.le_of_mul_le_mul_right h1 hb
  have hs := shiftOf_mono hq
  rcases Nat.lt_or_ge (shiftOf (a / b)) (shiftOf (c / d)) with hlt | hge
  · have h1 := rhe_le_53 a b hb
    have h2 := le_of_shiftOf (c / d) (by omega)
    have h3 : 2 ^ 52 ≤ rhe c (d * 2 ^ shiftOf (c / d)) := by
      generalize shiftOf (c / d) = s at *
      have hp := Nat.two_pow_pos s
      have e : rhe (2 ^ 52 * (d * 2 ^ s)) (d * 2 ^ s) = 2 ^ 52 := rhe_mul _ _ (Nat.mul_pos hd hp)
      rw [← e]
      apply rhe_mono (Nat.mul_pos hd hp) (Nat.mul_pos hd hp)
      apply Nat.mul_le_mul_right
      rw [Nat.le_div_iff_mul_le hd, Nat.pow_add] at h2
      have : 2 ^ 52 * 2 ^ s * d = 2 ^ 52 * (d * 2 ^ s) := by ring
      omega
    unfold rnd
    generalize rhe a _ = x at *
    generalize rhe c _ = y at *
    generalize shiftOf (a / b) = s at *
    generalize shiftOf (c / d) = t at *
    calc x * 2 ^ s ≤ 2 ^ 53 * 2 ^ s := Nat.mul_le_mul_right _ h1
      _ = 2 ^ 52 * 2 ^ (s + 1) := by ring
      _ ≤ 2 ^ 52 * 2 ^ t := Nat.mul_le_mul_left _ (Nat.pow_le_pow_right (by omega) hlt)
      _ ≤ y * 2 ^ t := Nat.mul_le_mul_right _ h3
  · have hs : shiftOf (a / b) = shiftOf (c / d) := by omega
    unfold rnd
    rw [← hs]
    generalize shiftOf (a / b) = s at *
    have hp := Nat.two_pow_pos s
    apply Nat.mul_le_mul_right
    apply rhe_mono (Nat.mul_pos hb hp) (Nat.mul_pos hd hp)
    calc a * (d * 2 ^ s) = a * d * 2 ^ s := by ring
      _ ≤ c * b * 2 ^ s := Nat.mul_le_mul_right _ h
      _ = c * (b * 2 ^ s) := by ring

/-- numbers with a significand of at most 53 bits -/
def Rep (m : Nat) : Prop := 2 ^ shiftOf m ∣ m

theorem rep_of_mul {r s : Nat} (h : r ≤ 2 ^ 53) : Rep (r * 2 ^ s) := by
  unfold Rep
  rcases Nat.lt_or_ge r (2 ^ 53) with hr | hr
  · have : r * 2 ^ s < 2 ^ (53 + s) := by
      rw [Nat.pow_add]; exact (Nat.mul_lt_mul_right (Nat.two_pow_pos s)).2 hr
    exact Nat.dvd_trans (Nat.pow_dvd_pow 2 (shiftOf_le_of_lt this)) (Nat.dvd_mul_left _ _)
  · have : r = 2 ^ 53 := Nat.le_antisymm h hr
    subst this
    have h2 : shiftOf (2 ^ 53 * 2 ^ s) ≤ 53 + s := by
      apply shiftOf_le_of_lt
      rw [← Nat.pow_add]
      exact Nat.pow_lt_pow_right (by omega) (by omega)
    rw [← Nat.pow_add] at *
    exact Nat.pow_dvd_pow 2 h2

theorem rep_of_le {r : Nat} (h : r ≤ 2 ^ 53) : Rep r := by
  have := rep_of_mul (s := 0) h
  rwa [Nat.pow_zero, Nat.mul_one] at this

theorem rep_zero : Rep 0 := rep_of_le (Nat.zero_le _)

theorem rep_pow (k : Nat) : Rep (2 ^ k) := by
  have := rep_of_mul (r := 1) (s := k) (Nat.one_le_two_pow)
  rwa [Nat.one_mul] at this

theorem rep_one : Rep one := by rw [one]; exact rep_pow _

theorem rnd_rep (a b : Nat) (hb : 0 < b) : Rep (rnd a b) := by
  unfold rnd
  exact rep_of_mul (rhe_le_53 a b hb)

theorem rnd_exact {m b : Nat} (hb : 0 < b) (h : Rep m) : rnd (m * b) b = m := by
  unfold rnd Rep at *
  rw [Nat.mul_div_cancel _ hb]
  obtain ⟨k, hk⟩ := h
  generalize shiftOf m = s at *
  subst hk
  have : 2 ^ s * k * b = k * (b * 2 ^ s) := by ring
  rw [this, rhe_mul _ _ (Nat.mul_pos hb (Nat.two_pow_pos s)), Nat.mul_comm]

theorem rnd_exact_one {m : Nat} (h : Rep m) : rnd m 1 = m := by
  have := rnd_exact (b := 1) (by omega) h
  rwa [Nat.mul_one] at this

theorem rnd_zero (b : Nat) (hb : 0 < b) : rnd 0 b = 0 := by
  have := rnd_exact hb rep_zero
  rwa [Nat.zero_mul] at this

/-- rounding respects representable bounds -/
theorem rnd_le_of_rep {a b m : Nat} (hb : 0 < b) (h : Rep m) (hle : a ≤ m * b) : rnd a b ≤ m := by
  have := rnd_mono (a := a) (b := b) (c := m) (d := 1) hb (by omega) (by omega)
  rwa [rnd_exact_one h] at this

theorem le_rnd_of_rep {a b m : Nat} (hb : 0 < b) (h : Rep m) (hle : m * b ≤ a) : m ≤ rnd a b := by
  have := rnd_mono (a := m) (b := 1) (c := a) (d := b) (by omega) hb (by omega)
  rwa [rnd_exact_one h] at this

/-! ### signed values -/

/-- `z/n` units rounded, for a signed numerator -/
def rq (z : Int) (n : Nat) : Int := if z < 0 then -(rnd z.natAbs n : Int) else rnd z.natAbs n

theorem rq_nonneg {z : Int} (n : Nat) (h : 0 ≤ z) : rq z n = rnd z.natAbs n := by
  unfold rq; rw [if_neg (by omega)]

theorem rq_neg (z : Int) {n : Nat} (hn : 0 < n) : rq (-z) n = -rq z n := by
  unfold rq
  rw [Int.natAbs_neg]
  rcases lt_trichotomy z 0 with h | h | h
  · rw [if_neg (by omega), if_pos h]; omega
  · subst h; simp [rnd_zero n hn]
  · rw [if_pos (by omega), if_neg (by omega)]

theorem rq_natAbs (z : Int) (n : Nat) : (rq z n).natAbs = rnd z.natAbs n := by
  unfold rq; split <;> omega

theorem rq_ge_zero {z : Int} (n : Nat) (h : 0 ≤ z) : 0 ≤ rq z n := by
  rw [rq_nonneg n h]; omega

theorem rq_mono {x y : Int} {m n : Nat} (hm : 0 < m) (hn : 0 < n) (h : x * n ≤ y * m) : rq x m ≤ rq y n := by
  have key : ∀ {x y : Int} {m n : Nat}, 0 < m → 0 < n → 0 ≤ x → x * n ≤ y * m → rq x m ≤ rq y n := by
    intro x y m n hm hn hx h
    have hy : 0 ≤ y := by
      by_contra hy
      have h1 : 0 ≤ x * (n : Int) := mul_nonneg hx (by omega)
      have h2 : y * (m : Int) < 0 := mul_neg_of_neg_of_pos (by omega) (by omega)
      omega
    rw [rq_nonneg m hx, rq_nonneg n hy]
    have : x.natAbs * n ≤ y.natAbs * m := by
      zify
      rwa [abs_of_nonneg hx, abs_of_nonneg hy]
    exact_mod_cast rnd_mono hm hn this
  by_cases hx : 0 ≤ x
  · exact key hm hn hx h
  · by_cases hy : 0 ≤ y
    · have h1 := rq_ge_zero n hy
      have h2 : rq x m ≤ 0 := by unfold rq; rw [if_pos (by omega)]; omega
      omega
    · have := key (x := -y) (y := -x) hn hm (by omega) (by rw [Int.neg_mul, Int.neg_mul]; omega)
      rw [rq_neg _ hn, rq_neg _ hm] at this
      omega

theorem rq_exact {z : Int} {n : Nat} (hn : 0 < n) (h : Rep z.natAbs) : rq (z * n) n = z := by
  have e : (z * n).natAbs = z.natAbs * n := by rw [Int.natAbs_mul]; simp
  unfold rq
  rw [e, rnd_exact hn h]
  split
  · rename_i h1
    have : z < 0 := by
      by_contra hz
      have := mul_nonneg (show 0 ≤ z by omega) (show (0 : Int) ≤ (n : Int) by omega)
      omega
    omega
  · rename_i h1
    have : 0 ≤ z := by
      by_contra hz
      have := mul_neg_of_neg_of_pos (show z < 0 by omega) (show (0 : Int) < (n : Int) by omega)
      omega
    omega

theorem rq_exact_one {z : Int} (h : Rep z.natAbs) : rq z 1 = z := by
  have := rq_exact (n := 1) (by omega) h
  rwa [Nat.cast_one, Int.mul_one] at this

theorem rq_zero (n : Nat) (hn : 0 < n) : rq 0 n = 0 := by
  unfold rq; simp [rnd_zero n hn]

theorem rq_rep (z : Int) (n : Nat) (hn : 0 < n) : Rep (rq z n).natAbs := by
  rw [rq_natAbs]; exact rnd_rep _ _ hn

/-- `x` is the finite number `z` units -/
def Is (x : F64) (z : Int) : Prop := ∃ s m, x = .fin s m ∧ signed s m = z

theorem signed_natAbs (s : Bool) (m : Nat) : (signed s m).natAbs = m := by
  unfold signed; split <;> omega

theorem signed_not (s : Bool) (m : Nat) : signed (!s) m = -signed s m := by
  unfold signed; cases s <;> simp

theorem Is.neg {x : F64} {z : Int} (h : Is x z) : Is (neg x) (-z) := by
  obtain ⟨s, m, rfl, rfl⟩ := h
  exact ⟨!s, m, rfl, signed_not s m⟩

theorem Is.inj {x : F64} {z w : Int} (h : Is x z) (h' : Is x w) : z = w := by
  obtain ⟨s, m, rfl, rfl⟩ := h
  obtain ⟨s', m', e, rfl⟩ := h'
  cases e; rfl

theorem mk_is {s : Bool} {a b : Nat} (h : rnd a b < limit) : Is (mk s a b) (signed s (rnd a b)) := by
  unfold mk; rw [if_pos h]; exact ⟨s, _, rfl, rfl⟩

theorem mk_inf {s : Bool} {a b : Nat} (h : ¬ rnd a b < limit) : mk s a b = .inf s := by
  unfold mk; rw [if_neg h]

/-- the result of an operation whose exact value is `z/n` -/
def Res (x : F64) (z : Int) (n : Nat) : Prop :=
  if (rq z n).natAbs < limit then Is x (rq z n) else x = .inf (decide (z < 0))

theorem Res.is {x : F64} {z : Int} {n : Nat} (h : Res x z n) (hl : (rq z n).natAbs < limit) : Is x (rq z n) := by
  unfold Res at h; rwa [if_pos hl] at h

theorem rnd_pos_of_limit {a b : Nat} (hb : 0 < b) (h : ¬ rnd a b < limit) : 0 < a := by
  rcases Nat.eq_zero_or_pos a with h0 | h0
  · subst h0; rw [rnd_zero b hb] at h
    exact absurd limit_pos h
  · exact h0

theorem mk_res {s : Bool} {a b : Nat} (hb : 0 < b) : Res (mk s a b) (signed s a) b := by
  unfold Res
  rw [rq_natAbs, signed_natAbs]
  split
  · rename_i h
    have : signed s (rnd a b) = rq (signed s a) b := by
      cases s
      · unfold signed rq
        simp
      · simp only [signed, if_true]
        rw [rq_neg _ hb, rq_nonneg _ (by omega)]
        simp
    rw [← this]
    exact mk_is h
  · rename_i h
    have := rnd_pos_of_limit hb h
    rw [mk_inf h]
    congr 1
    unfold signed
    cases s <;> simp <;> omega

theorem add_res {x y : F64} {z w : Int} (hx : Is x z) (hy : Is y w) : Res (add x y) (z + w) 1 := by
  obtain ⟨s, m, rfl, rfl⟩ := hx
  obtain ⟨t, n, rfl, rfl⟩ := hy
  rw [add]
  split
  · rename_i h
    rw [h]
    unfold Res
    rw [rq_zero 1 (by omega)]
    rw [if_pos (by simpa using limit_pos)]
    exact ⟨_, 0, rfl, by unfold signed; split <;> rfl⟩
  · have h := mk_res (s := decide (signed s m + signed t n < 0)) (a := (signed s m + signed t n).natAbs) (b := 1)
      (by omega)
    have e : signed (decide (signed s m + signed t n < 0)) (signed s m + signed t n).natAbs
        = signed s m + signed t n := by
      generalize signed s m + signed t n = z
      unfold signed
      by_cases hz : z < 0
      · rw [decide_eq_true hz, if_pos rfl]; omega
      · rw [decide_eq_false hz]; simp only [Bool.false_eq_true, if_false]; omega
    rwa [e] at h

theorem sub_res {x y : F64} {z w : Int} (hx : Is x z) (hy : Is y w) : Res (sub x y) (z - w) 1 := by
  have := add_res hx hy.neg
  rwa [← Int.sub_eq_add_neg] at this

theorem signed_mul (s t : Bool) (m n : Nat) : signed (s != t) (m * n) = signed s m * signed t n := by
  unfold signed
  cases s <;> cases t <;> simp


theorem mul_res {x y : F64} {z w : Int} (hx : Is x z) (hy : Is y w) : Res (mul x y) (z * w) one := by
  obtain ⟨s, m, rfl, rfl⟩ := hx
  obtain ⟨t, n, rfl, rfl⟩ := hy
  rw [mul, ← signed_mul]
  exact mk_res one_pos

/-- division by a positive number -/
theorem div_res {x y : F64} {z : Int} {n : Nat} (hx : Is x z) (hy : Is y n) (hn : 0 < n) (hs : y = .fin false n) :
    Res (div x y) (z * one) n := by
  obtain ⟨s, m, rfl, rfl⟩ := hx
  subst hs
  rw [div, if_neg (by omega)]
  have := mk_res (s := s != false) (a := m * one) (b := n) hn
  rwa [show signed (s != false) (m * one) = signed s m * one by rw [signed_mul]; rfl] at this

/-! ### well-formed values: the ones a double can hold -/

/-- `x` is one of the 2^64 bit patterns (up to the NaN payload) -/
def Wf : F64 → Prop
  | .nan => True
  | .inf _ => True
  | .fin _ m => Rep m ∧ m < limit

theorem wf_mk (s : Bool) (a b : Nat) (hb : 0 < b) : Wf (mk s a b) := by
  unfold mk
  split
  · exact ⟨rnd_rep _ _ hb, by assumption⟩
  · trivial

theorem wf_neg {x : F64} (h : Wf x) : Wf (neg x) := by cases x <;> exact h

theorem wf_zero (s : Bool) : Wf (.fin s 0) := ⟨rep_zero, limit_pos⟩

@[simp] theorem add_nan (x : F64) : add x .nan = .nan := by cases x <;> rfl
@[simp] theorem nan_add (x : F64) : add .nan x = .nan := by cases x <;> rfl
@[simp] theorem mul_nan (x : F64) : mul x .nan = .nan := by cases x <;> rfl
@[simp] theorem nan_mul (x : F64) : mul .nan x = .nan := by cases x <;> rfl
@[simp] theorem div_nan (x : F64) : div x .nan = .nan := by cases x <;> rfl
@[simp] theorem nan_div (x : F64) : div .nan x = .nan := by cases x <;> rfl

theorem wf_add {x y : F64} : Wf (add x y) := by
  cases x with
  | nan => rw [nan_add]; trivial
  | inf a =>
    cases y with
    | nan => rw [add_nan]; trivial
    | inf b => rw [add]; split <;> trivial
    | fin b n => trivial
  | fin a m =>
    cases y with
    | nan => rw [add_nan]; trivial
    | inf b => trivial
    | fin b n =>
      rw [add]; split
      · exact wf_zero _
      · exact wf_mk _ _ _ (by omega)

theorem wf_sub {x y : F64} : Wf (sub x y) := wf_add

theorem wf_mul {x y : F64} : Wf (mul x y) := by
  cases x with
  | nan => rw [nan_mul]; trivial
  | inf a =>
    cases y with
    | nan => rw [mul_nan]; trivial
    | inf b => trivial
    | fin b n => rw [mul]; split <;> trivial
  | fin a m =>
    cases y with
    | nan => rw [mul_nan]; trivial
    | inf b => rw [mul]; split <;> trivial
    | fin b n => exact wf_mk _ _ _ one_pos

theorem wf_div {x y : F64} : Wf (div x y) := by
  cases x with
  | nan => rw [nan_div]; trivial
  | inf a =>
    cases y with
    | nan => rw [div_nan]; trivial
    | inf b => trivial
    | fin b n => trivial
  | fin a m =>
    cases y with
    | nan => rw [div_nan]; trivial
    | inf b => exact wf_zero _
    | fin b n =>
      rw [div]; split
      · split <;> trivial
      · exact wf_mk _ _ _ (by omega)

theorem wf_ofNat (n : Nat) : Wf (ofNat n) := wf_mk _ _ _ (by omega)

theorem limit_eq : limit = 2 ^ expLimit := by rw [limit]
theorem expLimit_eq : expLimit = 2098 := by rw [expLimit]
theorem expOne_eq : expOne = 1074 := by rw [expOne]
theorem one_eq : one = 2 ^ expOne := by rw [one]

theorem wf_ofBits (b : U64) : Wf (ofBits b) := by
  unfold ofBits
  dsimp only
  split
  · split <;> trivial
  · rename_i h1
    have hf : b.toNat % 2 ^ 52 < 2 ^ 52 := Nat.mod_lt _ (by omega)
    split
    · refine ⟨rep_of_le (by omega), ?_⟩
      rw [limit_eq]
      exact Nat.lt_of_lt_of_le hf (Nat.pow_le_pow_right (by omega) (by rw [expLimit_eq]; omega))
    · rename_i h2
      have he : b.toNat / 2 ^ 52 % 2 ^ 11 < 2 ^ 11 := Nat.mod_lt _ (by omega)
      refine ⟨rep_of_mul (by omega), ?_⟩
      generalize b.toNat / 2 ^ 52 % 2 ^ 11 = e at *
      generalize b.toNat % 2 ^ 52 = f at *
      rw [limit_eq]
      have : 53 + (e - 1) ≤ expLimit := by rw [expLimit_eq]; omega
      refine Nat.lt_of_lt_of_le ?_ (Nat.pow_le_pow_right (by omega) this)
      rw [Nat.pow_add]
      exact (Nat.mul_lt_mul_right (Nat.two_pow_pos _)).2 (by omega)

/-- fields of the bits of a finite magnitude -/
theorem magBits_spec {m : Nat} (hr : Rep m) (hl : m < limit) :
    magBits m / 2 ^ 52 < 2047 ∧
    (if magBits m / 2 ^ 52 = 0 then magBits m % 2 ^ 52 = m
      else (2 ^ 52 + magBits m % 2 ^ 52) * 2 ^ (magBits m / 2 ^ 52 - 1) = m) := by
  have hs : shiftOf m ≤ 2045 := by
    apply shiftOf_le_of_lt
    have e : 53 + 2045 = expLimit := by rw [expLimit_eq]
    rw [e, ← limit_eq]
    exact hl
  have h1 := lt_of_shiftOf m
  have h2 := le_of_shiftOf m
  unfold Rep at hr
  unfold magBits
  generalize shiftOf m = s at *
  obtain ⟨k, hk⟩ := hr
  have hp := Nat.two_pow_pos s
  have hdiv : m / 2 ^ s = k := by rw [hk, Nat.mul_div_cancel_left _ hp]
  rw [hdiv]
  have hk53 : k < 2 ^ 53 := by
    rw [hk, Nat.pow_add, Nat.mul_comm] at h1
    exact Nat.lt_of_mul_lt_mul_right h1
  rcases Nat.eq_zero_or_pos s with h0 | h0
  · subst h0
    have hmk : m = k := by omega
    clear h1 h2 hdiv hl
    subst hmk
    constructor
    · omega
    · split
      · omega
      · have e : (0 * 2 ^ 52 + m) / 2 ^ 52 - 1 = 0 := by omega
        rw [e]; omega
  · have hk52 : 2 ^ 52 ≤ k := by
      have := h2 h0
      rw [hk, Nat.pow_add, Nat.mul_comm (2 ^ s)] at this
      exact Nat.le_of_mul_le_mul_right this hp
    have e1 : (s * 2 ^ 52 + k) / 2 ^ 52 = s + 1 := by omega
    have e2 : (s * 2 ^ 52 + k) % 2 ^ 52 = k - 2 ^ 52 := by omega
    rw [e1, e2]
    refine ⟨by omega, ?_⟩
    rw [if_neg (by omega), Nat.add_sub_cancel, Nat.add_sub_cancel' hk52, hk, Nat.mul_comm (2 ^ s)]

/-- storing a double and loading it again changes nothing -/
theorem ofBits_toBits {x : F64} (h : Wf x) : ofBits (toBits x) = x := by
  cases x with
  | nan => decide
  | inf s => cases s <;> decide
  | fin s m =>
    obtain ⟨h1, h2⟩ := magBits_spec h.1 h.2
    rw [toBits]
    generalize magBits m = b at *
    have hb : b < 2047 * 2 ^ 52 := by omega
    cases s
    · have e : (BitVec.ofNat 64 ((if false = true then 2 ^ 63 else 0) + b)).toNat = b := by
        simp only [Bool.false_eq_true, if_false, Nat.zero_add, BitVec.toNat_ofNat]
        exact Nat.mod_eq_of_lt (by omega)
      unfold ofBits
      dsimp only
      rw [e]
      have e2 : b / 2 ^ 52 % 2 ^ 11 = b / 2 ^ 52 := Nat.mod_eq_of_lt (by omega)
      have e3 : ¬ b / 2 ^ 63 = 1 := by omega
      rw [e2, if_neg (by omega), decide_eq_false e3]
      split at h2
      · rename_i h0; rw [if_pos h0, h2]
      · rename_i h0; rw [if_neg h0, h2]
    · have e : (BitVec.ofNat 64 ((if true = true then 2 ^ 63 else 0) + b)).toNat = 2 ^ 63 + b := by
        simp only [if_true, BitVec.toNat_ofNat]
        exact Nat.mod_eq_of_lt (by omega)
      unfold ofBits
      dsimp only
      rw [e]
      have e2 : (2 ^ 63 + b) / 2 ^ 52 % 2 ^ 11 = b / 2 ^ 52 := by omega
      have e4 : (2 ^ 63 + b) % 2 ^ 52 = b % 2 ^ 52 := by omega
      have e3 : (2 ^ 63 + b) / 2 ^ 63 = 1 := by omega
      rw [e2, e4, if_neg (by omega), decide_eq_true e3]
      split at h2
      · rename_i h0; rw [if_pos h0, h2]
      · rename_i h0; rw [if_neg h0, h2]

theorem ofBits_zero : ofBits 0#64 = zero := by decide

/-! ### comparisons -/

theorem Is.le_iff {x y : F64} {z w : Int} (hx : Is x z) (hy : Is y w) : le x y = true ↔ z ≤ w := by
  obtain ⟨s, m, rfl, rfl⟩ := hx
  obtain ⟨t, n, rfl, rfl⟩ := hy
  unfold le
  rw [cmp]
  generalize signed s m = z
  generalize signed t n = w
  rcases lt_trichotomy z w with h | h | h
  · rw [compare_lt_iff_lt.2 h]; simp; omega
  · subst h; rw [compare_eq_iff_eq.2 rfl]; simp
  · rw [compare_gt_iff_gt.2 h]; simp; omega

theorem Is.lt_iff {x y : F64} {z w : Int} (hx : Is x z) (hy : Is y w) : lt x y = true ↔ z < w := by
  obtain ⟨s, m, rfl, rfl⟩ := hx
  obtain ⟨t, n, rfl, rfl⟩ := hy
  unfold lt
  rw [cmp]
  generalize signed s m = z
  generalize signed t n = w
  rcases lt_trichotomy z w with h | h | h
  · rw [compare_lt_iff_lt.2 h]; simp; omega
  · subst h; rw [compare_eq_iff_eq.2 rfl]; simp
  · rw [compare_gt_iff_gt.2 h]; simp; omega

theorem Is.eq_iff {x y : F64} {z w : Int} (hx : Is x z) (hy : Is y w) : eq x y = true ↔ z = w := by
  obtain ⟨s, m, rfl, rfl⟩ := hx
  obtain ⟨t, n, rfl, rfl⟩ := hy
  unfold eq
  rw [cmp]
  generalize signed s m = z
  generalize signed t n = w
  rcases lt_trichotomy z w with h | h | h
  · rw [compare_lt_iff_lt.2 h]; simp; omega
  · subst h; rw [compare_eq_iff_eq.2 rfl]; simp
  · rw [compare_gt_iff_gt.2 h]; simp; omega

/-- no representable number is nearer to `a/b` than `rnd a b`: `|a/b - rnd| ≤ |a/b - m|`, times `b` -/
theorem rnd_nearest (a b m : Nat) (hb : 0 < b) (hm : Rep m) :
    ((a : Int) - rnd a b * b).natAbs ≤ ((a : Int) - m * b).natAbs := by
  have hs1 := le_of_shiftOf (a / b)
  have hrl := rnd_rep a b hb
  -- the rounding error is at most half a unit in the last place
  have key : ∀ k : Nat, ((a : Int) - rnd a b * b).natAbs ≤ ((a : Int) - k * 2 ^ shiftOf (a / b) * b).natAbs := by
    intro k
    unfold rnd
    generalize shiftOf (a / b) = s at *
    have hp := Nat.two_pow_pos s
    have h1 := rhe_lo a (b * 2 ^ s) (Nat.mul_pos hb hp)
    have h2 := rhe_hi a (b * 2 ^ s) (Nat.mul_pos hb hp)
    generalize rhe a (b * 2 ^ s) = r at *
    have e1 : ((r * 2 ^ s : Nat) : Int) * b = r * ((b * 2 ^ s : Nat) : Int) := by push_cast; ring
    have e2 : (k : Int) * 2 ^ s * b = k * ((b * 2 ^ s : Nat) : Int) := by push_cast; ring
    rw [e1, e2]
    generalize b * 2 ^ s = c at *
    rcases lt_trichotomy k r with hk | hk | hk
    · have h3 : ((k : Int) + 1) * c ≤ r * c := mul_le_mul_of_nonneg_right (by omega) (by omega)
      zify at h1 h2
      have e3 : (2 * (r : Int) + 1) * c = 2 * (r * c) + c := by ring
      have e4 : 2 * (r : Int) * c = 2 * (r * c) := by ring
      have e5 : ((k : Int) + 1) * c = k * c + c := by ring
      rw [e3] at h1; rw [e4] at h2; rw [e5] at h3
      generalize (r : Int) * c = R at *
      generalize (k : Int) * c = K at *
      omega
    · subst hk; omega
    · have h3 : ((r : Int) + 1) * c ≤ k * c := mul_le_mul_of_nonneg_right (by omega) (by omega)
      zify at h1 h2
      have e3 : (2 * (r : Int) + 1) * c = 2 * (r * c) + c := by ring
      have e4 : 2 * (r : Int) * c = 2 * (r * c) := by ring
      have e5 : ((r : Int) + 1) * c = r * c + c := by ring
      rw [e3] at h1; rw [e4] at h2; rw [e5] at h3
      generalize (r : Int) * c = R at *
      generalize (k : Int) * c = K at *
      omega
  rcases Nat.lt_or_ge m (2 ^ (52 + shiftOf (a / b))) with hlt | hge
  · rcases Nat.eq_zero_or_pos (shiftOf (a / b)) with h0 | h0
    · have := key m
      rw [h0, pow_zero, mul_one] at this
      exact this
    · -- 2^(52+s) lies between m and a/b
      have h1 := hs1 h0
      rw [Nat.le_div_iff_mul_le hb] at h1
      have h2 := key (2 ^ 52)
      rw [Nat.pow_add] at h1 hlt
      have h3 : m * b ≤ 2 ^ 52 * 2 ^ shiftOf (a / b) * b := Nat.mul_le_mul_right _ (by omega)
      refine Nat.le_trans h2 ?_
      have e : ((2 ^ 52 : Nat) : Int) * 2 ^ shiftOf (a / b) * b = ((2 ^ 52 * 2 ^ shiftOf (a / b) * b : Nat) : Int) := by
        push_cast; ring
      rw [e]
      generalize 2 ^ 52 * 2 ^ shiftOf (a / b) * b = X at *
      have e2 : (m : Int) * b = ((m * b : Nat) : Int) := by push_cast; ring
      rw [e2]
      omega
  · have h1 := le_shiftOf_of_le hge
    obtain ⟨k, hk⟩ := Nat.dvd_trans (Nat.pow_dvd_pow 2 h1) hm
    have := key k
    have e : (m : Int) = k * 2 ^ shiftOf (a / b) := by
      rw [hk]; push_cast; ring
    rw [e]; exact this

end Starbow.F64
