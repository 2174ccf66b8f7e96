import Verif.Model.TestUtil
import Verif.Proof.Stat64
/-
Proofs about comparing doubles.
-/
namespace Starbow.TestUtil
open F64 Stat64

/-! ### neighbours of a magnitude -/

theorem up_rep {m : Nat} (h : Rep m) : Rep (m + 2 ^ shiftOf m) := by
  obtain ⟨k, hk⟩ := h
  have hlt := lt_of_shiftOf m
  generalize shiftOf m = s at *
  have e : m + 2 ^ s = (k + 1) * 2 ^ s := by rw [hk]; ring
  rw [e]
  refine rep_of_mul ?_
  rw [hk, Nat.pow_add, Nat.mul_comm] at hlt
  exact Nat.lt_of_mul_lt_mul_right hlt

theorem up_least {m w : Nat} (h : Rep m) (hw : Rep w) (hlt : m < w) : m + 2 ^ shiftOf m ≤ w := by
  have hs := shiftOf_mono (Nat.le_of_lt hlt)
  have hd : 2 ^ shiftOf m ∣ w := Nat.dvd_trans (Nat.pow_dvd_pow 2 hs) hw
  obtain ⟨j, hj⟩ := hd
  obtain ⟨k, hk⟩ := h
  generalize 2 ^ shiftOf m = P at *
  subst hk hj
  have : k < j := Nat.lt_of_mul_lt_mul_left hlt
  calc P * k + P = P * (k + 1) := by ring
    _ ≤ P * j := Nat.mul_le_mul_left _ this

theorem down_spec {m : Nat} (h0 : 0 < m) (h : Rep m) : 2 ^ shiftOf (m - 1) ≤ m ∧ Rep (m - 2 ^ shiftOf (m - 1)) ∧
    ∀ w, Rep w → w < m → w ≤ m - 2 ^ shiftOf (m - 1) := by
  have hs := shiftOf_mono (show m - 1 ≤ m by omega)
  have hd : 2 ^ shiftOf (m - 1) ∣ m := Nat.dvd_trans (Nat.pow_dvd_pow 2 hs) h
  have hlt := lt_of_shiftOf (m - 1)
  have hge := le_of_shiftOf (m - 1)
  have hsw : ∀ w, w < m → shiftOf w ≤ shiftOf (m - 1) := fun w hw => shiftOf_mono (by omega)
  generalize shiftOf (m - 1) = s at *
  obtain ⟨k, rfl⟩ := hd
  have hp := Nat.two_pow_pos s
  have hk : 0 < k := Nat.pos_of_mul_pos_left h0
  have hk53 : k ≤ 2 ^ 53 := by
    by_contra hc
    have : 2 ^ s * (2 ^ 53 + 1) ≤ 2 ^ s * k := Nat.mul_le_mul_left _ (by omega)
    rw [Nat.pow_add] at hlt
    have e : 2 ^ s * (2 ^ 53 + 1) = 2 ^ 53 * 2 ^ s + 2 ^ s := by ring
    omega
  have e : 2 ^ s * k - 2 ^ s = (k - 1) * 2 ^ s := by
    rw [Nat.sub_mul, Nat.one_mul, Nat.mul_comm]
  have hle : 2 ^ s ≤ 2 ^ s * k := Nat.le_mul_of_pos_right _ hk
  refine ⟨hle, by rw [e]; exact rep_of_mul (by omega), ?_⟩
  intro w hw hwm
  have below : ∀ v, 2 ^ s ∣ v → v < 2 ^ s * k → v ≤ 2 ^ s * k - 2 ^ s := by
    rintro v ⟨j, rfl⟩ hv
    have hj : j < k := Nat.lt_of_mul_lt_mul_left hv
    rw [e, Nat.mul_comm]
    exact Nat.mul_le_mul_right _ (by omega)
  rcases Nat.lt_or_ge (shiftOf w) s with hc | hc
  · have h1 := lt_of_shiftOf w
    have h2 : 2 ^ (53 + shiftOf w) ≤ 2 ^ (52 + s) := Nat.pow_le_pow_right (by omega) (by omega)
    have h3 := hge (by omega)
    have h4 := below (2 ^ (52 + s)) (Nat.pow_dvd_pow 2 (by omega)) (by omega)
    omega
  · have h1 := hsw w hwm
    have h2 : shiftOf w = s := by omega
    unfold Rep at hw
    rw [h2] at hw
    exact below w hw hwm

/-- two different doubles differ by more than 2^-54 of either -/
theorem rep_diff {a b : Nat} (ha : Rep a) (hb : Rep b) (hne : a ≠ b) : a ≤ 2 ^ 54 * ((a : Int) - b).natAbs := by
  have hlt := lt_of_shiftOf a
  have hge := le_of_shiftOf a
  rcases Nat.lt_or_ge a b with h | h
  · have := up_least ha hb h
    have e : 2 ^ (53 + shiftOf a) = 2 ^ 53 * 2 ^ shiftOf a := by rw [Nat.pow_add]
    have : 2 ^ shiftOf a ≤ ((a : Int) - b).natAbs := by omega
    calc a ≤ 2 ^ 53 * 2 ^ shiftOf a := by omega
      _ ≤ 2 ^ 54 * ((a : Int) - b).natAbs := Nat.mul_le_mul (by omega) this
  · have hba : b < a := by omega
    have := down_spec (m := a) (by omega) ha
    have h2 := this.2.2 b hb hba
    have h3 := this.1
    have h4 : 2 ^ shiftOf (a - 1) ≤ ((a : Int) - b).natAbs := by omega
    have h5 := lt_of_shiftOf (a - 1)
    have e : 2 ^ (53 + shiftOf (a - 1)) = 2 ^ 53 * 2 ^ shiftOf (a - 1) := by rw [Nat.pow_add]
    calc a ≤ 2 ^ 53 * 2 ^ shiftOf (a - 1) := by omega
      _ ≤ 2 ^ 54 * ((a : Int) - b).natAbs := Nat.mul_le_mul (by omega) h4

/-! ### the next double -/

theorem nextUp_spec {x : F64} {z : Int} (hx : Fin64 x z) :
    (∃ z', Fin64 (nextUp x) z' ∧ z < z' ∧ ∀ w : Int, Rep w.natAbs → w.natAbs < limit → z < w → z' ≤ w) ∨
    (Is (nextUp x) z ∧ ∀ w : Int, Rep w.natAbs → w.natAbs < limit → w ≤ z) := by
  obtain ⟨⟨s, m, rfl, rfl⟩, hr, hl⟩ := hx
  rw [signed_natAbs] at hr hl
  rw [nextUp]
  by_cases h0 : m = 0
  · subst h0
    rw [if_pos rfl]
    refine Or.inl ⟨1, ⟨⟨false, 1, rfl, rfl⟩, rep_of_le (by omega), ?_⟩, ?_, ?_⟩
    · rw [limit_eq]; exact Nat.one_lt_two_pow (by rw [expLimit_eq]; omega)
    · cases s <;> decide
    · intro w _ _ hw
      have : signed s 0 = 0 := by cases s <;> rfl
      omega
  · rw [if_neg h0]
    cases s with
    | true =>
      rw [if_pos rfl]
      have hs : signed true m = -(m : Int) := rfl
      obtain ⟨h1, h2, h3⟩ := down_spec (by omega) hr
      have hp := Nat.two_pow_pos (shiftOf (m - 1))
      generalize 2 ^ shiftOf (m - 1) = P at *
      left
      refine ⟨_, ⟨⟨true, _, rfl, rfl⟩, by rw [signed_natAbs]; exact h2, by rw [signed_natAbs]; omega⟩, ?_, ?_⟩
      · rw [hs, show signed true (m - P) = -((m - P : Nat) : Int) from rfl]; omega
      · intro w hw hwl hzw
        rw [hs] at hzw
        rw [show signed true (m - P) = -((m - P : Nat) : Int) from rfl]
        rcases le_or_gt 0 w with hc | hc
        · omega
        · have := h3 w.natAbs hw (by omega)
          omega
    | false =>
      rw [if_neg (by decide)]
      have hs : signed false m = (m : Int) := rfl
      have hup := up_rep hr
      have hle := fun w hw => up_least (w := w) hr hw
      have hp := Nat.two_pow_pos (shiftOf m)
      generalize 2 ^ shiftOf m = P at *
      split
      · rename_i hc
        left
        refine ⟨_, ⟨⟨false, _, rfl, rfl⟩, by rw [signed_natAbs]; exact hup, by rw [signed_natAbs]; exact hc⟩, ?_, ?_⟩
        · rw [hs, show signed false (m + P) = ((m + P : Nat) : Int) from rfl]; omega
        · intro w hw hwl hzw
          rw [hs] at hzw
          rw [show signed false (m + P) = ((m + P : Nat) : Int) from rfl]
          have := hle w.natAbs hw (by omega)
          omega
      · rename_i hc
        right
        refine ⟨⟨false, m, rfl, rfl⟩, ?_⟩
        intro w hw hwl
        rw [hs]
        by_contra hlt
        have := hle w.natAbs hw (by omega)
        omega

/-! ### the quotient -/

/-- a quotient that rounds to at most `T` is below the next double after `T` -/
theorem quot_lt {d a T : Nat} (ha : 0 < a) (hT : Rep T) (h : rnd (d * one) a ≤ T) (hn : 2 ^ 52 ≤ T) :
    d * one * 2 ^ 52 < T * (2 ^ 52 + 1) * a := by
  have h1 : d * one < (T + 2 ^ shiftOf T) * a := by
    by_contra hc
    have := le_rnd_of_rep ha (up_rep hT) (by omega : (T + 2 ^ shiftOf T) * a ≤ d * one)
    have := Nat.two_pow_pos (shiftOf T)
    omega
  have h2 : 2 ^ shiftOf T * 2 ^ 52 ≤ T := by
    rcases Nat.eq_zero_or_pos (shiftOf T) with h0 | h0
    · rw [h0]; omega
    · have := le_of_shiftOf T h0
      rw [Nat.pow_add] at this
      omega
  generalize 2 ^ shiftOf T = P at *
  generalize d * one = D at *
  calc D * 2 ^ 52 < (T + P) * a * 2 ^ 52 := Nat.mul_lt_mul_of_pos_right h1 (by omega)
    _ = (T * 2 ^ 52 + P * 2 ^ 52) * a := by ring
    _ ≤ (T * 2 ^ 52 + T) * a := Nat.mul_le_mul_right _ (Nat.add_le_add_left h2 _)
    _ = T * (2 ^ 52 + 1) * a := by ring

theorem rnd_sub_ge (D : Nat) : (2 ^ 53 - 1) * D ≤ 2 ^ 53 * rnd D 1 := by
  have := rnd_err D
  omega

theorem rnd_sub_le (D : Nat) : 2 ^ 53 * rnd D 1 ≤ (2 ^ 53 + 1) * D := by
  have := rnd_err D
  omega

theorem tiny {d a D T k : Nat} (ha : 0 < a) (hk : expOne = k + 55) (hD : a ≤ 2 ^ 54 * D) (hd : (2 ^ 53 - 1) * D ≤ 2 ^ 53 * d)
    (h : rnd (d * one) a ≤ T) : 2 ^ k ≤ T := by
  have h1 : a ≤ 2 ^ 55 * d := by omega
  have e : one = 2 ^ k * 2 ^ 55 := by rw [one_eq, hk, Nat.pow_add]
  have h2 : 2 ^ k * a ≤ d * one := by
    rw [e]
    generalize 2 ^ k = K
    calc K * a ≤ K * (2 ^ 55 * d) := Nat.mul_le_mul_left _ h1
      _ = d * (K * 2 ^ 55) := by ring
  exact le_trans (le_rnd_of_rep ha (rep_pow k) h2) h

/-- the difference, in units, is at most `(1 + 2^-51) * T/one * a` -/
theorem close_bound {a D T : Nat} (ha : 0 < a) (hT : Rep T) (hD : D ≠ 0 → a ≤ 2 ^ 54 * D)
    (h : rnd (rnd D 1 * one) a ≤ T) : D * one * 2 ^ 51 ≤ T * (2 ^ 51 + 1) * a := by
  rcases Nat.eq_zero_or_pos D with h0 | h0
  · subst h0; rw [Nat.zero_mul, Nat.zero_mul]; exact Nat.zero_le _
  · have hd := rnd_sub_ge D
    generalize rnd D 1 = d at *
    obtain ⟨k, hk, hk'⟩ : ∃ k, expOne = k + 55 ∧ 52 ≤ k := ⟨1019, expOne_eq, by omega⟩
    have ht := tiny ha hk (hD (by omega)) hd h
    have hn : 2 ^ 52 ≤ T := le_trans (Nat.pow_le_pow_right (by omega) hk') ht
    have hq := quot_lt ha hT h hn
    clear ht hn h hT hD
    have h3 : (2 ^ 53 - 1) * D * one * 2 ^ 52 ≤ 2 ^ 53 * (T * (2 ^ 52 + 1) * a) := by
      calc (2 ^ 53 - 1) * D * one * 2 ^ 52 ≤ 2 ^ 53 * d * one * 2 ^ 52 :=
            Nat.mul_le_mul_right _ (Nat.mul_le_mul_right _ hd)
        _ = 2 ^ 53 * (d * one * 2 ^ 52) := by ring
        _ ≤ _ := Nat.mul_le_mul_left _ (Nat.le_of_lt hq)
    have e1 : (2 ^ 53 - 1) * D * one * 2 ^ 52 = (2 ^ 53 - 1) * 2 ^ 52 * (D * one) := by ring
    have e2 : 2 ^ 53 * (T * (2 ^ 52 + 1) * a) = 2 ^ 53 * (2 ^ 52 + 1) * (T * a) := by ring
    have e3 : T * (2 ^ 51 + 1) * a = (2 ^ 51 + 1) * (T * a) := by ring
    rw [e1, e2] at h3
    rw [e3]
    generalize D * one = X at *
    generalize T * a = Y at *
    omega

/-- conversely -/
theorem close_of_bound {a D T : Nat} (ha : 0 < a) (hT : Rep T) (h : D * one * 2 ^ 51 ≤ T * (2 ^ 51 - 1) * a) :
    rnd (rnd D 1 * one) a ≤ T := by
  refine rnd_le_of_rep ha hT ?_
  have hd := rnd_sub_le D
  generalize rnd D 1 = d at *
  have h3 : 2 ^ 53 * (d * one) ≤ (2 ^ 53 + 1) * (D * one) := by
    calc 2 ^ 53 * (d * one) = 2 ^ 53 * d * one := by ring
      _ ≤ (2 ^ 53 + 1) * D * one := Nat.mul_le_mul_right _ hd
      _ = _ := by ring
  have e3 : T * (2 ^ 51 - 1) * a = (2 ^ 51 - 1) * (T * a) := by ring
  rw [e3] at h
  generalize D * one = X at *
  generalize d * one = Z at *
  generalize T * a = Y at *
  omega

theorem abs_is {x : F64} {z : Int} (h : Is x z) : Is (abs x) z.natAbs ∧ abs x = .fin false z.natAbs := by
  obtain ⟨s, m, rfl, rfl⟩ := h
  rw [signed_natAbs]
  exact ⟨⟨false, m, rfl, rfl⟩, rfl⟩

end Starbow.TestUtil
