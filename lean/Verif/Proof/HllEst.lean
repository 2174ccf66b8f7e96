import Verif.Model.HllEst
import Verif.Proof.Stat64
import Verif.Proof.Hll
/-
Proofs about the estimators: the loops of `sigma` and `tau` end, nothing panics.
-/
namespace Starbow.Hll
open Starbow F64 Stat64

/-! ### small facts about doubles -/

theorem ofNat_is {n : Nat} (h : n ≤ 2 ^ 53) : F64.ofNat n = .fin false (n * one) := by
  unfold F64.ofNat mk
  have e : rnd (n * one) 1 = n * one := rnd_exact_one (by rw [one_eq]; exact rep_of_mul h)
  rw [e, if_pos]
  refine Nat.lt_of_le_of_lt (Nat.mul_le_mul_right _ (Nat.le_trans h (by omega : 2 ^ 53 ≤ 2 ^ 64))) pow64_one

theorem ofInt_is {n : Nat} (h : n ≤ 2 ^ 53) : F64.ofInt (n : Int) = .fin false (n * one) := by
  have := ofNat_is h
  unfold F64.ofNat at this
  unfold F64.ofInt
  rw [decide_eq_false (by omega), Int.natAbs_natCast]
  exact this

/-- multiplication of non-negative numbers below a representable bound -/
theorem mul_le_rep {x y : F64} {X Y B : Nat} (hx : x = .fin false X) (hy : y = .fin false Y) (hB : Rep B) (hl : B < limit)
    (h : X * Y ≤ B * one) : mul x y = .fin false (rnd (X * Y) one) ∧ rnd (X * Y) one ≤ B := by
  have hle := rnd_le_of_rep F64.one_pos hB h
  refine ⟨?_, hle⟩
  subst hx hy
  rw [mul, mk, if_pos (by omega)]
  rfl

/-- addition of non-negative numbers below a representable bound -/
theorem add_le_rep {x y : F64} {X Y B : Nat} (hx : x = .fin false X) (hy : y = .fin false Y) (hB : Rep B) (hl : B < limit)
    (h : X + Y ≤ B) : F64.add x y = .fin false (rnd (X + Y) 1) ∧ rnd (X + Y) 1 ≤ B := by
  have hle := rnd_le_of_rep (a := X + Y) (b := 1) (by omega) hB (by omega)
  refine ⟨?_, hle⟩
  subst hx hy
  have e : signed false X + signed false Y = ((X + Y : Nat) : Int) := by simp [signed]
  rw [F64.add, e]
  split
  · rename_i h0
    have : X + Y = 0 := by omega
    rw [this, rnd_zero 1 (by omega)]; rfl
  · rw [mk, Int.natAbs_natCast, if_pos (by omega), decide_eq_false (by omega)]

theorem eq_self_fin (s t : Bool) (m : Nat) (h : s = t) : F64.eq (.fin s m) (.fin t m) = true := by
  subst h
  exact (Is.eq_iff ⟨s, m, rfl, rfl⟩ ⟨s, m, rfl, rfl⟩).2 rfl

theorem pow_one_lt {k : Nat} (h : k < 1024) : 2 ^ k * one < limit := by
  rw [one_eq, limit_eq, ← Nat.pow_add]
  exact Nat.pow_lt_pow_right (by omega) (by rw [expOne_eq, expLimit_eq]; omega)

theorem rep_pow_one (k : Nat) : Rep (2 ^ k * one) := by
  rw [one_eq, ← Nat.pow_add]; exact rep_pow _

theorem rep_mul_one {r : Nat} (h : r ≤ 2 ^ 53) : Rep (r * one) := by
  rw [one_eq]; exact rep_of_mul h

/-! ### sigma -/

/-- the squares of the largest quotient below one that can occur -/
def worst : Nat → Nat
  | 0 => (2 ^ 18 - 1) * 2 ^ 1056
  | k + 1 => rnd (worst k * worst k) one

theorem worst_end : worst 40 = 0 := by decide +kernel

theorem worst_zero {k : Nat} (h : worst k = 0) (j : Nat) : worst (k + j) = 0 := by
  induction j with
  | zero => exact h
  | succ j ih => rw [← Nat.add_assoc, worst, ih, Nat.zero_mul, rnd_zero _ F64.one_pos]

theorem worst_le_one (k : Nat) : worst k ≤ one := by
  induction k with
  | zero =>
    rw [one_eq, expOne_eq, worst]
    have : 2 ^ 1074 = 2 ^ 18 * 2 ^ 1056 := by rw [← Nat.pow_add]
    rw [this]
    exact Nat.mul_le_mul_right _ (by omega)
  | succ k ih =>
    rw [worst]
    exact rnd_le_of_rep F64.one_pos rep_one (Nat.mul_le_mul ih ih)

theorem sigmaLoop_ok : ∀ (fuel k X Y Z : Nat), X ≤ worst k → Y ≤ 2 ^ k * one → Z ≤ 2 ^ (k + 1) * one → Rep Z → k ≤ 40 → 41 ≤ fuel + k →
    ∃ R, sigmaLoop fuel (.fin false X) (.fin false Y) (.fin false Z) = .val (.fin false R) ∧ Z ≤ R ∧ R ≤ 2 ^ 42 * one := by
  intro fuel
  induction fuel with
  | zero => intro k X Y Z _ _ _ _ h1 h2; omega
  | succ fuel ih =>
    intro k X Y Z hX hY hZ hR hk hf
    have ho := F64.one_pos
    have hw := worst_le_one k
    have hXX : X * X ≤ worst k * worst k := Nat.mul_le_mul hX hX
    obtain ⟨e1, b1⟩ := mul_le_rep (x := .fin false X) (y := .fin false X) rfl rfl rep_one
      (by have := pow_one_lt (k := 0) (by omega); omega) (Nat.le_trans hXX (Nat.mul_le_mul hw hw))
    have b1' : rnd (X * X) one ≤ worst (k + 1) := by
      rw [worst]
      exact rnd_mono F64.one_pos F64.one_pos (Nat.mul_le_mul_right _ hXX)
    generalize hX' : rnd (X * X) one = X' at *
    obtain ⟨e2, b2⟩ := mul_le_rep (x := .fin false X') (y := .fin false Y) rfl rfl (rep_pow_one k) (pow_one_lt (by omega))
      (by rw [Nat.mul_comm X' Y]; exact Nat.mul_le_mul hY b1)
    generalize hI : rnd (X' * Y) one = I at *
    have hZI : Z + I ≤ 2 ^ (k + 2) * one := by
      have e1 : 2 ^ (k + 1) * one = 2 * (2 ^ k * one) := by ring
      have e2 : 2 ^ (k + 2) * one = 4 * (2 ^ k * one) := by ring
      rw [e1] at hZ
      rw [e2]
      omega
    obtain ⟨e3, b3⟩ := add_le_rep (x := .fin false Z) (y := .fin false I) rfl rfl (rep_pow_one (k + 2)) (pow_one_lt (by omega)) hZI
    obtain ⟨e4, b4⟩ := mul_le_rep (x := F64.ofNat 2) (y := .fin false Y) (ofNat_is (by omega)) rfl (rep_pow_one (k + 1))
      (pow_one_lt (by omega)) (by
        calc 2 * one * Y ≤ 2 * one * (2 ^ k * one) := Nat.mul_le_mul_left _ hY
          _ = 2 ^ (k + 1) * one * one := by ring)
    have hge : Z ≤ rnd (Z + I) 1 := le_rnd_of_rep (by omega) hR (by omega)
    rw [sigmaLoop]
    rw [e1, e2, e3, e4]
    split
    · refine ⟨_, rfl, hge, Nat.le_trans b3 (Nat.mul_le_mul_right _ (Nat.pow_le_pow_right (by omega) (by omega)))⟩
    · rename_i hne
      by_cases hend : k = 40
      · exfalso
        apply hne
        have hX0 : X' = 0 := by
          have := worst_zero worst_end 1
          subst hend
          omega
        have hI0 : I = 0 := by
          rw [← hI, hX0, Nat.zero_mul, rnd_zero _ ho]
        have : rnd (Z + I) 1 = Z := by
          rw [hI0, Nat.add_zero]; exact rnd_exact_one hR
        rw [this]
        exact eq_self_fin _ _ _ rfl
      · obtain ⟨R, g1, g2, g3⟩ := ih (k + 1) _ _ _ b1' b4 b3 (rnd_rep _ _ (by omega)) (by omega) (by omega)
        exact ⟨R, g1, Nat.le_trans hge g2, g3⟩

/-- the quotient of two register counts is exact -/
theorem quot_is {c p : Nat} (hp : p ≤ 18) (hc : c ≤ 2 ^ p) :
    F64.div (F64.ofInt (c : Int)) (F64.ofInt ((2 ^ p : Nat) : Int)) = .fin false (c * 2 ^ (expOne - p)) := by
  have hm : 2 ^ p ≤ 2 ^ 18 := Nat.pow_le_pow_right (by omega) hp
  rw [ofInt_is (by omega : c ≤ 2 ^ 53), ofInt_is (by omega : 2 ^ p ≤ 2 ^ 53)]
  have hp0 := Nat.two_pow_pos p
  have ho := F64.one_pos
  have hmul : 2 ^ (expOne - p) * 2 ^ p = one := by
    rw [one_eq, ← Nat.pow_add]; congr 1; rw [expOne_eq]; omega
  have e : c * one * one = c * 2 ^ (expOne - p) * (2 ^ p * one) := by
    calc c * one * one = c * (2 ^ (expOne - p) * 2 ^ p) * one := by rw [hmul]
      _ = _ := by ring
  have hrep : Rep (c * 2 ^ (expOne - p)) := rep_of_mul (by omega)
  have hle : c * 2 ^ (expOne - p) ≤ one := by
    rw [← hmul, Nat.mul_comm (2 ^ (expOne - p))]
    exact Nat.mul_le_mul_right _ hc
  have hol : one < limit := by have := pow_one_lt (k := 0) (by omega); omega
  rw [F64.div, if_neg (by have := Nat.mul_pos hp0 ho; omega), mk, e, rnd_exact (Nat.mul_pos hp0 ho) hrep, if_pos (by omega)]
  rfl

theorem pow_split {p : Nat} (hp : p ≤ 18) : 2 ^ p * 2 ^ (expOne - p) = one := by
  rw [one_eq, ← Nat.pow_add]; congr 1; rw [expOne_eq]; omega

/-- `sigma` ends; unless all registers are empty it is at least the share of empty ones -/
theorem sigma_ok {c p : Nat} (hp : p ≤ 18) (hc : c ≤ 2 ^ p) : ∃ z, sigma (c : Int) ((2 ^ p : Nat) : Int) = .val z ∧
    (z = .inf false ∨ ∃ S, z = .fin false S ∧ c * 2 ^ (expOne - p) ≤ S ∧ S ≤ 2 ^ 42 * one) := by
  have ho := F64.one_pos
  unfold sigma
  rw [quot_is hp hc]
  have hsp := pow_split hp
  dsimp only
  split
  · exact ⟨_, rfl, .inl rfl⟩
  · rename_i hne
    have hlt : c ≠ 2 ^ p := by
      intro h
      apply hne
      rw [h, hsp, ofNat_is (by omega), Nat.one_mul]
      exact eq_self_fin _ _ _ rfl
    rw [ofNat_is (by omega : 1 ≤ 2 ^ 53)]
    suffices h : ∃ R, sigmaLoop 128 (.fin false (c * 2 ^ (expOne - p))) (.fin false (1 * one)) (.fin false (c * 2 ^ (expOne - p)))
        = .val (.fin false R) ∧ c * 2 ^ (expOne - p) ≤ R ∧ R ≤ 2 ^ 42 * one by
      obtain ⟨R, g1, g2, g3⟩ := h
      exact ⟨_, g1, .inr ⟨R, rfl, g2, g3⟩⟩
    apply sigmaLoop_ok 128 0
    · -- c/2^p ≤ 1 - 2^-18
      rw [worst]
      have e : 2 ^ (expOne - p) = 2 ^ (18 - p) * 2 ^ 1056 := by
        rw [← Nat.pow_add]; congr 1; rw [expOne_eq]; omega
      rw [e, ← Nat.mul_assoc]
      apply Nat.mul_le_mul_right
      have h1 : (c + 1) * 2 ^ (18 - p) ≤ 2 ^ p * 2 ^ (18 - p) := Nat.mul_le_mul_right _ (by omega)
      rw [← Nat.pow_add, show p + (18 - p) = 18 by omega, Nat.add_mul] at h1
      have := Nat.two_pow_pos (18 - p)
      omega
    · omega
    · have : c * 2 ^ (expOne - p) ≤ 2 ^ p * 2 ^ (expOne - p) := Nat.mul_le_mul_right _ hc
      omega
    · exact rep_of_mul (by have : 2 ^ p ≤ 2 ^ 18 := Nat.pow_le_pow_right (by omega) hp
                           omega)
    · omega
    · omega

/-! ### tau -/

theorem sqrtMag_le_one {X : Nat} (h : X ≤ one) : sqrtMag X ≤ one := by
  unfold sqrtMag
  dsimp only
  have hN : X * one ≤ one * one := Nat.mul_le_mul_right _ h
  have hs1 : Nat.sqrt (X * one) ≤ one := by
    have := Nat.sqrt_le_sqrt hN
    rwa [Nat.sqrt_eq] at this
  have hs : shiftOf (Nat.sqrt (X * one)) ≤ expOne := by
    have := shiftOf_mono hs1
    refine Nat.le_trans this ?_
    apply shiftOf_le_of_lt
    rw [one_eq]
    exact Nat.pow_lt_pow_right (by omega) (by omega)
  generalize shiftOf (Nat.sqrt (X * one)) = s at *
  have hp := Nat.two_pow_pos s
  have e4 : 4 ^ s = 2 ^ s * 2 ^ s := by rw [show (4 : Nat) = 2 * 2 from rfl, Nat.mul_pow]
  obtain ⟨t, ht⟩ : ∃ t, expOne = t + s := ⟨expOne - s, by omega⟩
  have hO : one = 2 ^ t * 2 ^ s := by rw [one_eq, ht, Nat.pow_add]
  rw [e4]
  generalize hq : Nat.sqrt (X * one / (2 ^ s * 2 ^ s)) = q
  have hqq : q * q * (2 ^ s * 2 ^ s) ≤ X * one := by
    rw [← Nat.le_div_iff_mul_le (Nat.mul_pos hp hp), ← hq]
    exact Nat.sqrt_le _
  rw [hO] at hN hqq ⊢
  generalize X * (2 ^ t * 2 ^ s) = N at *
  generalize 2 ^ s = P at *
  generalize 2 ^ t = T at *
  apply Nat.mul_le_mul_right
  split
  · rename_i h1
    by_contra hc
    have h2 : 2 * T + 1 ≤ 2 * q + 1 := by omega
    have h3 : (2 * T) * (2 * T) * (P * P) ≤ (2 * q + 1) ^ 2 * (P * P) := by
      apply Nat.mul_le_mul_right
      rw [pow_two]
      exact Nat.mul_le_mul (by omega) (by omega)
    have h4 : 4 * (T * P * (T * P)) = (2 * T) * (2 * T) * (P * P) := by ring
    omega
  · by_contra hc
    have h2 : T + 1 ≤ q := by omega
    have h3 : (T + 1) * (T + 1) * (P * P) ≤ q * q * (P * P) := Nat.mul_le_mul_right _ (Nat.mul_le_mul h2 h2)
    have h4 : (T + 1) * (T + 1) * (P * P) = T * P * (T * P) + (2 * T + 1) * (P * P) := by ring
    have h5 : 0 < (2 * T + 1) * (P * P) := Nat.mul_pos (by omega) (Nat.mul_pos hp hp)
    omega

theorem sqrt_is {X : Nat} (h : X ≤ one) : ∃ R, F64.sqrt (.fin false X) = .fin false R ∧ R ≤ one := by
  rw [F64.sqrt]
  split
  · exact ⟨0, rfl, Nat.zero_le _⟩
  · exact ⟨_, rfl, sqrtMag_le_one h⟩

theorem one_sub_is {X : Nat} (h : X ≤ one) :
    ∃ R, F64.sub (F64.ofNat 1) (.fin false X) = .fin false R ∧ R ≤ one := by
  rw [ofNat_is (by omega), Nat.one_mul]
  have hol : one < limit := by have := pow_one_lt (k := 0) (by omega); omega
  have e : signed false one + signed true X = ((one - X : Nat) : Int) := by
    simp only [signed, Bool.false_eq_true, if_false, if_true]; omega
  rw [F64.sub, F64.neg, Bool.not_false, F64.add, e]
  split
  · exact ⟨0, rfl, Nat.zero_le _⟩
  · have hle := rnd_le_of_rep (a := one - X) (b := 1) (by omega) rep_one (by omega)
    refine ⟨rnd (one - X) 1, ?_, hle⟩
    rw [mk, Int.natAbs_natCast, if_pos (by omega), decide_eq_false (by omega)]

theorem half_is : F64.dec 1 2 = .fin false (2 ^ (expOne - 1)) := by
  have e : 1 * one = 2 ^ (expOne - 1) * 2 := by
    rw [Nat.one_mul, one_eq]
    calc 2 ^ expOne = 2 ^ (expOne - 1 + 1) := by congr 1; rw [expOne_eq]
      _ = _ := by rw [Nat.pow_succ]
  have hol : one < limit := by have := pow_one_lt (k := 0) (by omega); omega
  unfold F64.dec mk
  rw [e, rnd_exact (by omega) (rep_pow _), if_pos (by omega)]

theorem half_mul {Y e : Nat} (h : Y ≤ 2 ^ (e + 1)) (he : e + 1 ≤ expOne) :
    ∃ R, F64.mul (F64.dec 1 2) (.fin false Y) = .fin false R ∧ R ≤ 2 ^ e := by
  have hol : 2 ^ e < limit := by
    rw [limit_eq]; exact Nat.pow_lt_pow_right (by omega) (by rw [expLimit_eq]; rw [expOne_eq] at he; omega)
  obtain ⟨h1, h2⟩ := mul_le_rep half_is (y := .fin false Y) rfl (rep_pow e) hol (by
    rw [one_eq]
    calc 2 ^ (expOne - 1) * Y ≤ 2 ^ (expOne - 1) * 2 ^ (e + 1) := Nat.mul_le_mul_left _ h
      _ = 2 ^ e * 2 ^ expOne := by
        rw [← Nat.pow_add, ← Nat.pow_add]; congr 1; rw [expOne_eq]; omega)
  exact ⟨_, h1, h2⟩

theorem half_mul_one {Y : Nat} (h : Y ≤ 1) : F64.mul (F64.dec 1 2) (.fin false Y) = .fin false 0 := by
  have hY : Y = 0 ∨ Y = 1 := by omega
  rcases hY with rfl | rfl
  · decide +kernel
  · decide +kernel

theorem tauLoop_ok : ∀ (fuel k X Y Z : Nat), X ≤ one → Y ≤ 2 ^ (1074 - k) → Z ≤ k * one → Rep Z → k ≤ 1074 →
    1075 ≤ fuel + k →
    ∃ R, tauLoop fuel (.fin false X) (.fin false Y) (.fin false Z) = .val (.fin false R) ∧ R ≤ 1075 * one := by
  intro fuel
  induction fuel with
  | zero => intro k X Y Z _ _ _ _ h1 h2; omega
  | succ fuel ih =>
    intro k X Y Z hX hY hZ hR hk hf
    have ho := F64.one_pos
    obtain ⟨S, eS, bS⟩ := sqrt_is hX
    obtain ⟨D, eD, bD⟩ := one_sub_is bS
    have hol : one < limit := by have := pow_one_lt (k := 0) (by omega); omega
    obtain ⟨eDS, bDS⟩ := mul_le_rep (x := .fin false D) (y := .fin false S) rfl rfl rep_one hol (Nat.mul_le_mul bD bS)
    generalize rnd (D * S) one = P at *
    have hY' : ∃ Y', F64.mul (F64.dec 1 2) (.fin false Y) = .fin false Y' ∧
        (k < 1074 → Y' ≤ 2 ^ (1074 - (k + 1))) ∧ (k = 1074 → Y' = 0) ∧ Y' ≤ one := by
      by_cases hlt : k < 1074
      · obtain ⟨R, h1, h2⟩ := half_mul (Y := Y) (e := 1074 - (k + 1)) (by
          rw [show 1074 - (k + 1) + 1 = 1074 - k by omega]; exact hY) (by rw [expOne_eq]; omega)
        refine ⟨R, h1, fun _ => h2, fun h => by omega, Nat.le_trans h2 ?_⟩
        rw [one_eq]; exact Nat.pow_le_pow_right (by omega) (by rw [expOne_eq]; omega)
      · have : k = 1074 := by omega
        subst this
        exact ⟨0, half_mul_one (by simpa using hY), fun h => by omega, fun _ => rfl, Nat.zero_le _⟩
    obtain ⟨Y', eY, bY1, bY2, bY3⟩ := hY'
    obtain ⟨eI, bI⟩ := mul_le_rep (x := .fin false P) (y := .fin false Y') rfl rfl rep_one hol (Nat.mul_le_mul bDS bY3)
    generalize hI : rnd (P * Y') one = I at *
    have hZI : Z + I ≤ (k + 1) * one := by rw [Nat.add_mul, Nat.one_mul]; omega
    have hkl : (k + 1) * one < limit := by
      refine Nat.lt_of_le_of_lt (Nat.mul_le_mul_right _ (by omega : k + 1 ≤ 2 ^ 64)) pow64_one
    obtain ⟨eA, bA⟩ := add_le_rep (x := .fin false Z) (y := .fin false I) rfl rfl (rep_mul_one (by omega : k + 1 ≤ 2 ^ 53)) hkl hZI
    rw [tauLoop]
    rw [eS, eD, eDS, eY, eI, eA]
    split
    · exact ⟨_, rfl, Nat.le_trans bA (Nat.mul_le_mul_right _ (by omega))⟩
    · rename_i hne
      by_cases hend : k = 1074
      · exfalso
        apply hne
        have hI0 : I = 0 := by rw [← hI, bY2 hend, Nat.mul_zero, rnd_zero _ ho]
        rw [hI0, Nat.add_zero, rnd_exact_one hR]
        exact eq_self_fin _ _ _ rfl
      · exact ih (k + 1) _ _ _ bS (bY1 (by omega)) bA (rnd_rep _ _ (by omega)) (by omega) (by omega)

/-- `tau` ends -/
theorem tau_ok {c p : Nat} (hp : p ≤ 18) (hc : c ≤ 2 ^ p) :
    ∃ R, tau (c : Int) ((2 ^ p : Nat) : Int) = .val (.fin false R) ∧ R ≤ 1075 * one := by
  unfold tau
  rw [quot_is hp hc]
  have hle : c * 2 ^ (expOne - p) ≤ one := by
    rw [← pow_split hp]; exact Nat.mul_le_mul_right _ hc
  obtain ⟨R, e, b⟩ := one_sub_is hle
  rw [e, ofNat_is (by omega : 1 ≤ 2 ^ 53), Nat.one_mul]
  exact tauLoop_ok 1200 0 R one 0 b (by rw [one_eq, expOne_eq]) (Nat.zero_le _) rep_zero (by omega) (by omega)

end Starbow.Hll

namespace Starbow.Hll
open Starbow F64 Stat64 Spec

/-! ### no estimator panics -/

theorem harmonicLoop_ok {b : Bitbucket.BB} (hb : Bitbucket.WF b) : ∀ k i z, i + k ≤ b.n.toNat →
    ∃ z', harmonicLoop b k i z = .val z' := by
  intro k
  induction k with
  | zero => intro i z _; exact ⟨z, rfl⟩
  | succ k ih =>
    intro i z h
    rw [harmonicLoop, Bitbucket.get_eq hb (by omega), Out.bind_val]
    split
    · exact ih _ _ (by omega)
    · exact ih _ _ (by omega)

theorem tallyLoop_ok {b : Bitbucket.BB} (hb : Bitbucket.WF b) (hw : b.w = 6#8) : ∀ k i (cn : List Nat) B, i + k ≤ b.n.toNat →
    (∀ j, cn.getD j 0 ≤ B) → ∃ cn', tallyLoop b k i cn = .val cn' ∧ ∀ j, cn'.getD j 0 ≤ B + k := by
  intro k
  induction k with
  | zero => intro i cn B _ h; exact ⟨cn, rfl, h⟩
  | succ k ih =>
    intro i cn B h hB
    rw [tallyLoop, Bitbucket.get_eq hb (by omega), Out.bind_val]
    have hlt := Bitbucket.field_lt b.data (i * b.w.toNat) b.w.toNat hb.w0 hb.w8
    have e6 : b.w.toNat = 6 := by rw [hw]; rfl
    rw [if_neg (by rw [e6] at hlt ⊢; omega)]
    generalize (Bitbucket.field b.data (i * b.w.toNat) b.w.toNat).toNat = r
    obtain ⟨cn', e, hc⟩ := ih (i + 1) (cn.set r (cn.getD r 0 + 1)) (B + 1) (by omega) (by
      intro j
      rw [List.getD_eq_getElem?_getD, List.getElem?_set]
      have h1 := hB r
      have h2 := hB j
      rw [List.getD_eq_getElem?_getD] at h2
      split
      · split
        · simp only [Option.getD_some]; omega
        · simp
      · omega)
    exact ⟨cn', e, fun j => by have := hc j; omega⟩

theorem poisson_ok {c : Counter} (h : WF c) : ∃ z, poisson c = .val z := by
  have hp := h.p18
  have hp4 := h.p4
  unfold poisson
  simp only
  rw [mInt_eq c.p h.p18, Int.toNat_natCast]
  obtain ⟨cn, e, hc⟩ := tallyLoop_ok h.bits h.w (2 ^ c.p.toNat) 0 (List.replicate 64 0) 0 (by rw [h.n, Int.toNat_natCast]; omega)
    (by intro j; rw [List.getD_eq_getElem?_getD, List.getElem?_replicate]; split <;> simp)
  rw [e, Out.bind_val, if_neg (by omega)]
  obtain ⟨t, et, _⟩ := tau_ok hp (show cn.getD ((64 : Int) - c.p.toNat + 1).toNat 0 ≤ 2 ^ c.p.toNat by have := hc ((64 : Int) - c.p.toNat + 1).toNat; omega)
  obtain ⟨s, es, _⟩ := sigma_ok hp (show cn.getD 0 0 ≤ 2 ^ c.p.toNat by have := hc 0; omega)
  rw [et, Out.bind_val, es, Out.bind_val]
  exact ⟨_, rfl⟩

theorem harmonic_ok {c : Counter} (h : WF c) : ∃ z, harmonic c = .val z := by
  unfold harmonic
  rw [mInt_eq c.p h.p18, Int.toNat_natCast]
  exact harmonicLoop_ok h.bits _ _ _ (by rw [h.n, Int.toNat_natCast]; omega)

theorem countLarge_ok {c : Counter} (h : WF c) : ∃ n, countLarge c = .val n := by
  obtain ⟨z, ez⟩ := harmonic_ok h
  obtain ⟨z', ez'⟩ := poisson_ok h
  unfold countLarge
  rw [ez, Out.bind_val]
  split
  · rw [ez', Out.bind_val]; exact ⟨_, rfl⟩
  · rw [Out.bind_val]; exact ⟨_, rfl⟩

theorem countN_val {c : Counter} (h : WF c) : ∃ v, Bitbucket.countN c.bits 0#8 = .val v := by
  unfold Bitbucket.countN
  rw [Bitbucket.countNLoop_eq h.bits _ _ 0 0 (by omega)]
  exact ⟨_, rfl⟩

theorem count_ok (log : F64 → F64) {c : Counter} (h : WF c) : ∃ n, count log c = .val n := by
  obtain ⟨v, ev⟩ := countN_val h
  unfold count
  rw [ev, Out.bind_val]
  split
  · exact ⟨_, rfl⟩
  · exact countLarge_ok h

theorem linearCount_ok (log : F64 → F64) {c : Counter} (h : WF c) : ∃ n, linearCount log c = .val n := by
  obtain ⟨v, ev⟩ := countN_val h
  unfold linearCount
  rw [ev, Out.bind_val]; exact ⟨_, rfl⟩

theorem harmonicCount_ok {c : Counter} (h : WF c) : ∃ n, harmonicCount c = .val n := by
  obtain ⟨z, ez⟩ := harmonic_ok h
  unfold harmonicCount
  rw [ez, Out.bind_val]; exact ⟨_, rfl⟩

theorem poissonCount_ok {c : Counter} (h : WF c) : ∃ n, poissonCount c = .val n := by
  obtain ⟨z, ez⟩ := poisson_ok h
  unfold poissonCount
  rw [ez, Out.bind_val]; exact ⟨_, rfl⟩

end Starbow.Hll
