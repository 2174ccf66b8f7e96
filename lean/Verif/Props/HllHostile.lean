import Verif.Props.Hll
import Verif.Model.HllEst
import Verif.Proof.F64
/-
Property C16 for the estimators: counters opened from buffers that `WithBytes` accepts but no `New` makes. `Count` and `PoissonCount`
can index out of range, and for precisions 64 and 65 they never return.
-/
namespace Starbow.Props
open Starbow Starbow.Hll

private theorem eq_nan (x : F64) : F64.eq .nan x = false := by cases x <;> rfl

/-- once NaN, the sum of `tau` never equals itself: the loop does not end after any number of rounds -/
theorem tau_nan (k : Nat) (y z : F64) : tauLoop k .nan y z = .panic := by
  induction k generalizing y z with
  | zero => rfl
  | succ k ih =>
    rw [tauLoop]
    simp only [F64.sqrt, F64.sub, F64.mul_nan, F64.nan_mul, F64.add_nan, eq_nan]
    exact ih _ _

/-- **C16 fails** for hll (3): `tau` of zero registers is not a number and its loop, which runs until the sum no longer changes, goes on
after any number of rounds. -/
theorem C16_hll_tau_endless (k : Nat) :
    tauLoop k (F64.sub (F64.ofNat 1) (F64.div (F64.ofInt 0) (F64.ofInt 0))) (F64.ofNat 1) F64.zero = .panic := by
  have : F64.sub (F64.ofNat 1) (F64.div (F64.ofInt 0) (F64.ofInt 0)) = .nan := by decide +kernel
  rw [this]
  exact tau_nan k _ _

private theorem tally_zero (b : Bitbucket.BB) (i : Nat) (cn : List Nat) : tallyLoop b 0 i cn = .val cn := by rw [tallyLoop]

/-- **C16 fails** for hll (4): every counter of precision 64 or 65 (which WithBytes and ReadFrom accept) has zero registers to
estimators, and PoissonCount does not return. -/
theorem C16_hll_poisson_endless (c : Counter) (hp : c.p = 64#8 ∨ c.p = 65#8) : poissonCount c = .panic := by
  have hm : mInt c.p = 0 := by rcases hp with h | h <;> rw [h] <;> decide
  have hc : ∀ x, (List.replicate 64 0).getD x 0 = 0 := by
    intro x
    rw [List.getD_eq_getElem?_getD, List.getElem?_replicate]
    split <;> rfl
  have ht : tau (0 : Nat) 0 = .panic := C16_hll_tau_endless 1200
  have : poisson c = .panic := by
    unfold poisson
    rw [hm]
    simp only [Int.toNat_zero, tally_zero, Out.bind_val, hc, ht]
    split
    · rfl
    · rfl
  unfold poissonCount
  rw [this]; rfl

/-- **C16 fails** for hll (5): WithBytes accepts these twelve bytes, and on the counter Count does not return. -/
theorem C16_hll_count_endless (log : F64 → F64) :
    ∃ c, withBytes [1#8, 64#8, 1#8, 6#8, 0#8, 0#8, 0#8, 0#8, 0#8, 0#8, 0#8, 0#8] = .val (.ok c) ∧ Hll.count log c = .panic := by
  refine ⟨⟨64#8, ⟨[], 0, 6#8⟩⟩, by decide, ?_⟩
  have hp := C16_hll_poisson_endless ⟨64#8, ⟨[], 0, 6#8⟩⟩ (.inl rfl)
  have hpo : poisson ⟨64#8, ⟨[], 0, 6#8⟩⟩ = .panic := by
    unfold poissonCount at hp
    revert hp
    cases poisson ⟨64#8, ⟨[], 0, 6#8⟩⟩ with
    | panic => intro _; rfl
    | val z => intro h; exact absurd h (by simp [bind, Out.bind, pure])
  have hn : Bitbucket.countN ⟨[], 0, 6#8⟩ 0#8 = .val 0 := by decide
  have hh : harmonic ⟨64#8, ⟨[], 0, 6#8⟩⟩ = .val F64.zero := by decide
  have hge : F64.ge F64.zero (F64.div (F64.mul (alpha 64#8) (F64.ofInt (mInt 64#8))) (F64.ofNat 7)) = true := by decide +kernel
  unfold Hll.count
  simp only [hn, Out.bind_val, Nat.lt_irrefl, false_and, if_false]
  unfold countLarge
  rw [hh]
  simp only [Out.bind_val, hge, if_true, hpo]
  rfl

private theorem bind_panic {α β} {x : Out α} {f : α → Out β} (h : ∀ a, x = .val a → f a = .panic) : (x >>= f) = .panic := by
  cases x with
  | panic => rfl
  | val a => exact h a rfl

/-- **C16 fails** for hll (6): PoissonCount of a counter of precision 0 or 1 panics (it indexes a 64-element array at 65 or 64). -/
theorem C16_hll_poisson_low (c : Counter) (hp : c.p.toNat ≤ 1) : poissonCount c = .panic := by
  unfold poissonCount
  apply bind_panic
  intro a ha
  exfalso
  revert ha
  unfold poisson
  simp only
  intro ha
  have : ((64 : Int) - c.p.toNat + 1 < 0 ∨ 64 ≤ (64 : Int) - c.p.toNat + 1) := .inr (by omega)
  rw [bind_panic (fun _ _ => if_pos this)] at ha
  simp at ha

private theorem tally_wide (b : Bitbucket.BB) : ∀ (k i : Nat) (cn : List Nat) (j : Nat) (r : Byte), i ≤ j → j < i + k →
    Bitbucket.get b (j : Int) = .val r → 64 ≤ r.toNat → tallyLoop b k i cn = .panic := by
  intro k
  induction k with
  | zero => intro i cn j r h1 h2; omega
  | succ k ih =>
    intro i cn j r h1 h2 hg h64
    rw [tallyLoop]
    apply bind_panic
    intro a ha
    by_cases hij : i = j
    · subst hij
      rw [hg] at ha
      cases ha
      rw [if_pos h64]
    · split
      · rfl
      · exact ih (i + 1) _ j r (by omega) (by omega) hg h64

/-- **C16 fails** for hll (7): PoissonCount panics if one of the `2^p` registers holds 64 or more (a buffer of width 7 or 8). -/
theorem C16_hll_poisson_wide (c : Counter) (hp : c.p.toNat < 63) (j : Nat) (hj : j < 2 ^ c.p.toNat) (r : Byte)
    (hg : Bitbucket.get c.bits (j : Int) = .val r) (hr : 64 ≤ r.toNat) : poissonCount c = .panic := by
  have hm : (mInt c.p).toNat = 2 ^ c.p.toNat := by
    have h62 : 2 ^ c.p.toNat ≤ 2 ^ 62 := Nat.pow_le_pow_right (by decide) (by omega)
    have h63 : (2 : Nat) ^ 62 < 2 ^ 63 := by decide
    have h64 : (2 : Nat) ^ 63 + 2 ^ 63 = 2 ^ 64 := by decide
    unfold mInt
    have e : (1#64 <<< c.p.toNat).toNat = 2 ^ c.p.toNat := by
      rw [BitVec.toNat_shiftLeft, Nat.shiftLeft_eq]
      show 1 * 2 ^ c.p.toNat % 2 ^ 64 = _
      rw [Nat.one_mul, Nat.mod_eq_of_lt (by omega)]
    rw [BitVec.toInt_eq_toNat_of_lt (by rw [e]; omega), e, Int.toNat_natCast]
  unfold poissonCount
  apply bind_panic
  intro a ha
  exfalso
  revert ha
  unfold poisson
  simp only
  rw [tally_wide c.bits (mInt c.p).toNat 0 _ j r (by omega) (by rw [hm]; omega) hg hr]
  simp [bind, Out.bind]

/-- the hypotheses of the last theorem hold of a counter that WithBytes opens: sixteen 8-bit registers, the third of them 64 -/
example : ∃ c, withBytes ([1#8, 4#8, 1#8, 8#8, 16#8, 0#8, 0#8, 0#8, 0#8, 0#8, 0#8, 0#8, 0#8, 0#8, 64#8] ++ List.replicate 13 0#8) =
      .val (.ok c) ∧ c.p.toNat < 63 ∧ (2 : Nat) < 2 ^ c.p.toNat ∧ Bitbucket.get c.bits ((2 : Nat) : Int) = .val 64#8 :=
  ⟨⟨4#8, ⟨[0#8, 0#8, 64#8] ++ List.replicate 13 0#8, 16, 8#8⟩⟩, by decide, by decide, by decide, by decide⟩

end Starbow.Props
