import Verif.Props.TestUtil
import Verif.Props.Ieee
/-
C52: adjacency and the infinities.
-/
namespace Starbow.Props
open Starbow Starbow.Spec Starbow.TestUtil F64

theorem top_inf : limit - 2 ^ (expLimit - 53) = top := by
  have : expLimit - 53 = expTop := by rw [expLimit_eq, expTop_eq]
  rw [this, limit_top, Nat.add_sub_cancel]

theorem top_value (s : Bool) : ((signed s top : ℤ) : ℚ) / one = if s then -(2 ^ 1024 - 2 ^ 971) else 2 ^ 1024 - 2 ^ 971 := by
  have ho := oneq_pos
  have e1 : (2 : ℚ) ^ 1024 * one = limit := by
    rw [one_eq, expOne_eq, limit_eq, expLimit_eq, Nat.cast_pow, Nat.cast_pow, Nat.cast_ofNat, ← pow_add]
  have e2 : (2 : ℚ) ^ 971 * one = (2 ^ expTop : Nat) := by
    rw [one_eq, expOne_eq, expTop_eq, Nat.cast_pow, Nat.cast_pow, Nat.cast_ofNat, ← pow_add]
  have e3 : (limit : ℚ) = top + (2 ^ expTop : Nat) := by exact_mod_cast limit_top
  have e4 : (2 : ℚ) ^ 1024 - 2 ^ 971 = top / one := by
    rw [eq_div_iff (ne_of_gt ho), sub_mul, e1, e2, e3]; ring
  rw [e4]
  unfold signed
  cases s
  · simp
  · simp only [if_true]; push_cast; rw [neg_div]

/-- **C52**, what `AdjacentEqual64` decides about the infinities: an infinity is adjacent to itself and to the greatest finite double of
its sign, `2^1024 - 2^971`, and to nothing else. -/
theorem C52_adjacent_inf (s : Bool) (b : F64) :
    (adjacentEqual (.inf s) b = true ↔ b = .inf s ∨ value b = some (if s then -(2 ^ 1024 - 2 ^ 971) else 2 ^ 1024 - 2 ^ 971)) ∧
    (adjacentEqual b (.inf s) = true ↔ b = .inf s ∨ value b = some (if s then -(2 ^ 1024 - 2 ^ 971) else 2 ^ 1024 - 2 ^ 971)) := by
  have ho := oneq_pos
  rw [← top_value s]
  have hfin : ∀ c m t n, F64.eq (.fin c m) (.fin t n) = true ↔ signed c m = signed t n := fun c m t n =>
    Is.eq_iff ⟨c, m, rfl, rfl⟩ ⟨t, n, rfl, rfl⟩
  cases b with
  | nan => simp [adjacentEqual, nextUp, F64.eq, F64.cmp, value]
  | inf t =>
    have h1 : F64.eq (.inf s) (.inf t) = decide (s = t) := by cases s <;> cases t <;> rfl
    have h2 : F64.eq (.inf t) (.inf s) = decide (s = t) := by cases s <;> cases t <;> rfl
    have h3 : ∀ u v m, F64.eq (.inf u) (.fin v m) = false := by intro u v m; cases u <;> rfl
    unfold adjacentEqual nextUp
    dsimp only
    rw [h1, h2, h3, h3]
    cases s <;> cases t <;> simp [value]
  | fin t n =>
    have h3 : ∀ u v m, F64.eq (.inf u) (.fin v m) = false := by intro u v m; cases u <;> rfl
    have h4 : ∀ u v m, F64.eq (.fin v m) (.inf u) = false := by intro u v m; cases u <;> rfl
    have hup : ∃ v m, nextUp (.fin t n) = .fin v m := by
      unfold nextUp
      dsimp only
      by_cases c1 : n = 0
      · exact ⟨_, _, if_pos c1⟩
      · rw [if_neg c1]
        cases t
        · rw [if_neg (by simp)]
          by_cases c2 : n + 2 ^ shiftOf n < limit
          · exact ⟨_, _, if_pos c2⟩
          · exact ⟨_, _, if_neg c2⟩
        · exact ⟨_, _, if_pos rfl⟩
    obtain ⟨v, m, hup⟩ := hup
    have hinf : nextUp (.inf s) = .fin s top := by unfold nextUp; dsimp only; rw [top_inf]
    have hv : value (.fin t n) = some (((signed s top : ℤ) : ℚ) / one) ↔ signed t n = signed s top := by
      rw [value_fin, Option.some.injEq, div_left_inj' (ne_of_gt ho)]
      norm_cast
    unfold adjacentEqual
    rw [hinf, hup, h3, h4, h3, hv]
    simp only [Bool.false_or, Bool.or_false, reduceCtorEq, false_or]
    exact ⟨hfin _ _ _ _, hfin _ _ _ _⟩

/-- so the greatest double and infinity count as close, within any tolerance -/
example (tol : F64) : close (.inf false) (.fin false top) tol = true := by
  unfold close
  rw [Bool.or_eq_true]
  left
  exact ((C52_adjacent_inf false _).1).2 (.inr (by rw [value_fin, top_value]))

end Starbow.Props
