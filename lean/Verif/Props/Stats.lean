import Verif.Model.Stats
import Verif.Props.Stat64
/-
Property theorems C50: the batch statistics of internal/stats.
-/
namespace Starbow.Props
open Starbow.Spec Starbow.Stat64

/-! ### exact arithmetic -/

theorem stats_sum_rat (xs : List ℚ) : Stats.sum xs = xs.sum := by
  have key : ∀ (xs : List ℚ) (a : ℚ), xs.foldl (Arith.add : ℚ → ℚ → ℚ) a = a + xs.sum := by
    intro xs
    induction xs with
    | nil => intro a; rw [List.foldl_nil, List.sum_nil, add_zero]
    | cons x xs ih =>
      intro a
      rw [List.foldl_cons, ih, List.sum_cons]
      show a + x + _ = _
      ring
  rw [Stats.sum, key]
  exact zero_add _

theorem stats_squares_rat (m : ℚ) (xs : List ℚ) : Stats.squares m xs = (xs.map fun x => (x - m) ^ 2).sum := by
  have key : ∀ (xs : List ℚ) (a : ℚ),
      xs.foldl (fun acc v => Arith.add acc (Arith.mul (Arith.sub v m) (Arith.sub v m))) a
        = a + (xs.map fun x => (x - m) ^ 2).sum := by
    intro xs
    induction xs with
    | nil => intro a; rw [List.foldl_nil, List.map_nil, List.sum_nil, add_zero]
    | cons x xs ih =>
      intro a
      rw [List.foldl_cons, ih, List.map_cons, List.sum_cons]
      show a + (x - m) * (x - m) + _ = _
      ring
  rw [Stats.squares, key]
  exact zero_add _

theorem stats_count_rat (xs : List ℚ) (h : xs.length < 2 ^ 64) : (Stats.count xs : ℚ) = xs.length := by
  show (((BitVec.ofNat 64 xs.length).toNat : Nat) : ℚ) = _
  rw [BitVec.toNat_ofNat, Nat.mod_eq_of_lt h]

/-- **C50** as far as it is true (without rounding): `Meanvar` returns the mean, NaN only for no values at all; what it returns as the
variance is NaN for fewer than two values and otherwise the sample variance times (n-1)/n. The last factor is what the documentation
does not say: the result is the population variance. -/
theorem C50_mean_partial (xs : List ℚ) (hn : xs.length < 2 ^ 64) :
    (Stats.meanvar xs).1 = (if xs = [] then none else some (meanOf xs)) ∧
    (Stats.meanvar xs).2 = (if xs.length < 2 then none
      else some (sampleVar xs * (xs.length - 1) / xs.length)) := by
  match xs, hn with
  | [], _ => exact ⟨rfl, rfl⟩
  | [v], _ =>
    refine ⟨?_, rfl⟩
    rw [if_neg (List.cons_ne_nil _ _)]
    show some v = _
    congr 1
    simp [meanOf]
  | v :: w :: rest, hn =>
    have hs := stats_sum_rat (v :: w :: rest)
    have hc := stats_count_rat (v :: w :: rest) hn
    have hm : (Arith.div (Stats.sum (v :: w :: rest)) (Stats.count (v :: w :: rest)) : ℚ) = meanOf (v :: w :: rest) := by
      rw [hs, hc]; rfl
    have hq := stats_squares_rat (meanOf (v :: w :: rest)) (v :: w :: rest)
    have e1 : (Stats.meanvar (v :: w :: rest)).1
        = some (Arith.div (Stats.sum (v :: w :: rest)) (Stats.count (v :: w :: rest))) := rfl
    have e2 : (Stats.meanvar (v :: w :: rest)).2
        = some (Arith.div (Stats.squares (Arith.div (Stats.sum (v :: w :: rest)) (Stats.count (v :: w :: rest)))
            (v :: w :: rest)) (Stats.count (v :: w :: rest))) := rfl
    rw [e1, e2, hm, hq, hc, if_neg (List.cons_ne_nil _ _), if_neg (by simp [List.length_cons])]
    refine ⟨rfl, ?_⟩
    congr 1
    unfold sampleVar
    have h1 : ((v :: w :: rest).length : ℚ) - 1 ≠ 0 := by
      rw [List.length_cons, List.length_cons]; push_cast
      have : (0 : ℚ) ≤ rest.length := Nat.cast_nonneg _
      linarith
    rw [div_mul_cancel₀ _ h1]
    rfl

/-- what the two packages return for 1, 2, 4: the same mean 7/3, and the variances 14/9 and 7/3 -/
example : Stats.meanvar ([1, 2, 4] : List ℚ) = (some (7 / 3), some (14 / 9)) ∧
    (([1, 2, 4] : List ℚ).foldl observe (Acc.init ℚ)).variance = some (7 / 3) := by
  obtain ⟨h1, h2⟩ := C50_mean_partial [1, 2, 4] (by decide)
  obtain ⟨_, _, _, h3⟩ := C17_exact [1, 2, 4] (by decide)
  refine ⟨Prod.ext (h1.trans ?_) (h2.trans ?_), h3.trans ?_⟩
  · rw [if_neg (by decide)]; norm_num [meanOf]
  · rw [if_neg (by decide)]; norm_num [meanOf, sampleVar]
  · rw [if_neg (by decide)]; norm_num [meanOf, sampleVar]

/-- **C50 is false**: whatever two or more values are given, unless all are equal, the second result of `Meanvar` is not their sample
variance and differs from what stat64 computes. -/
theorem C50_refuted (xs : List ℚ) (h2 : 2 ≤ xs.length) (hn : xs.length < 2 ^ 64) (hv : sampleVar xs ≠ 0) :
    (Stats.meanvar xs).2 ≠ some (sampleVar xs) ∧
    (Stats.meanvar xs).2 ≠ (xs.foldl observe (Acc.init ℚ)).variance := by
  have key : (Stats.meanvar xs).2 ≠ some (sampleVar xs) := by
    rw [(C50_mean_partial xs hn).2, if_neg (by omega)]
    intro h
    have h := Option.some.inj h
    have hl : (xs.length : ℚ) ≠ 0 := by
      have : 0 < xs.length := by omega
      positivity
    rw [div_eq_iff hl] at h
    have := mul_left_cancel₀ hv h
    linarith
  refine ⟨key, ?_⟩
  rw [(C17_exact xs hn).2.2.2, if_neg (by omega)]
  exact key

example : sampleVar [1, 2, 4] ≠ 0 := by norm_num [meanOf, sampleVar]

/-- and the same in doubles: for 1 and 3 `Meanvar` gives 1, stat64 gives 2 -/
theorem C50_double_refuted : (Stats.meanvar [F64.ofNat 1, F64.ofNat 3]) = (some (F64.ofNat 2), some (F64.ofNat 1)) ∧
    (after [F64.ofNat 1, F64.ofNat 3]).variance = some (F64.ofNat 2) := by
  exact ⟨by decide +kernel, by decide +kernel⟩

/-! ### doubles -/

theorem after_sum_foldl (xs : List F64) : ∀ a : Acc F64, (xs.foldl observe a).sum = xs.foldl Arith.add a.sum := by
  induction xs with
  | nil => intro a; rfl
  | cons x xs ih => intro a; rw [List.foldl_cons, ih, List.foldl_cons]; rfl

/-- **C50**, agreement of the sums: for every list of doubles `Sum` returns bit for bit what stat64 accumulates, so the bounds of C19
and C54 hold for it too. -/
theorem C50_sum_agrees (xs : List F64) : Stats.sum xs = (after xs).sum := (after_sum_foldl xs (Acc.init F64)).symm

theorem squares_nonneg (m : F64) (hm : ∃ z, F64.Is m z) (xs : List F64) (hx : ∀ x ∈ xs, ∃ z, F64.Is x z) :
    NonNeg (Stats.squares m xs) := by
  obtain ⟨zm, hm⟩ := hm
  have sq : ∀ x, (∃ z, F64.Is x z) → NonNeg (F64.mul (F64.sub x m) (F64.sub x m)) := by
    rintro x ⟨z, hz⟩
    have h := F64.sub_res hz hm
    unfold F64.Res at h
    split at h
    · exact nonNeg_of_res (F64.mul_res h h) (mul_self_nonneg _)
    · rw [h]
      cases decide (z - zm < 0) <;> exact Or.inl rfl
  have key : ∀ (xs : List F64) (a : F64), NonNeg a → (∀ x ∈ xs, ∃ z, F64.Is x z) →
      NonNeg (xs.foldl (fun acc v => Arith.add acc (Arith.mul (Arith.sub v m) (Arith.sub v m))) a) := by
    intro xs
    induction xs with
    | nil => intro a ha _; exact ha
    | cons x xs ih =>
      intro a ha h
      rw [List.foldl_cons]
      exact ih _ (NonNeg.add ha (sq x (h x (List.mem_cons_self ..)))) (fun y hy => h y (List.mem_cons_of_mem _ hy))
  exact key xs F64.zero (Or.inr ⟨0, ⟨false, 0, rfl, rfl⟩, le_refl _⟩) hx

/-- **C50**, robustness: for two or more finite doubles whose sum does not overflow, the variance `Meanvar` computes in double
arithmetic is a number and not negative. -/
theorem C50_nonneg (xs : List F64) (h2 : 2 ≤ xs.length) (hn : xs.length < 2 ^ 63) (hd : ∀ x ∈ xs, IsFinite x)
    (hs : IsFinite (Stats.sum xs)) :
    ∃ m v, Stats.meanvar xs = (some m, some v) ∧ v ≠ .nan ∧ F64.le F64.zero v = true := by
  match xs, h2, hn, hd, hs with
  | v :: w :: rest, _, hn, hd, hs =>
    have is_of : ∀ x : F64, IsFinite x → ∃ z, F64.Is x z := by
      rintro x ⟨q, hq⟩
      cases x with
      | nan => simp [value] at hq
      | inf s => simp [value] at hq
      | fin s m => exact ⟨_, s, m, rfl, rfl⟩
    refine ⟨_, _, rfl, ?_⟩
    have hw : F64.Wf (Stats.sum (v :: w :: rest)) := by
      rw [C50_sum_agrees]
      exact (wf_foldl (w :: rest) _ (wf_observe (Acc.init F64) v)).sum
    have h1 : 1 ≤ (BitVec.ofNat 64 (v :: w :: rest).length : U64).toNat := by
      rw [BitVec.toNat_ofNat, Nat.mod_eq_of_lt (by omega), List.length_cons]; omega
    generalize v :: w :: rest = l at *
    have hN := cmag_le (c := BitVec.ofNat 64 l.length) (k := 1) (by omega) h1
    have ho := F64.one_pos
    have hc : (Stats.count l : F64) = F64.ofU64 (BitVec.ofNat 64 l.length) := rfl
    have hcis := ofU64_is (BitVec.ofNat 64 l.length)
    have hceq := ofU64_eq (BitVec.ofNat 64 l.length)
    rw [← hc] at hcis hceq
    generalize cmag (BitVec.ofNat 64 l.length) = N at *
    have hmean : ∃ z, F64.Is (Arith.div (Stats.sum l) (Stats.count l)) z := by
      obtain ⟨z, hz⟩ := is_of _ hs
      have hr := F64.div_res hz hcis (by omega) hceq
      refine ⟨_, hr.is ?_⟩
      obtain ⟨s, m, e, e'⟩ := hz
      rw [e] at hw
      obtain ⟨hrep, hlt⟩ := hw
      rw [F64.rq_natAbs, ← e', Int.natAbs_mul, F64.signed_natAbs, Int.natAbs_natCast]
      refine lt_of_le_of_lt (F64.rnd_le_of_rep (by omega) hrep ?_) hlt
      exact Nat.mul_le_mul_left _ (by omega)
    have hq := squares_nonneg _ hmean l (fun x hx => is_of x (hd x hx))
    have hv : NonNeg (Arith.div (Stats.squares (Arith.div (Stats.sum l) (Stats.count l)) l) (Stats.count l)) := by
      rcases hq with h | ⟨z, hz, h⟩
      · rw [h, hceq]; exact Or.inl rfl
      · exact nonNeg_of_res (F64.div_res hz hcis (by omega) hceq) (mul_nonneg h (by omega))
    refine ⟨?_, hv.le⟩
    intro h0
    have hle := hv.le
    rw [h0] at hle
    exact absurd hle (by decide)

/-- the hypotheses hold for 0.1, 0.3, 1e16 and -5 -/
example : 2 ≤ sample.length ∧ (∀ x ∈ sample, IsFinite x) ∧ IsFinite (Stats.sum sample) :=
  ⟨by decide, by decide +kernel, by decide +kernel⟩

end Starbow.Props
