import Verif.Model.Stat64
import Verif.Proof.F64
import Verif.Proof.Basic
import Verif.Spec.Stats
import Mathlib.Tactic.FieldSimp
import Mathlib.Data.List.Induction
/-
Proofs about the streaming statistics of stat64.
-/
namespace Starbow.Stat64
open F64

/-! ### exact arithmetic -/

instance : Arith ℚ := ⟨0, (· + ·), (· - ·), (· * ·), (· / ·), fun c => (c.toNat : ℚ)⟩

/-- running totals: number, sum and sum of squares determine the state -/
theorem observe_rat (xs : List ℚ) (h : xs.length < 2 ^ 64) :
    (xs.foldl observe (Acc.init ℚ)).count.toNat = xs.length ∧
    (xs.foldl observe (Acc.init ℚ)).sum = xs.sum ∧
    (xs.foldl observe (Acc.init ℚ)).mean * xs.length = xs.sum ∧
    (xs.foldl observe (Acc.init ℚ)).ss
      = (xs.map (· ^ 2)).sum - (xs.foldl observe (Acc.init ℚ)).mean * xs.sum := by
  induction xs using List.reverseRecOn with
  | nil => exact ⟨rfl, rfl, by simp, by simp [Acc.init, Arith.zero]⟩
  | append_singleton xs v ih =>
    rw [List.length_append, List.length_singleton] at h
    obtain ⟨h1, h2, h3, h4⟩ := ih (by omega)
    rw [List.foldl_append, List.foldl_cons, List.foldl_nil]
    generalize List.foldl observe (Acc.init ℚ) xs = a at *
    have hc : (a.count + 1).toNat = xs.length + 1 := by
      rw [BitVec.toNat_add, h1]
      exact Nat.mod_eq_of_lt h
    have e1 : (observe a v).count = a.count + 1 := rfl
    have e2 : (observe a v).sum = a.sum + v := rfl
    have e3 : (observe a v).mean = a.mean + (v - a.mean) / ((a.count + 1).toNat : ℚ) := rfl
    have e4 : (observe a v).ss = a.ss + (v - a.mean) * (v - (a.mean + (v - a.mean) / ((a.count + 1).toNat : ℚ))) := rfl
    rw [e1, e2, e3, e4, hc]
    have hn : ((xs.length + 1 : Nat) : ℚ) ≠ 0 := by positivity
    have hn' : ((xs.length : Nat) : ℚ) + 1 ≠ 0 := by positivity
    simp only [List.length_append, List.length_singleton, List.sum_append, List.sum_singleton, List.map_append,
      List.map_singleton]
    refine ⟨trivial, by rw [h2], ?_, ?_⟩
    · push_cast
      field_simp
      rw [← h3]; ring
    · rw [h4, ← h3]
      push_cast
      field_simp
      ring

theorem sq_dev_sum (xs : List ℚ) (m : ℚ) :
    (xs.map fun x => (x - m) ^ 2).sum = (xs.map (· ^ 2)).sum - 2 * m * xs.sum + xs.length * m ^ 2 := by
  induction xs with
  | nil => simp
  | cons x xs ih =>
    rw [List.map_cons, List.sum_cons, ih, List.map_cons, List.sum_cons, List.sum_cons, List.length_cons]
    push_cast; ring

/-! ### doubles -/

theorem pow64_one : 2 ^ 64 * one < limit := by
  rw [one_eq, limit_eq, ← Nat.pow_add]
  exact Nat.pow_lt_pow_right (by omega) (by rw [expOne_eq, expLimit_eq]; omega)

/-- the magnitude of `float64(c)` -/
def cmag (c : U64) : Nat := rnd (c.toNat * one) 1

theorem cmag_le {c : U64} {k : Nat} (hk : k ≤ 2 ^ 53) (h : k ≤ c.toNat) : k * one ≤ cmag c := by
  apply le_rnd_of_rep (by omega)
  · rw [one_eq]; exact rep_of_mul hk
  · rw [Nat.mul_one]; exact Nat.mul_le_mul_right _ h

theorem cmag_one : cmag 1#64 = one := by
  unfold cmag
  rw [show (1#64 : U64).toNat = 1 from rfl, Nat.one_mul]
  exact rnd_exact_one rep_one

theorem cmag_lt (c : U64) : cmag c < limit := by
  refine Nat.lt_of_le_of_lt ?_ pow64_one
  apply rnd_le_of_rep (by omega)
  · rw [one_eq, ← Nat.pow_add]; exact rep_pow _
  · rw [Nat.mul_one]; exact Nat.mul_le_mul_right _ (by have := c.isLt; omega)

theorem ofU64_eq (c : U64) : ofU64 c = .fin false (cmag c) := by
  have h := cmag_lt c
  unfold cmag at h
  unfold ofU64 ofNat mk cmag
  rw [if_pos h]

theorem ofU64_is (c : U64) : Is (ofU64 c) (cmag c) := ⟨false, cmag c, ofU64_eq c, rfl⟩

/-- the correction of the mean does not overshoot: rounding up the difference is outweighed by dividing by two or more -/
theorem quot_le {D : Int} (hD : 0 ≤ D) {N : Nat} (hN : 2 * one ≤ N) : rq (rq D 1 * one) N ≤ D := by
  have ho := one_pos
  rcases Int.lt_or_eq_of_le hD with h | h
  · obtain ⟨n, rfl⟩ := Int.eq_ofNat_of_zero_le hD
    have hn : n ≠ 0 := by omega
    have h1 := Nat.log2_self_le hn
    have h2 := Nat.lt_log2_self (n := n)
    generalize Nat.log2 n = k at *
    have d1 : rq (n : Int) 1 ≤ (2 ^ (k + 1) : Nat) := by
      rw [← rq_exact_one (z := ((2 ^ (k + 1) : Nat) : Int)) (by rw [Int.natAbs_natCast]; exact rep_pow _)]
      exact rq_mono (by omega) (by omega) (by omega)
    have d2 : rq (rq (n : Int) 1 * one) N ≤ (2 ^ k : Nat) := by
      rw [← rq_exact_one (z := ((2 ^ k : Nat) : Int)) (by rw [Int.natAbs_natCast]; exact rep_pow _)]
      apply rq_mono (by omega) (by omega)
      rw [Nat.cast_one, Int.mul_one]
      calc rq (n : Int) 1 * one ≤ (2 ^ (k + 1) : Nat) * one := mul_le_mul_of_nonneg_right d1 (by omega)
        _ = (2 ^ k : Nat) * ((2 * one : Nat) : Int) := by push_cast; ring
        _ ≤ (2 ^ k : Nat) * (N : Int) := mul_le_mul_of_nonneg_left (by exact_mod_cast hN) (by omega)
    have : ((2 ^ k : Nat) : Int) ≤ n := by exact_mod_cast h1
    omega
  · subst h
    rw [rq_zero 1 (by omega), Int.zero_mul, rq_zero N (by omega)]

/-- the quotient is no larger than the dividend -/
theorem quot_le' {d : Int} (hd : 0 ≤ d) (hr : Rep d.natAbs) {N : Nat} (hN : one ≤ N) :
    0 ≤ rq (d * one) N ∧ rq (d * one) N ≤ d := by
  have ho := one_pos
  refine ⟨rq_ge_zero _ (mul_nonneg hd (by omega)), ?_⟩
  conv_rhs => rw [← rq_exact_one (z := d) hr]
  apply rq_mono (by omega) (by omega)
  rw [Nat.cast_one, Int.mul_one]
  exact mul_le_mul_of_nonneg_left (by exact_mod_cast hN) hd

/-- the new mean lies between the old mean and the observation -/
theorem mean_up {m w : Int} (hm : Rep m.natAbs) (hw : Rep w.natAbs) (h : m ≤ w) {N : Nat} (hN : 2 * one ≤ N) :
    m ≤ rq (m + rq (rq (w - m) 1 * one) N) 1 ∧ rq (m + rq (rq (w - m) 1 * one) N) 1 ≤ w := by
  have ho := one_pos
  have h1 := quot_le (D := w - m) (by omega) hN
  have h2 : 0 ≤ rq (rq (w - m) 1 * one) N :=
    rq_ge_zero _ (mul_nonneg (rq_ge_zero 1 (by omega)) (by omega))
  generalize rq (rq (w - m) 1 * one) N = q at *
  constructor
  · conv_lhs => rw [← rq_exact_one (z := m) hm]
    exact rq_mono (by omega) (by omega) (by omega)
  · conv_rhs => rw [← rq_exact_one (z := w) hw]
    exact rq_mono (by omega) (by omega) (by omega)

theorem mean_down {m w : Int} (hm : Rep m.natAbs) (hw : Rep w.natAbs) (h : w ≤ m) {N : Nat} (hN : 2 * one ≤ N) :
    w ≤ rq (m + rq (rq (w - m) 1 * one) N) 1 ∧ rq (m + rq (rq (w - m) 1 * one) N) 1 ≤ m := by
  have ho := one_pos
  have := mean_up (m := -m) (w := -w) (by rwa [Int.natAbs_neg]) (by rwa [Int.natAbs_neg]) (by omega) hN
  have e : -w - -m = -(w - m) := by omega
  rw [e, rq_neg _ (by omega), Int.neg_mul, rq_neg _ (by omega), ← Int.neg_add, rq_neg _ (by omega)] at this
  omega

/-- a finite double -/
structure Fin64 (x : F64) (z : Int) : Prop where
  is : Is x z
  rep : Rep z.natAbs
  lt : z.natAbs < limit

theorem Fin64.of_res {x : F64} {z : Int} {n : Nat} (hn : 0 < n) (h : Res x z n) (hl : (rq z n).natAbs < limit) :
    Fin64 x (rq z n) := ⟨h.is hl, rq_rep _ _ hn, hl⟩

theorem Fin64.of_wf {s : Bool} {m : Nat} (h : Wf (.fin s m)) : Fin64 (.fin s m) (signed s m) :=
  ⟨⟨s, m, rfl, rfl⟩, by rw [signed_natAbs]; exact h.1, by rw [signed_natAbs]; exact h.2⟩

/-- zero or above; not NaN -/
def NonNeg (x : F64) : Prop := x = .inf false ∨ ∃ z, Is x z ∧ 0 ≤ z

theorem NonNeg.le {x : F64} (h : NonNeg x) : F64.le zero x = true := by
  rcases h with rfl | ⟨z, hz, h⟩
  · rfl
  · exact (Is.le_iff ⟨false, 0, rfl, rfl⟩ hz).2 (by simpa [signed] using h)

theorem nonNeg_of_res {x : F64} {z : Int} {n : Nat} (h : Res x z n) (hz : 0 ≤ z) : NonNeg x := by
  unfold Res at h
  split at h
  · exact Or.inr ⟨_, h, rq_ge_zero n hz⟩
  · rw [decide_eq_false (by omega)] at h; exact Or.inl h

theorem NonNeg.add {x y : F64} (hx : NonNeg x) (hy : NonNeg y) : NonNeg (F64.add x y) := by
  rcases hx with rfl | ⟨z, hz, h1⟩
  · rcases hy with rfl | ⟨w, ⟨s, m, rfl, _⟩, h2⟩
    · exact Or.inl rfl
    · exact Or.inl rfl
  · rcases hy with rfl | ⟨w, hw, h2⟩
    · obtain ⟨s, m, rfl, _⟩ := hz
      exact Or.inl rfl
    · exact nonNeg_of_res (add_res hz hw) (by omega)

theorem natAbs_lt_of_between {a b c : Int} {L : Nat} (h1 : a ≤ b) (h2 : b ≤ c) (ha : a.natAbs < L) (hc : c.natAbs < L) :
    b.natAbs < L := by omega

/-- what the state looks like after some observations, all between `lo` and `hi` -/
structure Inv (lo hi : Int) (a : Acc F64) : Prop where
  mean : ∃ m, Fin64 a.mean m ∧ (if a.count = 0 then m = 0 else lo ≤ m ∧ m ≤ hi)
  ss : NonNeg a.ss

theorem inv_init (lo hi : Int) : Inv lo hi (Acc.init F64) :=
  ⟨⟨0, ⟨⟨false, 0, rfl, rfl⟩, rep_zero, limit_pos⟩, by rw [if_pos (by rfl)]⟩,
    Or.inr ⟨0, ⟨false, 0, rfl, rfl⟩, le_refl _⟩⟩

theorem inv_step {lo hi : Int} (hw : (rq (hi - lo) 1).natAbs < limit) {a : Acc F64} (h : Inv lo hi a)
    (hc : a.count.toNat + 1 < 2 ^ 64) {v : F64} {w : Int} (hv : Fin64 v w) (h1 : lo ≤ w) (h2 : w ≤ hi) :
    Inv lo hi (observe a v) := by
  obtain ⟨⟨m, hm, hmr⟩, hss⟩ := h
  have ho := one_pos
  have hct : (a.count + 1).toNat = a.count.toNat + 1 := by
    rw [BitVec.toNat_add]; exact Nat.mod_eq_of_lt hc
  have hc0 : ¬ (observe a v).count = 0 := by
    intro h0
    have : (a.count + 1).toNat = 0 := by
      rw [show a.count + 1 = (observe a v).count from rfl, h0]; rfl
    omega
  -- the difference is finite
  have hwd : ∀ D : Int, 0 ≤ D → D ≤ hi - lo → (rq D 1).natAbs < limit := by
    intro D h0 hD
    have e := rq_mono (x := D) (y := hi - lo) (m := 1) (n := 1) (by omega) (by omega) (by omega)
    have := rq_ge_zero 1 h0
    omega
  by_cases hz : a.count = 0
  · rw [if_pos hz] at hmr
    subst hmr
    -- first observation: the mean is the observation itself
    have hd : Fin64 (sub v a.mean) w := by
      have r := sub_res hv.is hm.is
      rw [Int.sub_zero] at r
      have e := rq_exact_one hv.rep
      have := Fin64.of_res (by omega) r (by rw [e]; exact hv.lt)
      rwa [e] at this
    have hN : cmag (a.count + 1) = one := by rw [hz]; exact cmag_one
    have hq : Fin64 (div (sub v a.mean) (ofU64 (a.count + 1))) w := by
      have r := div_res hd.is (ofU64_is (a.count + 1)) (by rw [hN]; omega) (ofU64_eq _)
      rw [hN] at r
      have e := rq_exact (n := one) ho hv.rep
      have := Fin64.of_res ho r (by rw [e]; exact hv.lt)
      rwa [e] at this
    have hm' : Fin64 (add a.mean (div (sub v a.mean) (ofU64 (a.count + 1)))) w := by
      have r := add_res hm.is hq.is
      rw [Int.zero_add] at r
      have e := rq_exact_one hv.rep
      have := Fin64.of_res (by omega) r (by rw [e]; exact hv.lt)
      rwa [e] at this
    have hd' : Is (sub v (add a.mean (div (sub v a.mean) (ofU64 (a.count + 1))))) 0 := by
      have r := sub_res hv.is hm'.is
      rw [Int.sub_self] at r
      have e := rq_zero 1 (by omega)
      have := r.is (by rw [e]; exact limit_pos)
      rwa [e] at this
    refine ⟨⟨w, hm', ?_⟩, ?_⟩
    · rw [if_neg hc0]; exact ⟨h1, h2⟩
    · apply hss.add
      have r := mul_res hd.is hd'
      exact nonNeg_of_res r (by rw [Int.mul_zero])
  · rw [if_neg hz] at hmr
    have hc2 : 2 ≤ (a.count + 1).toNat := by
      have : a.count.toNat ≠ 0 := fun h0 => hz (BitVec.eq_of_toNat_eq h0)
      omega
    have hN := cmag_le (c := a.count + 1) (k := 2) (by omega) hc2
    have hdl : (rq (w - m) 1).natAbs < limit := by
      rcases le_total m w with hle | hle
      · exact hwd _ (by omega) (by omega)
      · have := hwd (m - w) (by omega) (by omega)
        rw [show m - w = -(w - m) by omega, rq_neg _ (by omega), Int.natAbs_neg] at this
        exact this
    have hd := Fin64.of_res (by omega) (sub_res hv.is hm.is) hdl
    have r := div_res hd.is (ofU64_is (a.count + 1)) (by omega) (ofU64_eq _)
    have hql : (rq (rq (w - m) 1 * one) (cmag (a.count + 1))).natAbs < limit := by
      rcases le_total 0 (rq (w - m) 1) with hle | hle
      · have := quot_le' hle hd.rep (N := cmag (a.count + 1)) (by omega)
        omega
      · have := quot_le' (d := -rq (w - m) 1) (by omega) (by rw [Int.natAbs_neg]; exact hd.rep)
          (N := cmag (a.count + 1)) (by omega)
        rw [Int.neg_mul, rq_neg _ (by omega)] at this
        omega
    have hq := Fin64.of_res (by omega) r hql
    have r' := add_res hm.is hq.is
    rcases le_total m w with hle | hle
    · obtain ⟨b1, b2⟩ := mean_up hm.rep hv.rep hle hN
      have hm' := Fin64.of_res (by omega) r' (natAbs_lt_of_between b1 b2 hm.lt hv.lt)
      have hd' := Fin64.of_res (by omega) (sub_res hv.is hm'.is) (hwd _ (by omega) (by omega))
      refine ⟨⟨_, hm', ?_⟩, ?_⟩
      · rw [if_neg hc0]; omega
      · apply hss.add
        refine nonNeg_of_res (mul_res hd.is hd'.is) (mul_nonneg ?_ ?_)
        · exact rq_ge_zero _ (by omega)
        · exact rq_ge_zero _ (by omega)
    · obtain ⟨b1, b2⟩ := mean_down hm.rep hv.rep hle hN
      have hm' := Fin64.of_res (by omega) r' (natAbs_lt_of_between b1 b2 hv.lt hm.lt)
      have rd := sub_res hv.is hm'.is
      have neg : ∀ D : Int, D ≤ 0 → rq D 1 ≤ 0 := by
        intro D hD
        have := rq_ge_zero (z := -D) 1 (by omega)
        rw [rq_neg _ (by omega)] at this; omega
      have hd' := Fin64.of_res (by omega) rd (by
        have := hwd (-(w - rq (m + rq (rq (w - m) 1 * one) (cmag (a.count + 1))) 1)) (by omega) (by omega)
        rwa [rq_neg _ (by omega), Int.natAbs_neg] at this)
      refine ⟨⟨_, hm', ?_⟩, ?_⟩
      · rw [if_neg hc0]; omega
      · apply hss.add
        refine nonNeg_of_res (mul_res hd.is hd'.is) (mul_nonneg_of_nonpos_of_nonpos ?_ ?_)
        · exact neg _ (by omega)
        · exact neg _ (by omega)

theorem toNat_succ {c : U64} (h : c.toNat + 1 < 2 ^ 64) : (c + 1).toNat = c.toNat + 1 := by
  rw [BitVec.toNat_add, show (1 : U64).toNat = 1 from rfl]
  exact Nat.mod_eq_of_lt h

theorem count_foldl (xs : List F64) : ∀ (a : Acc F64), a.count.toNat + xs.length < 2 ^ 64 →
    (xs.foldl observe a).count.toNat = a.count.toNat + xs.length := by
  induction xs with
  | nil => intro a _; rfl
  | cons v xs ih =>
    intro a h
    rw [List.length_cons] at h
    have e : (observe a v).count.toNat = a.count.toNat + 1 := by
      rw [show (observe a v).count = a.count + 1 from rfl]
      exact toNat_succ (by omega)
    rw [List.foldl_cons, ih _ (by rw [e]; omega), e, List.length_cons]
    omega

theorem inv_foldl {lo hi : Int} (hw : (rq (hi - lo) 1).natAbs < limit) (xs : List F64) :
    ∀ (a : Acc F64), Inv lo hi a → a.count.toNat + xs.length < 2 ^ 64 →
    (∀ x ∈ xs, ∃ w, Fin64 x w ∧ lo ≤ w ∧ w ≤ hi) → Inv lo hi (xs.foldl observe a) := by
  induction xs with
  | nil => intro a h _ _; exact h
  | cons v xs ih =>
    intro a h hc hx
    rw [List.length_cons] at hc
    obtain ⟨w, hv, h1, h2⟩ := hx v (by simp)
    have e : (observe a v).count.toNat = a.count.toNat + 1 := by
      rw [show (observe a v).count = a.count + 1 from rfl]
      exact toNat_succ (by omega)
    rw [List.foldl_cons]
    exact ih _ (inv_step hw h (by omega) hv h1 h2) (by rw [e]; omega) (fun x hx' => hx x (by simp [hx']))

/-- dividing a non-negative number by `count - 1 ≥ 1` -/
theorem variance_nonneg {a : Acc F64} (hss : NonNeg a.ss) (h : 2 ≤ a.count.toNat) :
    NonNeg (div a.ss (ofU64 (a.count - 1))) := by
  have ho := one_pos
  have h1 : 1 ≤ (a.count - 1).toNat := by
    have := a.count.isLt
    rw [BitVec.toNat_sub]; simp; omega
  have hN := cmag_le (c := a.count - 1) (k := 1) (by omega) h1
  rcases hss with h | ⟨z, hz, h⟩
  · rw [h, ofU64_eq]; exact Or.inl rfl
  · exact nonNeg_of_res (div_res hz (ofU64_is _) (by omega) (ofU64_eq _)) (mul_nonneg h (by omega))

/-! ### exact sums -/

theorem Fin64.int {x : F64} {k : Int} (h : Is x (k * one)) (hk : k.natAbs ≤ 2 ^ 53) : Fin64 x (k * one) := by
  have e : (k * one).natAbs = k.natAbs * one := by rw [Int.natAbs_mul]; simp
  refine ⟨h, ?_, ?_⟩
  · rw [e, one_eq]; exact rep_of_mul hk
  · rw [e]
    refine Nat.lt_of_le_of_lt (Nat.mul_le_mul_right _ hk) ?_
    rw [one_eq, limit_eq, ← Nat.pow_add]
    exact Nat.pow_lt_pow_right (by omega) (by rw [expOne_eq, expLimit_eq]; omega)

/-- adding integers of magnitude up to 2^53 is exact -/
theorem add_int {x y : F64} {j k : Int} (hx : Is x (j * one)) (hy : Is y (k * one)) (h : (j + k).natAbs ≤ 2 ^ 53) :
    Is (add x y) ((j + k) * one) := by
  have r := add_res hx hy
  rw [← Int.add_mul] at r
  have e : ((j + k) * one).natAbs = (j + k).natAbs * one := by rw [Int.natAbs_mul]; simp
  have hrep : Rep ((j + k) * one).natAbs := by rw [e, one_eq]; exact rep_of_mul h
  have e1 := rq_exact_one hrep
  have := r.is (by
    rw [e1, e]
    refine Nat.lt_of_le_of_lt (Nat.mul_le_mul_right _ h) ?_
    rw [one_eq, limit_eq, ← Nat.pow_add]
    exact Nat.pow_lt_pow_right (by omega) (by rw [expOne_eq, expLimit_eq]; omega))
  rwa [e1] at this

theorem sum_foldl_int (ks : List Int) : ∀ (xs : List F64) (a : Acc F64) (j : Int), Is a.sum (j * one) →
    List.Forall₂ (fun x k => Is x (k * (one : Int))) xs ks →
    (∀ i, (j + (ks.take i).sum).natAbs ≤ 2 ^ 53) →
    Is (xs.foldl observe a).sum ((j + ks.sum) * one) := by
  induction ks with
  | nil =>
    intro xs a j hj hf _
    cases hf
    simpa using hj
  | cons k ks ih =>
    intro xs a j hj hf hb
    cases hf with
    | @cons x _ xs _ h1 h2 =>
      rw [List.foldl_cons, List.sum_cons, ← Int.add_assoc]
      apply ih _ _ (j + k)
      · exact add_int hj h1 (by have := hb 1; simpa using this)
      · exact h2
      · intro i
        have := hb (i + 1)
        rwa [List.take_succ_cons, List.sum_cons, ← Int.add_assoc] at this

/-! ### rounding error of the sum -/

/-- the error of rounding an integer number of units is at most 2^-53 of it -/
theorem rnd_err (n : Nat) : ((rnd n 1 : Int) - n).natAbs * 2 ^ 53 ≤ n := by
  have h1 := rhe_lo n (1 * 2 ^ shiftOf (n / 1)) (by rw [Nat.one_mul]; exact Nat.two_pow_pos _)
  have h2 := rhe_hi n (1 * 2 ^ shiftOf (n / 1)) (by rw [Nat.one_mul]; exact Nat.two_pow_pos _)
  have h3 := le_of_shiftOf n
  have hz : shiftOf n = 0 → rnd n 1 = n := by
    intro h0
    exact rnd_exact_one (by unfold Rep; rw [h0]; simp)
  rcases Nat.eq_zero_or_pos (shiftOf n) with h0 | h0
  · rw [hz h0]; simp
  · have h3 := h3 h0
    unfold rnd
    rw [Nat.div_one, Nat.one_mul] at *
    generalize hs : shiftOf n = s at *
    obtain ⟨t, rfl⟩ : ∃ t, s = t + 1 := ⟨s - 1, by omega⟩
    have e : 2 ^ (t + 1) = 2 * 2 ^ t := by ring
    have e' : 2 ^ (52 + (t + 1)) = 2 ^ 53 * 2 ^ t := by ring
    rw [e] at h1 h2 ⊢
    rw [e'] at h3
    generalize rhe n (2 * 2 ^ t) = r at *
    generalize 2 ^ t = P at *
    have e1 : (2 * r + 1) * (2 * P) = 2 * (r * (2 * P)) + 2 * P := by ring
    have e2 : 2 * r * (2 * P) = 2 * (r * (2 * P)) := by ring
    rw [e1] at h1; rw [e2] at h2
    generalize r * (2 * P) = R at *
    omega

theorem rq_err (z : Int) : |rq z 1 - z| * 2 ^ 53 ≤ |z| := by
  have := rnd_err z.natAbs
  rcases le_total 0 z with h | h
  · rw [rq_nonneg 1 h]
    zify at this
    rwa [abs_of_nonneg h] at *
  · have e : rq z 1 = -rq (-z) 1 := by rw [rq_neg _ (by omega)]; omega
    rw [e, rq_nonneg 1 (by omega), Int.natAbs_neg]
    zify at this
    rw [abs_of_nonpos h] at *
    rwa [show (-(rnd z.natAbs 1 : Int) - z) = -((rnd z.natAbs 1 : Int) - -z) by ring, abs_neg]

/-- an infinite or NaN sum stays so -/
theorem add_notFin {x y : F64} (h : ∀ z, ¬ Is x z) (z : Int) : ¬ Is (add x y) z := by
  cases x with
  | nan => rw [nan_add]; rintro ⟨s, m, e, _⟩; cases e
  | inf a =>
    cases y with
    | nan => rw [add_nan]; rintro ⟨s, m, e, _⟩; cases e
    | inf b =>
      rw [add]
      split <;> (rintro ⟨s, m, e, _⟩; cases e)
    | fin b n => rw [add]; rintro ⟨s, m, e, _⟩; cases e
  | fin s m => exact absurd ⟨s, m, rfl, rfl⟩ (h (signed s m))

theorem sum_foldl_notFin (xs : List F64) : ∀ (a : Acc F64), (∀ z, ¬ Is a.sum z) → ∀ z, ¬ Is (xs.foldl observe a).sum z := by
  induction xs with
  | nil => intro a h; exact h
  | cons x xs ih => intro a h; exact ih _ (add_notFin h)

theorem sum_foldl_err (zs : List Int) : ∀ (xs : List F64) (a : Acc F64) (t A : Int) (e : ℚ) (s : Int), Is a.sum s →
    |((s : ℚ) - t)| ≤ e * A → |t| ≤ A → 0 ≤ e → List.Forall₂ (fun x z => Is x z) xs zs →
    (∃ r, Is (xs.foldl observe a).sum r) →
    ∃ r, Is (xs.foldl observe a).sum r ∧
      |((r : ℚ) - (t + zs.sum : Int))| ≤ ((1 + e) * (1 + 1 / 2 ^ 53) ^ xs.length - 1) * ((A + (zs.map abs).sum : Int) : ℚ) := by
  induction zs with
  | nil =>
    intro xs a t A e s hs h1 h2 he hf _
    cases hf
    refine ⟨s, hs, ?_⟩
    simpa using h1
  | cons z zs ih =>
    intro xs a t A e s hs h1 h2 he hf hfin
    cases hf with
    | @cons x _ xs _ hx hf =>
      have r := add_res hs hx
      have hl : (rq (s + z) 1).natAbs < limit := by
        by_contra hl
        unfold Res at r
        rw [if_neg hl] at r
        obtain ⟨q, hq⟩ := hfin
        exact sum_foldl_notFin xs (observe a x) (by
          intro z' h'
          have e : (observe a x).sum = add a.sum x := rfl
          rw [e, r] at h'
          obtain ⟨_, _, e, _⟩ := h'
          cases e) q hq
      have hs' := r.is hl
      have herr := rq_err (s + z)
      have key : |((rq (s + z) 1 : Int) : ℚ) - ((t + z : Int) : ℚ)|
          ≤ ((1 + e) * (1 + 1 / 2 ^ 53) - 1) * ((A + |z| : Int) : ℚ) := by
        have herr' : |((rq (s + z) 1 : Int) : ℚ) - ((s + z : Int) : ℚ)| ≤ |((s + z : Int) : ℚ)| * (1 / 2 ^ 53) := by
          have : (|rq (s + z) 1 - (s + z)| * 2 ^ 53 : ℚ) ≤ |((s + z : Int) : ℚ)| := by exact_mod_cast herr
          push_cast at this ⊢
          linarith
        have hA : (0 : ℚ) ≤ A := by exact_mod_cast (abs_nonneg t).trans h2
        have ht : |(t : ℚ)| ≤ A := by exact_mod_cast h2
        have hz0 : (0 : ℚ) ≤ |(z : ℚ)| := abs_nonneg _
        have hsz : |((s + z : Int) : ℚ)| ≤ (1 + e) * (A + |(z : ℚ)|) := by
          push_cast
          have : (s : ℚ) + z = (s - t) + (t + z) := by ring
          rw [this]
          have a1 := abs_add_le ((s : ℚ) - t) (t + z)
          have a2 := abs_add_le (t : ℚ) z
          nlinarith [mul_nonneg he hz0]
        have tri : |((rq (s + z) 1 : Int) : ℚ) - ((t + z : Int) : ℚ)|
            ≤ |((rq (s + z) 1 : Int) : ℚ) - ((s + z : Int) : ℚ)| + |(s : ℚ) - t| := by
          have : ((rq (s + z) 1 : Int) : ℚ) - ((t + z : Int) : ℚ)
              = (((rq (s + z) 1 : Int) : ℚ) - ((s + z : Int) : ℚ)) + ((s : ℚ) - t) := by push_cast; ring
          rw [this]
          exact abs_add_le _ _
        push_cast at *
        have hez := mul_nonneg he hz0
        linarith
      obtain ⟨q, hq, hb⟩ := ih xs (observe a x) (t + z) (A + |z|) ((1 + e) * (1 + 1 / 2 ^ 53) - 1) (rq (s + z) 1) hs' key
        ((abs_add_le _ _).trans (by omega)) (by have : (0 : ℚ) ≤ 1 / 2 ^ 53 := by positivity
                                                nlinarith) hf hfin
      refine ⟨q, hq, ?_⟩
      rw [List.sum_cons, List.map_cons, List.sum_cons, List.length_cons, ← Int.add_assoc, ← Int.add_assoc]
      calc _ ≤ _ := hb
        _ = _ := by rw [pow_succ]; ring

/-! ### a constant stream -/

/-- after at least one observation of `w` and nothing else -/
structure Const (w : Int) (a : Acc F64) : Prop where
  mean : Is a.mean w
  ss : Is a.ss 0

theorem is_add_zero {x y : F64} {w : Int} (hx : Fin64 x w) (hy : Is y 0) : Is (add x y) w := by
  have r := add_res hx.is hy
  rw [Int.add_zero] at r
  have e := rq_exact_one hx.rep
  have := r.is (by rw [e]; exact hx.lt)
  rwa [e] at this

theorem is_mul_zero {x y : F64} {w : Int} (hx : Is x w) (hy : Is y 0) : Is (mul x y) 0 := by
  have r := mul_res hx hy
  rw [Int.mul_zero] at r
  have e := rq_zero one one_pos
  have := r.is (by rw [e]; exact limit_pos)
  rwa [e] at this

theorem is_sub_self {x y : F64} {w : Int} (hx : Is x w) (hy : Is y w) : Is (sub x y) 0 := by
  have r := sub_res hx hy
  rw [Int.sub_self] at r
  have e := rq_zero 1 (by omega)
  have := r.is (by rw [e]; exact limit_pos)
  rwa [e] at this

theorem const_first {v : F64} {w : Int} (hv : Fin64 v w) : Const w (observe (Acc.init F64) v) := by
  have hz : Is (Acc.init F64).mean 0 := ⟨false, 0, rfl, rfl⟩
  have hz' : Fin64 (Acc.init F64).mean 0 := ⟨hz, rep_zero, limit_pos⟩
  have e := rq_exact_one hv.rep
  have hd : Is (sub v (Acc.init F64).mean) w := by
    have r := sub_res hv.is hz
    rw [Int.sub_zero] at r
    have := r.is (by rw [e]; exact hv.lt)
    rwa [e] at this
  have hq : Is (div (sub v (Acc.init F64).mean) (ofU64 1#64)) w := by
    have r := div_res hd (ofU64_is 1#64) (by rw [cmag_one]; exact one_pos) (ofU64_eq _)
    rw [cmag_one] at r
    have e := rq_exact (n := one) one_pos hv.rep
    have := r.is (by rw [e]; exact hv.lt)
    rwa [e] at this
  have hm : Is (add (Acc.init F64).mean (div (sub v (Acc.init F64).mean) (ofU64 1#64))) w := by
    have r := add_res hz hq
    rw [Int.zero_add] at r
    have := r.is (by rw [e]; exact hv.lt)
    rwa [e] at this
  refine ⟨hm, ?_⟩
  exact is_add_zero (x := (Acc.init F64).ss) ⟨hz, rep_zero, limit_pos⟩ (is_mul_zero hd (is_sub_self hv.is hm))

theorem const_step {v : F64} {w : Int} (hv : Fin64 v w) {a : Acc F64} (h : Const w a)
    (hc : a.count.toNat + 1 < 2 ^ 64) : Const w (observe a v) := by
  have ho := one_pos
  have hd := is_sub_self hv.is h.mean
  have hct : (a.count + 1).toNat = a.count.toNat + 1 := by
    rw [BitVec.toNat_add]; exact Nat.mod_eq_of_lt hc
  have hN := cmag_le (c := a.count + 1) (k := 1) (by omega) (by omega)
  have hq : Is (div (sub v a.mean) (ofU64 (a.count + 1))) 0 := by
    have r := div_res hd (ofU64_is (a.count + 1)) (by omega) (ofU64_eq _)
    rw [Int.zero_mul] at r
    have e := rq_zero (cmag (a.count + 1)) (by omega)
    have := r.is (by rw [e]; exact limit_pos)
    rwa [e] at this
  have hm := is_add_zero ⟨h.mean, hv.rep, hv.lt⟩ hq
  refine ⟨hm, ?_⟩
  exact is_add_zero (x := a.ss) ⟨h.ss, rep_zero, limit_pos⟩ (is_mul_zero hd (is_sub_self hv.is hm))

theorem const_foldl {v : F64} {w : Int} (hv : Fin64 v w) (n : Nat) (h : n + 1 < 2 ^ 64) :
    Const w ((List.replicate (n + 1) v).foldl observe (Acc.init F64)) := by
  induction n with
  | zero => exact const_first hv
  | succ n ih =>
    have := ih (by omega)
    rw [List.replicate_succ', List.foldl_append, List.foldl_cons, List.foldl_nil]
    apply const_step hv this
    rw [count_foldl _ _ (by simp [Acc.init]; omega)]
    simp [Acc.init]; omega

/-! ### the buffer -/

/-- the values are doubles -/
structure WfAcc (a : Acc F64) : Prop where
  sum : Wf a.sum
  mean : Wf a.mean
  ss : Wf a.ss

theorem wf_load (b : Bytes) : WfAcc (load b) := ⟨wf_ofBits _, wf_ofBits _, wf_ofBits _⟩
theorem wf_observe (a : Acc F64) (v : F64) : WfAcc (observe a v) := ⟨wf_add, wf_add, wf_add⟩

theorem wf_foldl (vs : List F64) : ∀ a, WfAcc a → WfAcc (vs.foldl observe a) := by
  induction vs with
  | nil => intro a h; exact h
  | cons v vs ih => intro a _; exact ih _ (wf_observe a v)

theorem splice_append {α : Type} (p q r v : List α) (h : q.length = v.length) :
    splice (p ++ (q ++ r)) p.length v = p ++ (v ++ r) := by
  unfold splice
  rw [List.take_left', List.append_assoc, ← h, ← List.append_assoc p q r, List.drop_left'] <;> simp

/-- the first 32 bytes are the four words, the rest is untouched -/
theorem store_eq (b : Bytes) (a : Acc F64) (h : 32 ≤ b.length) :
    store b a = le64 a.count ++ (le64 (toBits a.sum) ++ (le64 (toBits a.mean) ++ (le64 (toBits a.ss) ++ b.drop 32))) := by
  have hb : b = b.take 8 ++ ((b.drop 8).take 8 ++ ((b.drop 16).take 8 ++ ((b.drop 24).take 8 ++ b.drop 32))) := by
    have e : ∀ n, (b.drop n).take 8 ++ b.drop (n + 8) = b.drop n := by
      intro n
      rw [← List.drop_drop, List.take_append_drop]
    rw [e 24, e 16, e 8, List.take_append_drop]
  have l0 : (b.take 8).length = 8 := by simp; omega
  have l1 : ((b.drop 8).take 8).length = 8 := by simp; omega
  have l2 : ((b.drop 16).take 8).length = 8 := by simp; omega
  have l3 : ((b.drop 24).take 8).length = 8 := by simp; omega
  unfold store
  generalize b.take 8 = b0 at *
  generalize (b.drop 8).take 8 = b1 at *
  generalize (b.drop 16).take 8 = b2 at *
  generalize (b.drop 24).take 8 = b3 at *
  generalize b.drop 32 = r at *
  clear h
  subst hb
  generalize hc : le64 a.count = c0
  generalize hs : le64 (toBits a.sum) = c1
  generalize hm : le64 (toBits a.mean) = c2
  generalize hq : le64 (toBits a.ss) = c3
  have k0 : c0.length = 8 := by rw [← hc]; simp
  have k1 : c1.length = 8 := by rw [← hs]; simp
  have k2 : c2.length = 8 := by rw [← hm]; simp
  have k3 : c3.length = 8 := by rw [← hq]; simp
  have s0 : splice (b0 ++ (b1 ++ (b2 ++ (b3 ++ r)))) 0 c0 = c0 ++ (b1 ++ (b2 ++ (b3 ++ r))) :=
    splice_append [] b0 _ c0 (by omega)
  have s1 : splice (c0 ++ (b1 ++ (b2 ++ (b3 ++ r)))) 8 c1 = c0 ++ (c1 ++ (b2 ++ (b3 ++ r))) := by
    have := splice_append c0 b1 (b2 ++ (b3 ++ r)) c1 (by omega)
    rwa [k0] at this
  have s2 : splice (c0 ++ (c1 ++ (b2 ++ (b3 ++ r)))) 16 c2 = c0 ++ (c1 ++ (c2 ++ (b3 ++ r))) := by
    have := splice_append (c0 ++ c1) b2 (b3 ++ r) c2 (by omega)
    rwa [List.length_append, k0, k1, List.append_assoc, List.append_assoc] at this
  have s3 : splice (c0 ++ (c1 ++ (c2 ++ (b3 ++ r)))) 24 c3 = c0 ++ (c1 ++ (c2 ++ (c3 ++ r))) := by
    have := splice_append (c0 ++ (c1 ++ c2)) b3 r c3 (by omega)
    simp only [List.length_append, k0, k1, k2, List.append_assoc] at this
    exact this
  rw [s0, s1, s2, s3]

theorem store_length (b : Bytes) (a : Acc F64) (h : 32 ≤ b.length) : (store b a).length = b.length := by
  rw [store_eq b a h]; simp; omega

theorem load_append (c s m q : U64) (r : Bytes) :
    load (le64 c ++ (le64 s ++ (le64 m ++ (le64 q ++ r)))) = ⟨c, ofBits s, ofBits m, ofBits q⟩ := by
  have d : ∀ (x : U64) (l : Bytes) (n : Nat), (le64 x ++ l).drop (8 + n) = l.drop n := by
    intro x l n
    rw [List.drop_append]; simp
  have t : ∀ (x : U64) (l : Bytes), (le64 x ++ l).take 8 = le64 x := by
    intro x l; exact List.take_left' (by simp)
  unfold load slice
  have d8 := d c (le64 s ++ (le64 m ++ (le64 q ++ r))) 0
  have d16 := (d c (le64 s ++ (le64 m ++ (le64 q ++ r))) 8).trans (d s _ 0)
  have d24 := ((d c (le64 s ++ (le64 m ++ (le64 q ++ r))) 16).trans (d s _ 8)).trans (d m _ 0)
  simp only [Nat.reduceAdd, List.drop_zero] at d8 d16 d24
  rw [d8, d16, d24]
  simp only [List.drop_zero, Nat.sub_zero, Nat.reduceSub, t, leU64_le64]

/-- writing the values and reading them back -/
theorem load_store (b : Bytes) (a : Acc F64) (h : 32 ≤ b.length) (hw : WfAcc a) : load (store b a) = a := by
  rw [store_eq b a h, load_append, ofBits_toBits hw.sum, ofBits_toBits hw.mean, ofBits_toBits hw.ss]

theorem store_store (b : Bytes) (a a' : Acc F64) (h : 32 ≤ b.length) : store (store b a) a' = store b a' := by
  rw [store_eq _ a' (by rw [store_length _ _ h]; exact h), store_eq b a h, store_eq b a' h]
  have : ∀ (c s m q : U64) (r : Bytes), (le64 c ++ (le64 s ++ (le64 m ++ (le64 q ++ r)))).drop 32 = r := by
    intro c s m q r
    have e : le64 c ++ (le64 s ++ (le64 m ++ (le64 q ++ r))) = (le64 c ++ le64 s ++ le64 m ++ le64 q) ++ r := by simp
    rw [e]; exact List.drop_left' (by simp)
  rw [this]

theorem load_reset (b : Bytes) (h : 32 ≤ b.length) : load (reset b) = Acc.init F64 := by
  unfold reset
  rw [show min size b.length = 32 by unfold size; omega]
  generalize b.drop size = r
  have : List.replicate 32 (0#8) ++ r = le64 0#64 ++ (le64 0#64 ++ (le64 0#64 ++ (le64 0#64 ++ r))) := by
    have : List.replicate 32 (0#8) = le64 0#64 ++ (le64 0#64 ++ (le64 0#64 ++ le64 0#64)) := by decide
    rw [this]; simp
  rw [this, load_append, ofBits_zero]
  rfl

theorem reset_length (b : Bytes) : (reset b).length = b.length := by
  unfold reset; simp; omega

theorem load_zero (r : Bytes) : load (new ++ r) = Acc.init F64 := by
  have : new ++ r = reset (new ++ r) := by
    unfold reset new
    rw [show min size (List.replicate size 0#8 ++ r).length = size by simp]
    rw [List.drop_left' (by simp)]
  rw [this]
  apply load_reset
  simp [new, size]

end Starbow.Stat64
