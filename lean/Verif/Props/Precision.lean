import Verif.Spec.Precision
import Verif.Props.HllEst
/-
Property theorems C89: what a greater precision of a distinct counter does.
-/
namespace Starbow.Props
open Starbow Starbow.Spec Starbow.Hll

theorem fnv1_lt64 (v : Bytes) : fnv1 (nats v) < 2 ^ 64 := by
  rw [← Fnv.sum64_toNat]; exact (Fnv.sum64 v).isLt

theorem fnvIndex_lt (p : Nat) (hp : p ≤ 64) (v : Bytes) : hllIndex p (fnv1 (nats v)) < 2 ^ p := by
  unfold hllIndex
  refine Nat.div_lt_of_lt_mul ?_
  rw [← Nat.pow_add, Nat.sub_add_cancel hp]
  exact fnv1_lt64 v

/-- every register is either empty or used -/
theorem empty_used (p : Nat) (hp : p ≤ 64) (vs : List Bytes) : emptyRegisters p (vs.map fun v => fnv1 (nats v)) + usedRegisters p vs = 2 ^ p := by
  obtain ⟨R, hR⟩ : ∃ R, R = (vs.map fun v => hllIndex p (fnv1 (nats v))).dedup := ⟨_, rfl⟩
  have hmem : ∀ i, i ∈ R ↔ ∃ v ∈ vs, hllIndex p (fnv1 (nats v)) = i := by
    intro i; rw [hR, List.mem_dedup, List.mem_map]
  have hnd : R.Nodup := by rw [hR]; exact List.nodup_dedup _
  have e1 : ((List.range (2 ^ p)).filter fun i => decide (i ∈ R)).length = R.length := by
    refine List.Perm.length_eq ((List.perm_ext_iff_of_nodup (List.nodup_range.filter _) hnd).2 ?_)
    intro i
    rw [List.mem_filter, List.mem_range, decide_eq_true_iff]
    refine ⟨fun h => h.2, fun h => ⟨?_, h⟩⟩
    obtain ⟨v, _, rfl⟩ := (hmem i).1 h
    exact fnvIndex_lt p hp v
  have e2 : emptyRegisters p (vs.map fun v => fnv1 (nats v)) = ((List.range (2 ^ p)).filter fun i => !decide (i ∈ R)).length := by
    unfold emptyRegisters
    congr 1
    refine List.filter_congr fun i _ => ?_
    rw [Bool.eq_iff_iff]
    simp only [List.all_eq_true, bne_iff_ne, Bool.not_eq_true', decide_eq_false_iff_not, hmem]
    constructor
    · rintro h ⟨v, hv, e⟩
      exact h _ (List.mem_map.2 ⟨v, hv, rfl⟩) e
    · rintro h x hx e
      obtain ⟨v, hv, rfl⟩ := List.mem_map.1 hx
      exact h ⟨v, hv, e⟩
  have e3 : usedRegisters p vs = R.length := by rw [usedRegisters, hR]
  rw [e2, e3, ← e1, ← List.countP_eq_length_filter, ← List.countP_eq_length_filter]
  have := List.length_eq_countP_add_countP (fun i => decide (i ∈ R)) (l := List.range (2 ^ p))
  rw [List.length_range] at this
  have h2 : (List.range (2 ^ p)).countP (fun a => decide ¬decide (a ∈ R) = true) = (List.range (2 ^ p)).countP fun i => !decide (i ∈ R) :=
    List.countP_congr fun i _ => by simp
  rw [h2] at this
  omega

/-- the values of a register of a greater precision are among those of one register of a smaller one -/
theorem hllIndex_coarse {p q : Nat} (hpq : p ≤ q) (hq : q ≤ 64) (h : Nat) : hllIndex p h = hllIndex q h / 2 ^ (q - p) := by
  unfold hllIndex
  rw [Nat.div_div_eq_div_mul, ← Nat.pow_add]
  congr 2
  omega

theorem dedup_length_le_of_map {α β γ : Type} [DecidableEq β] [DecidableEq γ] (l : List α) (f : α → β) (g : β → γ) :
    ((l.map fun x => g (f x)).dedup).length ≤ ((l.map f).dedup).length := by
  have h : ((l.map fun x => g (f x)).dedup) ⊆ ((l.map f).dedup).map g := by
    intro y hy
    rw [List.mem_dedup, List.mem_map] at hy
    obtain ⟨x, hx, rfl⟩ := hy
    exact List.mem_map.2 ⟨f x, List.mem_dedup.2 (List.mem_map.2 ⟨x, hx, rfl⟩), rfl⟩
  have := (List.nodup_dedup _).subperm h
  have := this.length_le
  rwa [List.length_map] at this

/-- **C89**, the registers: at a greater precision at least as many registers are used, and never more than there are different values. -/
theorem C89_registers (p q : Nat) (hpq : p ≤ q) (hq : q ≤ 64) (vs : List Bytes) : usedRegisters p vs ≤ usedRegisters q vs ∧ usedRegisters q vs ≤ distinct vs := by
  constructor
  · have := dedup_length_le_of_map vs (fun v => hllIndex q (fnv1 (nats v))) (fun i => i / 2 ^ (q - p))
    unfold usedRegisters
    rwa [List.map_congr_left fun v _ => hllIndex_coarse hpq hq (fnv1 (nats v))]
  · have := dedup_length_le_of_map vs id (fun v => hllIndex q (fnv1 (nats v)))
    rw [List.map_id] at this
    exact this

/-- `u ≤ m ln(m/(m-u)) ≤ u + u²/(m-u)` -/
theorem linear_bounds {m u : ℝ} (hu : 0 ≤ u) (hm : u < m) : u ≤ m * Real.log (m / (m - u)) ∧ m * Real.log (m / (m - u)) ≤ u + u * u / (m - u) := by
  have hd : 0 < m - u := by linarith
  have hm0 : 0 < m := by linarith
  have hx : 0 < m / (m - u) := by positivity
  constructor
  · have := Real.one_sub_inv_le_log_of_pos hx
    rw [inv_div] at this
    have := mul_le_mul_of_nonneg_left this hm0.le
    have e : m * (1 - (m - u) / m) = u := by field_simp; ring
    linarith
  · have := Real.log_le_sub_one_of_pos hx
    have := mul_le_mul_of_nonneg_left this hm0.le
    have e : m * (m / (m - u) - 1) = u + u * u / (m - u) := by field_simp; ring
    linarith

/-- **C89**, the estimate, partial: as long as linear counting applies, Count of a counter of precision `q` is at least the number of registers used at any smaller precision and
exceeds the number `u` of registers used at its own by at most `u²/(2^q - u)` (and what is lost in rounding up). So for values that select different registers at precision `p` it
is at least their number for every `q ≥ p`, and becomes exact up to one as `q` grows. Missing: values that share registers at every precision, see C89_precision_refuted. -/
theorem C89_estimate_partial (log : F64 → F64) (hl : LogOk log) (p : Nat) (q : Byte) (hpq : p ≤ q.toNat) (h4 : 4 ≤ q.toNat) (h18 : q.toNat ≤ 18) (vs : List Bytes)
    (hfree : usedRegisters q.toNat vs < 2 ^ q.toNat)
    (hT : ((usedRegisters q.toNat vs : ℝ) + (usedRegisters q.toNat vs : ℝ) ^ 2 / (2 ^ q.toNat - usedRegisters q.toNat vs)) * (1 + 1 / 2 ^ 33) ≤ linearThreshold q.toNat) :
    ∃ c0 c, ∃ n : Int, new q = .val c0 ∧ runHll c0 (vs.map some) = .val c ∧ count log c = .val n ∧
      (usedRegisters p vs : Int) ≤ n ∧ (usedRegisters q.toNat vs : Int) ≤ n ∧
      (n : ℝ) < (usedRegisters q.toNat vs + (usedRegisters q.toNat vs : ℝ) ^ 2 / (2 ^ q.toNat - usedRegisters q.toNat vs)) * (1 + 1 / 2 ^ 33) + 1 := by
  obtain ⟨hle, _⟩ := C89_registers p q.toNat hpq (by omega) vs
  have hsum := empty_used q.toNat (by omega) vs
  have hlive : live (vs.map some) = vs := by
    rw [live_eq]
    have : ∀ (xs acc : List Bytes), (xs.map some).foldl liveStep acc = acc ++ xs := by
      intro xs
      induction xs with
      | nil => intro acc; simp
      | cons x xs ih => intro acc; rw [List.map_cons, List.foldl_cons, ih]; simp [liveStep]
    simpa using this vs []
  generalize usedRegisters q.toNat vs = u at *
  have hm18 : 2 ^ q.toNat ≤ 2 ^ 18 := Nat.pow_le_pow_right (by omega) h18
  have hu : (u : ℝ) < 2 ^ q.toNat := by exact_mod_cast hfree
  have he : (emptyRegisters q.toNat (vs.map fun v => fnv1 (nats v)) : ℝ) = 2 ^ q.toNat - u := by
    have : emptyRegisters q.toNat (vs.map fun v => fnv1 (nats v)) = 2 ^ q.toNat - u := by omega
    rw [this, Nat.cast_sub hfree.le]; push_cast; rfl
  have hlin : linearEstimate q.toNat (emptyRegisters q.toNat (vs.map fun v => fnv1 (nats v))) = 2 ^ q.toNat * Real.log (2 ^ q.toNat / (2 ^ q.toNat - u)) := by
    rw [linearEstimate, he]
  obtain ⟨b1, b2⟩ := linear_bounds (m := 2 ^ q.toNat) (u := u) (by positivity) hu
  rw [← pow_two] at b2
  rw [← hlin] at b1 b2
  have h33 : (0 : ℝ) ≤ 1 + 1 / 2 ^ 33 := by positivity
  obtain ⟨c0, c, n, g0, g, g1, g2, g3⟩ := C14_linear_partial log hl q h4 h18 (vs.map some) (by rw [hlive]; omega) (by
    rw [hlive]
    exact le_trans (mul_le_mul_of_nonneg_right b2 h33) hT)
  rw [hlive] at g2 g3
  have hun : (u : Int) ≤ n := by
    have h1 : (u : ℝ) * (1 - 1 / 2 ^ 33) ≤ n := le_trans (mul_le_mul_of_nonneg_right b1 (by norm_num)) g2
    have h2 : (u : ℝ) ≤ 262144 := by
      have : u ≤ 262144 := by omega
      exact_mod_cast this
    have h3 : ((u : Int) : ℝ) < (n + 1 : Int) := by
      push_cast
      norm_num at h1
      linarith
    have := (Int.cast_lt (R := ℝ)).1 h3
    omega
  exact ⟨c0, c, n, g0, g, g1, by omega, hun, lt_of_lt_of_le g3 (by linarith [mul_le_mul_of_nonneg_right b2 h33])⟩

/-- **C89** fails: any number of values that differ only in their last byte are counted as 2, at every precision. -/
theorem C89_last_byte_refuted (log : F64 → F64) (hl : LogOk log) (p : Byte) (h4 : 4 ≤ p.toNat) (h18 : p.toNat ≤ 18) (pre : Bytes) (xs : List Byte) (hx : xs ≠ []) :
    ∃ c0 c, new p = .val c0 ∧ runHll c0 (xs.map fun x => some (pre ++ [x])) = .val c ∧ count log c = .val 2 := by
  have hused : usedRegisters p.toNat (xs.map fun x => pre ++ [x]) = 1 := by
    obtain ⟨x0, hx0⟩ := List.exists_mem_of_ne_nil xs hx
    have e : ((xs.map fun x => pre ++ [x]).map fun v => hllIndex p.toNat (fnv1 (nats v))).dedup = [hllIndex p.toNat (fnv1 (nats (pre ++ [x0])))] := by
      have hall : ∀ i ∈ ((xs.map fun x => pre ++ [x]).map fun v => hllIndex p.toNat (fnv1 (nats v))).dedup, i = hllIndex p.toNat (fnv1 (nats (pre ++ [x0]))) := by
        intro i hi
        rw [List.mem_dedup, List.map_map, List.mem_map] at hi
        obtain ⟨x, _, rfl⟩ := hi
        exact index_last_byte p.toNat h18 pre x x0
      refine List.perm_singleton.1 ((List.perm_ext_iff_of_nodup (List.nodup_dedup _) (by simp)).2 ?_)
      intro i
      rw [List.mem_singleton]
      refine ⟨hall i, ?_⟩
      rintro rfl
      rw [List.mem_dedup, List.map_map]
      exact List.mem_map.2 ⟨x0, hx0, rfl⟩
    rw [usedRegisters, e]; rfl
  have hpow : 2 ^ 4 ≤ 2 ^ p.toNat := Nat.pow_le_pow_right (by omega) h4
  have hT := (threshold_eq p h4 h18).2.1
  have hT' : (10 : ℝ) ≤ (linearThreshold p.toNat : ℝ) := by exact_mod_cast hT
  have hm : (16 : ℝ) ≤ 2 ^ p.toNat := by exact_mod_cast hpow
  have hlive : live (xs.map fun x => some (pre ++ [x])) = xs.map fun x => pre ++ [x] := by
    rw [live_eq]
    have : ∀ (xs : List Byte) (acc : List Bytes), (xs.map fun x => some (pre ++ [x])).foldl
        liveStep acc = acc ++ xs.map fun x => pre ++ [x] := by
      intro xs
      induction xs with
      | nil => intro acc; simp
      | cons x xs ih => intro acc; rw [List.map_cons, List.foldl_cons, ih]; simp [liveStep]
    simpa using this xs []
  have he : emptyRegisters p.toNat ((live (xs.map fun x => some (pre ++ [x]))).map fun v => fnv1 (nats v)) = 2 ^ p.toNat - 1 := by
    have := empty_used p.toNat (by omega) (xs.map fun x => pre ++ [x])
    rw [hlive]; omega
  obtain ⟨b1, b2⟩ := linearEstimate_one h4 h18
  obtain ⟨c0, c, n, g0, g, g1, g2, g3⟩ := C14_linear_partial log hl p h4 h18 (xs.map fun x => some (pre ++ [x])) (by rw [he]; omega) (by
    rw [he]; refine le_trans ?_ hT'; norm_num at *; linarith)
  rw [he] at g2 g3
  have : n = 2 := by
    have h1 : (1 : ℝ) < n := by refine lt_of_lt_of_le ?_ g2; norm_num at *; linarith
    have h2 : (n : ℝ) < 3 := by refine lt_of_lt_of_le g3 ?_; norm_num at *; linarith
    have h1' : 1 < n := by exact_mod_cast h1
    have h2' : n < 3 := by exact_mod_cast h2
    omega
  rw [this] at g1
  exact ⟨c0, c, g0, g, g1⟩

end Starbow.Props
