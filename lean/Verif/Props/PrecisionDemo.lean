import Verif.Props.Precision
import Verif.Props.ReadmeFacts
/-
Property theorem C89 on the example of README.md.
-/
namespace Starbow.Props
open Starbow Starbow.Spec Starbow.Hll

/-- the registers of a counter of precision 18 that the codes of the airports of the United States select -/
def usRegisters18 : List Nat := [9910, 9926, 16972, 16988, 17015, 17095, 25709, 25788, 25815, 25856, 84238, 94398, 94438, 94507, 94549, 94629, 101691, 110344, 121036, 128316, 128368, 128396, 128409, 128425, 128520, 128697, 154747, 154763, 154858, 154870, 154937, 154938, 154951, 159779, 165670, 167507, 172679, 172773, 172827, 172963, 173019, 183072, 183097, 183260, 190729, 198990, 199001, 199003, 199017, 199042, 199058, 199069, 199070, 199084, 199085, 199097, 199098, 199126, 199137, 199138, 199139, 199152, 199153, 199165, 199167, 199178, 199194, 199205, 199221, 199233, 199246, 199247, 199262, 199273, 199275, 199289, 199301, 199328, 199329, 199330, 199341, 199357, 199477, 199493, 199505, 199506, 199545, 199561, 202523, 203938, 211191, 211719, 221092, 221387, 221427, 221495, 221522, 221529, 221550, 221579, 221618, 222666, 227584, 227691, 227732, 227760, 234809, 243421, 243501, 243652, 261417, 261446]

theorem us_registers18 : (usAirports.all fun a => usRegisters18.elem (hllIndex 18 (fnv1 (nats a.code)))) = true ∧ usRegisters18.length = 112 := by decide +kernel

theorem us_used18 : usedRegisters 18 (usAirports.map Airport.code) ≤ 112 := by
  have h : ((usAirports.map Airport.code).map fun v => hllIndex 18 (fnv1 (nats v))).dedup ⊆ usRegisters18 := by
    intro i hi
    rw [List.mem_dedup, List.map_map, List.mem_map] at hi
    obtain ⟨a, ha, rfl⟩ := hi
    exact List.elem_iff.1 (List.all_eq_true.1 us_registers18.1 a ha)
  rw [← us_registers18.2]
  exact ((List.nodup_dedup _).subperm h).length_le

theorem threshold_900 {p : Nat} (h10 : 10 ≤ p) (h18 : p ≤ 18) : 900 ≤ linearThreshold p := by
  interval_cases p <;> decide

/-- a counter of precision 10 to 18 that uses at most 112 registers counts at most 127 -/
theorem used_count (log : F64 → F64) (hl : LogOk log) (p : Byte) (h10 : 10 ≤ p.toNat) (h18 : p.toNat ≤ 18) (vs : List Bytes) (hu : usedRegisters 18 vs ≤ 112) :
    ∃ c0 c, ∃ n : Int, new p = .val c0 ∧ runHll c0 (vs.map some) = .val c ∧ count log c = .val n ∧ n ≤ 127 := by
  have hle := (C89_registers p.toNat 18 h18 (by decide) vs).1
  have hm : 2 ^ 10 ≤ 2 ^ p.toNat := Nat.pow_le_pow_right (by omega) h10
  have hm' : (1024 : ℝ) ≤ 2 ^ p.toNat := by exact_mod_cast hm
  have hT : (900 : ℝ) ≤ linearThreshold p.toNat := by exact_mod_cast threshold_900 h10 h18
  have hu' : (usedRegisters p.toNat vs : ℝ) ≤ 112 := by exact_mod_cast hle.trans hu
  have hu0 : (0 : ℝ) ≤ usedRegisters p.toNat vs := by positivity
  have hb : (usedRegisters p.toNat vs : ℝ) + (usedRegisters p.toNat vs : ℝ) ^ 2 / (2 ^ p.toNat - usedRegisters p.toNat vs) ≤ 112 + 14 := by
    refine add_le_add hu' ?_
    rw [div_le_iff₀ (by linarith)]
    nlinarith
  obtain ⟨c0, c, n, g0, g, g1, _, _, g3⟩ := C89_estimate_partial log hl p.toNat p le_rfl (by omega) h18 vs (by omega) (by
    refine le_trans (mul_le_mul_of_nonneg_right hb (by norm_num)) (le_trans ?_ hT)
    norm_num)
  refine ⟨c0, c, n, g0, g, g1, ?_⟩
  have h1 : (n : ℝ) < 128 := by
    have := mul_le_mul_of_nonneg_right hb (show (0 : ℝ) ≤ 1 + 1 / 2 ^ 33 by positivity)
    norm_num at this g3
    linarith
  have : n < 128 := by exact_mod_cast h1
  omega

/-- **C89** fails on the example of README.md: the 1315 airports of the United States in misc/airports.sh have 1315 different codes, and counters of every precision from 10 (the
program's) to 18 (the greatest) count them as at most 127. -/
theorem C89_precision_refuted (log : F64 → F64) (hl : LogOk log) (p : Byte) (h10 : 10 ≤ p.toNat) (h18 : p.toNat ≤ 18) :
    distinct (usAirports.map Airport.code) = 1315 ∧
    ∃ c0 c, ∃ n : Int, new p = .val c0 ∧ runHll c0 ((usAirports.map Airport.code).map some) = .val c ∧ count log c = .val n ∧ n ≤ 127 := by
  refine ⟨?_, used_count log hl p h10 h18 _ us_used18⟩
  unfold distinct
  rw [us_codes.dedup, List.length_map, us_length]

/-- instance of C89_estimate_partial: two codes that select different registers at precision 4 are counted as 2 or 3 at every precision -/
theorem two_codes (log : F64 → F64) (hl : LogOk log) (q : Byte) (h4 : 4 ≤ q.toNat) (h18 : q.toNat ≤ 18) :
    ∃ c0 c, ∃ n : Int, new q = .val c0 ∧ runHll c0 ([asc "LFBF", asc "EGLL"].map some) = .val c ∧ count log c = .val n ∧ 2 ≤ n ∧ n ≤ 3 := by
  have h2 : usedRegisters 4 [asc "LFBF", asc "EGLL"] = 2 := by decide +kernel
  obtain ⟨a1, a2⟩ := C89_registers 4 q.toNat h4 (by omega) [asc "LFBF", asc "EGLL"]
  have hd : distinct [asc "LFBF", asc "EGLL"] = 2 := by decide +kernel
  have hq : usedRegisters q.toNat [asc "LFBF", asc "EGLL"] = 2 := by omega
  have hm : 2 ^ 4 ≤ 2 ^ q.toNat := Nat.pow_le_pow_right (by omega) h4
  have hm' : (16 : ℝ) ≤ 2 ^ q.toNat := by exact_mod_cast hm
  have hT := (threshold_eq q h4 h18).2.1
  have hT' : (10 : ℝ) ≤ (linearThreshold q.toNat : ℝ) := by exact_mod_cast hT
  have hb : ((2 : ℕ) : ℝ) + ((2 : ℕ) : ℝ) ^ 2 / (2 ^ q.toNat - ((2 : ℕ) : ℝ)) ≤ 2 + 2 / 7 := by
    refine add_le_add (by norm_num) ?_
    rw [div_le_iff₀ (by norm_num; linarith)]
    norm_num
    linarith
  obtain ⟨c0, c, n, g0, g, g1, g2, _, g3⟩ := C89_estimate_partial log hl 4 q h4 h4 h18 [asc "LFBF", asc "EGLL"] (by omega) (by
    rw [hq]
    refine le_trans (mul_le_mul_of_nonneg_right hb (by norm_num)) (le_trans ?_ hT')
    norm_num)
  rw [h2] at g2
  rw [hq] at g3
  refine ⟨c0, c, n, g0, g, g1, g2, ?_⟩
  have h1 : (n : ℝ) < 4 := by
    have := mul_le_mul_of_nonneg_right hb (show (0 : ℝ) ≤ 1 + 1 / 2 ^ 33 by positivity)
    norm_num at this g3
    linarith
  have : n < 4 := by exact_mod_cast h1
  omega

end Starbow.Props
