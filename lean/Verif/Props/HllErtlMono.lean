import Verif.Props.HllErtl
import Verif.Proof.HllStep
/-
Property theorems C56 for `PoissonCount`: Ertl's estimate never drops when a value is added, and neither does `PoissonCount`, rounding
included.
-/
namespace Starbow.Props
open Starbow Starbow.Spec Starbow.Hll

/-- the sum with the differences of `u`, summed by parts -/
theorem by_parts (u : Nat → ℝ) (q : Nat) : ((List.range q).map fun k => (u (k + 1) - u k) / 2 ^ (k + 1)).sum
    = ((List.range q).map fun k => u k / 2 ^ (k + 1)).sum + u q / 2 ^ q - u 0 := by
  induction q with
  | zero => simp
  | succ q ih =>
    rw [List.range_succ, List.map_append, List.sum_append, List.map_append, List.sum_append, ih]
    simp only [List.map_cons, List.map_nil, List.sum_cons, List.sum_nil, add_zero]
    rw [pow_succ]
    field_simp
    ring

theorem registersUpTo_zero (p : Nat) (hs : List Nat) : registersUpTo p hs 0 = registersWith p hs 0 := by
  rw [← upTo_eq, ← exactly_eq, upTo_zero]

theorem registersUpTo_next (p : Nat) (hs : List Nat) (R : Nat) : registersUpTo p hs (R + 1) = registersUpTo p hs R + registersWith p hs (R + 1) := by
  rw [← upTo_eq, ← upTo_eq, ← exactly_eq, upTo_next]

theorem registersUpTo_top {p : Nat} (h18 : p ≤ 18) (hs : List Nat) : registersUpTo p hs (64 - p + 1) = 2 ^ p := by
  unfold registersUpTo
  rw [List.filter_eq_self.2, List.length_range]
  intro i _
  rw [decide_eq_true_eq]
  unfold hllRegister
  rcases foldl_max_mem (hs.map fun h => if hllIndex p h = i then hllRank p h else 0) 0 with h | h
  · omega
  · obtain ⟨x, _, e⟩ := List.mem_map.1 h
    rw [← e]
    have := hllRank_bounds p x
    split <;> omega

/-- the denominator in terms of how many registers hold at most `k` -/
theorem ertlSum_upTo {p : Nat} (h18 : p ≤ 18) (hs : List Nat) : ertlSum p hs
    = 2 ^ p * (ertlSigma (registersUpTo p hs 0 / 2 ^ p) - registersUpTo p hs 0 / 2 ^ p)
      + ((List.range (64 - p)).map fun k => (registersUpTo p hs k : ℝ) / 2 ^ (k + 1)).sum
      + 2 ^ p / 2 ^ (64 - p) * (registersUpTo p hs (64 - p) / 2 ^ p + ertlTau (registersUpTo p hs (64 - p) / 2 ^ p)) := by
  have hm : (2 : ℝ) ^ p ≠ 0 := by positivity
  have hq : (1 : ℝ) - registersWith p hs (64 - p + 1) / 2 ^ p = registersUpTo p hs (64 - p) / 2 ^ p := by
    have := registersUpTo_next p hs (64 - p)
    rw [registersUpTo_top h18] at this
    have e : ((2 ^ p : Nat) : ℝ) = registersUpTo p hs (64 - p) + registersWith p hs (64 - p + 1) := by exact_mod_cast this
    push_cast at e
    rw [eq_div_iff hm, sub_mul, div_mul_cancel₀ _ hm]
    linarith
  have hk : ((List.range (64 - p)).map fun k => (registersWith p hs (k + 1) : ℝ) / 2 ^ (k + 1))
      = (List.range (64 - p)).map fun k => ((registersUpTo p hs (k + 1) : ℝ) - registersUpTo p hs k) / 2 ^ (k + 1) := by
    apply List.map_congr_left
    intro k _
    rw [registersUpTo_next]; push_cast; ring
  unfold ertlSum
  rw [hq, hk, by_parts (fun k => (registersUpTo p hs k : ℝ)), ← registersUpTo_zero]
  field_simp
  ring

/-- adding a value to a counter that holds one does not raise the denominator -/
theorem ertlSum_snoc {p : Nat} (h18 : p ≤ 18) (hs : List Nat) (x : Nat) (h0 : registersWith p hs 0 < 2 ^ p) :
    ertlSum p (hs ++ [x]) ≤ ertlSum p hs := by
  have hm : (0 : ℝ) < 2 ^ p := by positivity
  have hU : ∀ R, (registersUpTo p (hs ++ [x]) R : ℝ) ≤ registersUpTo p hs R := fun R => by exact_mod_cast registersUpTo_snoc p hs x R
  have hlt : (registersUpTo p hs 0 : ℝ) / 2 ^ p < 1 := by
    rw [div_lt_one hm, registersUpTo_zero]; exact_mod_cast h0
  have hle : (registersUpTo p hs (64 - p) : ℝ) / 2 ^ p ≤ 1 := by
    rw [div_le_one hm]; exact_mod_cast registersUpTo_le p hs _
  rw [ertlSum_upTo h18, ertlSum_upTo h18]
  refine add_le_add (add_le_add ?_ ?_) ?_
  · exact mul_le_mul_of_nonneg_left (sigma_mono (by positivity) (div_le_div_of_nonneg_right (hU 0) hm.le) hlt) hm.le
  · apply List.sum_le_sum
    intro k _
    exact div_le_div_of_nonneg_right (hU k) (by positivity)
  · exact mul_le_mul_of_nonneg_left (tau_mono (by positivity) (div_le_div_of_nonneg_right (hU _) hm.le) hle) (by positivity)

theorem hllIndex_lt {p : Nat} (h : p ≤ 64) {x : Nat} (hx : x < 2 ^ 64) : hllIndex p x < 2 ^ p := by
  unfold hllIndex
  rw [Nat.div_lt_iff_lt_mul (Nat.two_pow_pos _), ← Nat.pow_add, show p + (64 - p) = 64 by omega]
  exact hx

/-- the denominator on a counter that holds a value does not grow -/
theorem poisson_snoc {c c' : Counter} {hs : List Nat} {x : Nat} (hpp : c'.p = c.p) (hr : Regs c (regsOf c.p.toNat hs))
    (hr' : Regs c' (regsOf c.p.toNat (hs ++ [x]))) (h0 : registersWith c.p.toNat hs 0 < 2 ^ c.p.toNat) (hx : x < 2 ^ 64) :
    ∃ Z Z', poisson c = .val (.fin false Z) ∧ poisson c' = .val (.fin false Z') ∧ Z' ≤ Z := by
  have h18 := hr.wf.p18
  refine poisson_step hr.wf hr'.wf hpp (regs_field hr) (regs_field (hs := hs ++ [x]) (by rw [hpp]; exact hr')) (by rw [exactly_eq]; exact h0)
    (i₀ := hllIndex c.p.toNat x) (hllIndex_lt (by omega) hx) ?_ ?_ ?_
  · intro j hj
    rw [hpp, hllRegister_append, if_neg (fun h => hj h.symm), Nat.max_eq_left (Nat.zero_le _)]
  · rw [hpp]; exact hllRegister_grows _ _ _ _
  · rw [hpp]
    unfold hllRegister
    rcases foldl_max_mem ((hs ++ [x]).map fun h => if hllIndex c.p.toNat h = hllIndex c.p.toNat x then hllRank c.p.toNat h else 0) 0 with h | h
    · omega
    · obtain ⟨y, _, e⟩ := List.mem_map.1 h
      rw [← e]
      have := hllRank_bounds c.p.toNat y
      split <;> omega

/-- **C56**, for `PoissonCount`: adding a value never lowers it, as long as the estimate after the Add stays below `2^62`. -/
theorem C56_poisson_partial (p : Byte) (h4 : 4 ≤ p.toNat) (h18 : p.toNat ≤ 18) (h : AddHist) (v : Bytes)
    (hS : 0 < ertlSum p.toNat ((live (h ++ [some v])).map fun v => fnv1 (nats v)))
    (hroom : ertlEstimate p.toNat ((live (h ++ [some v])).map fun v => fnv1 (nats v)) ≤ 2 ^ 62) :
    ∃ c0 c c', ∃ n n' : Int, new p = .val c0 ∧ runHll c0 h = .val c ∧ runHll c0 (h ++ [some v]) = .val c' ∧
      poissonCount c = .val n ∧ poissonCount c' = .val n' ∧ n ≤ n' := by
  by_cases hne : live h = []
  · obtain ⟨c0, c, e0, e, g⟩ := C69_empty p h4 h18 h hne
    obtain ⟨c1, c', n', e1, e', g', k, _⟩ := C69_used_partial p h4 h18 (h ++ [some v]) (by rw [live_snoc]; simp) hS hroom
    rw [e0] at e1
    have e1 := Out.val.inj e1
    subst e1
    refine ⟨c0, c, c', 0, n', e0, e, e', g, g', ?_⟩
    have hk : 0 ≤ usedAlpha p.toNat * (2 ^ p.toNat) ^ 2 / ertlSum p.toNat ((live (h ++ [some v])).map fun v => fnv1 (nats v)) := by
      have := (used_close h4 h18).1
      positivity
    have : (0 : ℝ) ≤ n' := le_trans (mul_nonneg hk (by norm_num)) k
    exact_mod_cast this
  · obtain ⟨x, hx⟩ := List.exists_mem_of_ne_nil _ hne
    have hz : registersWith p.toNat (hashes (live h)) 0 < 2 ^ p.toNat :=
      registersWith_zero_lt (by omega) (x := fnv1 (nats x)) (List.mem_map.2 ⟨x, hx, rfl⟩) (by
        rw [← Fnv.sum64_toNat]; exact (Fnv.sum64 x).isLt)
    obtain ⟨c0, c, c', e0, e, e', hp, hp', hr, hr'⟩ := before_after p h4 h18 h v
    have hs' : (live (h ++ [some v])).map (fun v => fnv1 (nats v)) = hashes (live h) ++ [fnv1 (nats v)] := by
      rw [live_snoc, List.map_append]; rfl
    rw [hs'] at hS hroom
    subst hp
    obtain ⟨Z, Z', eZ, eZ', hle⟩ := poisson_snoc hp' hr hr' hz (by rw [← Fnv.sum64_toNat]; exact (Fnv.sum64 v).isLt)
    obtain ⟨A, W, hA, hrep, h34, eW, hW⟩ := poisson_room (hs := hashes (live h) ++ [fnv1 (nats v)]) (by rw [hp']; exact hr')
      (by rw [hp']; refine Nat.lt_of_le_of_lt ?_ hz; rw [← registersUpTo_zero, ← registersUpTo_zero]; exact registersUpTo_snoc _ _ _ _)
      (by rw [hp']; exact hS) (by rw [hp']; exact hroom)
    rw [eZ'] at eW
    injection eW with eW; injection eW with _ eW
    subst eW
    obtain ⟨hpos, hest', _⟩ := estimate_is hr'.wf hA hrep h34 hW
    obtain ⟨_, hest, _⟩ := estimate_is (c := c) hr.wf (by rw [← hp']; exact hA) hrep h34 (by
      rw [← hp']; exact Nat.le_trans hW (Nat.mul_le_mul_right _ hle))
    refine ⟨c0, c, c', (est A c.p.toNat Z : Nat), (est A c'.p.toNat Z' : Nat), e0, e, e', ?_, ?_, ?_⟩
    · unfold poissonCount
      rw [eZ, Out.bind_val, hest]
      rfl
    · unfold poissonCount
      rw [eZ', Out.bind_val, hest']
      rfl
    · rw [hp']
      exact_mod_cast est_anti hpos hle

/-- **C56**, for `Count` in the Poisson regime: beyond linear counting, and while the sum of `2^-M` (an empty register counting one
half) stays above the limit `α m / 7` after the Add, adding a value does not lower `Count`. -/
theorem C56_count_poisson_partial (log : F64 → F64) (hl : LogOk log) (p : Byte) (h4 : 4 ≤ p.toNat) (h18 : p.toNat ≤ 18) (h : AddHist) (v : Bytes)
    (hbeyond : emptyRegisters p.toNat ((live h).map fun v => fnv1 (nats v)) = 0 ∨ linearThreshold p.toNat
      < linearEstimate p.toNat (emptyRegisters p.toNat ((live h).map fun v => fnv1 (nats v))) * (1 - 1 / 2 ^ 33))
    (hlarge : countLimit p.toNat * (1 + 1 / 2 ^ 30) ≤ countedSum p.toNat ((live (h ++ [some v])).map fun v => fnv1 (nats v)))
    (hS : 0 < ertlSum p.toNat ((live (h ++ [some v])).map fun v => fnv1 (nats v)))
    (hroom : ertlEstimate p.toNat ((live (h ++ [some v])).map fun v => fnv1 (nats v)) ≤ 2 ^ 62) :
    ∃ c0 c c', ∃ n n' : Int, new p = .val c0 ∧ runHll c0 h = .val c ∧ runHll c0 (h ++ [some v]) = .val c' ∧
      count log c = .val n ∧ count log c' = .val n' ∧ n ≤ n' := by
  obtain ⟨c0, c, c', n, n', e0, e, e', g, g', hle⟩ := C56_poisson_partial p h4 h18 h v hS hroom
  refine ⟨c0, c, c', n, n', e0, e, e', ?_, ?_, hle⟩
  · obtain ⟨c1, d, f0, f, hp, hr⟩ := runHll_fresh p h4 h18 h
    rw [e0] at f0
    have f0 := Out.val.inj f0
    subst f0
    rw [e] at f
    have f := Out.val.inj f
    subst f
    have hlarge1 : countLimit p.toNat * (1 + 1 / 2 ^ 30) ≤ countedSum p.toNat (hashes (live h)) := by
      refine le_trans hlarge ?_
      rw [live_snoc, List.map_append]
      exact countedSum_snoc _ _ _
    rw [count_is_large hl hp hr hbeyond, countLarge_poisson (hs := hashes (live h)) (by rw [hp]; exact hr) (by rw [hp]; exact hlarge1)]
    exact g
  · obtain ⟨c1, d, f0, f, hp, hr⟩ := runHll_fresh p h4 h18 (h ++ [some v])
    rw [e0] at f0
    have f0 := Out.val.inj f0
    subst f0
    rw [e'] at f
    have f := Out.val.inj f
    subst f
    have hb := beyond_snoc v hbeyond
    have hs' : hashes (live (h ++ [some v])) = hashes (live h) ++ [fnv1 (nats v)] := by
      unfold hashes
      rw [live_snoc, List.map_append]; rfl
    rw [← hs'] at hb
    rw [count_is_large hl hp hr hb, countLarge_poisson (hs := hashes (live (h ++ [some v]))) (by rw [hp]; exact hr) (by rw [hp]; exact hlarge)]
    exact g'

/-- a second city on a counter of precision 9 meets the hypotheses -/
example : 0 < ertlSum 9 ((live ([some (asc "Paris")] ++ [some (asc "Rome")])).map fun v => fnv1 (nats v)) ∧
    ertlEstimate 9 ((live ([some (asc "Paris")] ++ [some (asc "Rome")])).map fun v => fnv1 (nats v)) ≤ 2 ^ 62 :=
  ertl_room (by omega) (by decide +kernel)

/-- eight of the values of `full16` and a ninth one meet those of `C56_count_poisson_partial` (for the first hypothesis see the last
example of `Props/HllErtl`) -/
example : countLimit 4 * (1 + 1 / 2 ^ 30) ≤ countedSum 4 ((live (full16.take 8 ++ [some (asc "34000")])).map fun v => fnv1 (nats v)) ∧
    0 < ertlSum 4 ((live (full16.take 8 ++ [some (asc "34000")])).map fun v => fnv1 (nats v)) ∧
    ertlEstimate 4 ((live (full16.take 8 ++ [some (asc "34000")])).map fun v => fnv1 (nats v)) ≤ 2 ^ 62 := by
  refine ⟨?_, ertl_room (by omega) (by decide +kernel)⟩
  have e : (List.range (2 ^ 4)).map (hllRegister 4 ((live (full16.take 8 ++ [some (asc "34000")])).map fun v => fnv1 (nats v)))
      = [4, 4, 5, 4, 4, 6, 5, 4, 4, 0, 0, 0, 0, 0, 0, 0] := by decide +kernel
  rw [countedSum_map, e]
  norm_num [countLimit, usedAlpha, usedNum, usedDen, alphaNum, alphaDen]

end Starbow.Props
