import Verif.Proof.BloomEst
/-
Property theorems C60 (bits set by Add) and C61 (Count).
-/
namespace Starbow.Props
open Starbow.Spec Starbow.Bloom Starbow.Hll

/-! ### C60: the bits a value sets -/

/-- **C60**, which bits are set: for every filter with `m ≥ 1` bits and `k` hash functions and every history, bit `x` is set exactly if
one of the live values selects it by double hashing, and `CountN(1)` is their number. -/
theorem C60_bits (m : Nat) (k : Byte) (hm : 1 ≤ m) (hf : m + 7 < 2 ^ 63) (h : AddHist) :
    ∃ b0 b, newBits (m : Int) k = .val b0 ∧ runBloom b0 h = .val b ∧
      (∀ x < m, ∃ g, Bitbucket.get b.bits (x : Int) = .val g ∧
        (g = 1#8 ↔ ∃ v ∈ live h, ∃ i < k.toNat, bloomPosition m v i = x)) ∧
      Bitbucket.countN b.bits 1#8 = .val (bloomBits m k.toNat (live h)).length := by
  obtain ⟨b0, b, e0, e, hk, hb⟩ := run_holds m k hm hf h
  refine ⟨b0, b, e0, e, ?_, by rw [hb.countN, hk]⟩
  intro x hx
  obtain ⟨g, hg1, hg2⟩ := get1_eq hb.wf.bits hb.wf.w (x := x) (by rw [hb.wf.n, hb.bm]; omega)
  refine ⟨g, hg1, ?_⟩
  rw [hg2, hb.bit x hx, hk]

/-- **C60**: one value never sets more than `k` bits. -/
theorem C60_at_most_k (m : Nat) (k : Byte) (hm : 1 ≤ m) (hf : m + 7 < 2 ^ 63) (v : Bytes) :
    ∃ b0 b n, newBits (m : Int) k = .val b0 ∧ add b0 v = .val b ∧ Bitbucket.countN b.bits 1#8 = .val n ∧ n ≤ k.toNat := by
  obtain ⟨b0, b, e0, e, hk, hb⟩ := run_holds m k hm hf [some v]
  refine ⟨b0, b, _, e0, ?_, hb.countN, ?_⟩
  · cases ha : add b0 v with
    | panic => simp [runBloom, ha] at e
    | val b' => simpa [runBloom, ha] using e
  · rw [hk]; exact bloomBits_single_le hm _ v

/-- **C60**, where it holds: if the number of bits (made even) is a power of two, every value sets `k` distinct bits (or all of them). -/
theorem C60_distinct_partial (m j : Nat) (k : Byte) (hf : m + 7 < 2 ^ 63) (hr : bloomRange m = 2 ^ j) (v : Bytes) :
    ∃ b0 b, newBits (m : Int) k = .val b0 ∧ add b0 v = .val b ∧ Bitbucket.countN b.bits 1#8 = .val (min k.toNat (2 ^ j)) := by
  have hm : 1 ≤ m := by
    by_contra h0
    have h0 : m = 0 := by omega
    subst h0
    have := Nat.two_pow_pos j
    rw [← hr] at this
    simp [bloomRange] at this
  have hj : j ≤ 64 := by
    by_contra hj
    have h1 : 2 ^ 64 ≤ 2 ^ j := Nat.pow_le_pow_right (by omega) (by omega)
    have := (bloomRange_bounds hm).2
    omega
  obtain ⟨b0, b, e0, e, hk, hb⟩ := run_holds m k hm hf [some v]
  refine ⟨b0, b, e0, ?_, ?_⟩
  · cases ha : add b0 v with
    | panic => simp [runBloom, ha] at e
    | val b' => simpa [runBloom, ha] using e
  · rw [hb.countN, hk]
    have : live [some v] = [v] := rfl
    rw [this, bloomBits_pow hm hr hj]

/-- **C60 is false in general**: the stride is made odd, which is not enough when the number of bits is not a power of two. In a filter of
6 bits with 3 hash functions, "a" sets only 2 bits. -/
theorem C60_refuted : ∃ b0 b, newBits 6 3#8 = .val b0 ∧ add b0 (asc "a") = .val b ∧ Bitbucket.countN b.bits 1#8 = .val 2 := by
  obtain ⟨b0, b, e0, e, hk, hb⟩ := run_holds 6 3#8 (by omega) (by omega) [some (asc "a")]
  refine ⟨b0, b, e0, ?_, ?_⟩
  · cases ha : add b0 (asc "a") with
    | panic => simp [runBloom, ha] at e
    | val b' => simpa [runBloom, ha] using e
  · rw [hb.countN, hk]
    decide +kernel

/-- **C60**, unused bit: when the number of bits is odd and at least 3, no history sets the last one. -/
theorem C60_last_bit_unused (m : Nat) (k : Byte) (hodd : m % 2 = 1) (h3 : 3 ≤ m) (hf : m + 7 < 2 ^ 63) (h : AddHist) :
    ∃ b0 b g, newBits (m : Int) k = .val b0 ∧ runBloom b0 h = .val b ∧
      Bitbucket.get b.bits ((m - 1 : Nat) : Int) = .val g ∧ g ≠ 1#8 := by
  obtain ⟨b0, b, e0, e, h1, _⟩ := C60_bits m k (by omega) hf h
  obtain ⟨g, hg, hg'⟩ := h1 (m - 1) (by omega)
  refine ⟨b0, b, g, e0, e, hg, fun hc => ?_⟩
  obtain ⟨v, _, i, _, hp⟩ := hg'.1 hc
  have := bloomPosition_lt (m := m) (by omega) v i
  rw [hp, bloomRange, if_pos ⟨hodd, by omega⟩] at this
  omega

example : bloomRange 1024 = 2 ^ 10 ∧ bloomRange 1025 = 2 ^ 10 ∧ min (7#8).toNat (2 ^ 10) = 7 := by decide
example : (bloomBits 16 3 [asc "a", asc "b"]).length = 6 ∧ bloomBits 6 3 [asc "a"] = [0, 1] := by decide +kernel

/-! ### C61: Count -/

/-- **C61**: for every history that leaves some but not all bits set, Count is `m/k ln(m/(m-x))` for the `x` bits set, up to a small
rounding error, rounded up; in particular it is not negative. -/
theorem C61_estimate_partial (lib : MathLib) (hl : LogOk lib.log) (m : Nat) (k : Byte) (hm : m ≤ 2 ^ 36) (hk : 1 ≤ k.toNat) (h : AddHist)
    (hx1 : 1 ≤ (bloomBits m k.toNat (live h)).length) (hxm : (bloomBits m k.toNat (live h)).length < m) :
    ∃ b0 b, ∃ e : ℝ, newBits (m : Int) k = .val b0 ∧ runBloom b0 h = .val b ∧ count lib b = .val ((⌈e⌉₊ : Nat) : Int) ∧
      |e - itemsFor m k.toNat (bloomBits m k.toNat (live h)).length| ≤
        (m : ℝ) ^ 2 / (k.toNat * ((m : ℝ) - (bloomBits m k.toNat (live h)).length)) / 2 ^ 50 +
          itemsFor m k.toNat (bloomBits m k.toNat (live h)).length / 2 ^ 48 := by
  obtain ⟨b0, b, e0, e, hbk, hb⟩ := run_holds m k (by omega) (by omega) h
  obtain ⟨r, rr, hr, hr2⟩ := items_bound hl hm hx1 hxm hk (by have := k.isLt; omega)
  refine ⟨b0, b, r, e0, e, ?_, hr⟩
  rw [hb.count_eq, hbk, ceil_int rr hr2]

/-- **C61**, first half: a filter to which nothing was added (or that was reset) counts 0. -/
theorem C61_empty (lib : MathLib) (hl : LogOk lib.log) (m : Nat) (k : Byte) (hm1 : 1 ≤ m) (hm : m ≤ 2 ^ 53) (hk : 1 ≤ k.toNat)
    (h : AddHist) (he : live h = []) :
    ∃ b0 b, newBits (m : Int) k = .val b0 ∧ runBloom b0 h = .val b ∧ count lib b = .val 0 := by
  obtain ⟨b0, b, e0, e, hbk, hb⟩ := run_holds m k hm1 (by omega) h
  refine ⟨b0, b, e0, e, ?_⟩
  have hx : bloomBits m k.toNat (live h) = [] := by
    rw [he]; apply List.eq_nil_iff_forall_not_mem.2
    intro x hx
    obtain ⟨_, v, hv, _⟩ := mem_bloomBits.1 hx
    simp at hv
  rw [hb.count_eq, hbk, hx, List.length_nil, count_none hl hm1 hm hk (by have := k.isLt; omega)]

theorem log_one_plus {t : ℝ} (ht : 1 < t) : 1 + 1 / (2 * t) ≤ t * Real.log (t / (t - 1)) := by
  -- log((1+y)/(1-y)) ≥ 2y with y = 1/(2t-1)
  have h1 : (0 : ℝ) < t - 1 := by linarith
  set y : ℝ := 1 / (2 * t - 1) with hy
  have h2t : (0 : ℝ) < 2 * t - 1 := by linarith
  have h2n : 2 * t - 1 ≠ 0 := h2t.ne'
  have h1n : t - 1 ≠ 0 := h1.ne'
  have hy0 : 0 < y := by positivity
  have hy1 : y < 1 := by rw [hy, div_lt_one h2t]; linarith
  have hs := Real.hasSum_log_sub_log_of_abs_lt_one (x := y) (by rw [abs_of_pos hy0]; exact hy1)
  have hge : 2 * y ≤ Real.log (1 + y) - Real.log (1 - y) := by
    have := sum_le_hasSum {0} (fun i _ => by positivity) hs
    simpa using this
  have e : Real.log (t / (t - 1)) = Real.log (1 + y) - Real.log (1 - y) := by
    rw [← Real.log_div (by linarith) (by linarith)]
    congr 1
    have : (1 + y) = 2 * t / (2 * t - 1) := by rw [hy]; field_simp; ring
    have h' : (1 - y) = 2 * (t - 1) / (2 * t - 1) := by rw [hy]; field_simp; ring
    rw [this, h', div_div_div_cancel_right₀ h2n, mul_div_mul_left _ _ two_ne_zero]
  rw [e]
  have h3 : 1 + 1 / (2 * t) ≤ t * (2 * y) := by
    have : t * (2 * y) = 1 + 1 / (2 * t - 1) := by
      rw [hy, mul_one_div, mul_div_assoc', div_eq_iff h2n, add_mul, div_mul_cancel₀ _ h2n]; ring
    rw [this]
    have := one_div_le_one_div_of_le h2t (by linarith : 2 * t - 1 ≤ 2 * t)
    linarith
  exact le_trans h3 (mul_le_mul_of_nonneg_left hge (by linarith))

theorem log_upper {t : ℝ} (ht : 4 ≤ t) : t * Real.log (t / (t - 1)) ≤ 4 / 3 := by
  have h1 : (0 : ℝ) < t - 1 := by linarith
  have h2 : Real.log (t / (t - 1)) ≤ t / (t - 1) - 1 := Real.log_le_sub_one_of_pos (by positivity)
  have h3 : t / (t - 1) - 1 = 1 / (t - 1) := by field_simp; ring
  rw [h3] at h2
  calc t * Real.log (t / (t - 1)) ≤ t * (1 / (t - 1)) := mul_le_mul_of_nonneg_left h2 (by linarith)
    _ ≤ 4 / 3 := by rw [mul_one_div, div_le_div_iff₀ h1 (by norm_num)]; linarith

set_option maxHeartbeats 1000000 in
/-- **C61, how the estimate is off**: after a single Add, Count is 2, not 1, in every filter whose (even) number of bits is a power of two
between `4k` and `2^20 k`. -/
theorem C61_single_is_two (lib : MathLib) (hl : LogOk lib.log) (m j : Nat) (k : Byte) (hk : 1 ≤ k.toNat) (hr : bloomRange m = 2 ^ j)
    (h4 : 4 * k.toNat ≤ m) (h20 : m ≤ 2 ^ 20 * k.toNat) (v : Bytes) :
    ∃ b0 b, newBits (m : Int) k = .val b0 ∧ add b0 v = .val b ∧ count lib b = .val 2 := by
  have hk8 : k.toNat ≤ 255 := by have := k.isLt; omega
  have hj : j ≤ 64 := by
    by_contra hj
    have h1 : 2 ^ 64 ≤ 2 ^ j := Nat.pow_le_pow_right (by omega) (by omega)
    have := (bloomRange_bounds (m := m) (by omega)).2
    omega
  have hx : (bloomBits m k.toNat (live [some v])).length = k.toNat := by
    show (bloomBits m k.toNat [v]).length = _
    rw [bloomBits_pow (by omega) hr hj, Nat.min_eq_left]
    rw [← hr, bloomRange]; split <;> omega
  obtain ⟨b0, b, e, e0, e1, e2, e3⟩ := C61_estimate_partial lib hl m k (by omega) hk [some v] (by omega) (by omega)
  refine ⟨b0, b, e0, ?_, ?_⟩
  · cases ha : add b0 v with
    | panic => simp [runBloom, ha] at e1
    | val b' => simpa [runBloom, ha] using e1
  · rw [hx] at e3
    rw [e2]
    have hK : (1 : ℝ) ≤ k.toNat := by exact_mod_cast hk
    have hM4 : (4 : ℝ) * k.toNat ≤ m := by exact_mod_cast h4
    have hM20 : (m : ℝ) ≤ 2 ^ 20 * k.toNat := by exact_mod_cast h20
    have : ⌈e⌉₊ = 2 := by
      have hi : itemsFor m k.toNat k.toNat = (m : ℝ) / k.toNat * Real.log ((m : ℝ) / k.toNat / ((m : ℝ) / k.toNat - 1)) := by
        unfold itemsFor
        have hK0 : (k.toNat : ℝ) ≠ 0 := by linarith
        rw [div_sub_one hK0, div_div_div_cancel_right₀ hK0]
      have he : (m : ℝ) ^ 2 / (k.toNat * ((m : ℝ) - k.toNat)) = (m : ℝ) / k.toNat * ((m : ℝ) / k.toNat / ((m : ℝ) / k.toNat - 1)) := by
        have hK0 : (k.toNat : ℝ) ≠ 0 := by linarith
        rw [div_sub_one hK0, div_div_div_cancel_right₀ hK0, div_mul_div_comm, pow_two]
      rw [hi, he] at e3
      have ht4 : 4 ≤ (m : ℝ) / k.toNat := by rw [le_div_iff₀ (by linarith)]; exact hM4
      have ht20 : (m : ℝ) / k.toNat ≤ 2 ^ 20 := by rw [div_le_iff₀ (by linarith)]; exact hM20
      generalize (m : ℝ) / k.toNat = t at *
      clear * - e3 ht4 ht20
      have l1 := log_one_plus (t := t) (by linarith)
      have l2 := log_upper ht4
      have hq : t / (t - 1) ≤ 4 / 3 := by rw [div_le_div_iff₀ (by linarith) (by norm_num)]; linarith
      have hq2 : t * (t / (t - 1)) ≤ 2 ^ 20 * (4 / 3) := mul_le_mul ht20 hq (div_nonneg (by linarith) (by linarith)) (by positivity)
      have hinv : 1 / 2 ^ 21 ≤ 1 / (2 * t) := one_div_le_one_div_of_le (by linarith) (by norm_num at ht20 ⊢; linarith)
      generalize t * Real.log (t / (t - 1)) = L at *
      generalize t * (t / (t - 1)) = q at *
      generalize 1 / (2 * t) = w at *
      have h1 : 1 < e ∧ e ≤ 2 := by
        clear ht4 ht20 hq
        rw [abs_le] at e3
        norm_num at *
        constructor <;> linarith [e3.1, e3.2]
      apply Nat.le_antisymm
      · exact Nat.ceil_le.2 (by exact_mod_cast h1.2)
      · exact Nat.lt_ceil.2 (by exact_mod_cast h1.1)
    rw [this]; rfl

/-- the value Count computes from `x` set bits out of `m` -/
def countFrom (log : F64 → F64) (m k x : Nat) : Int :=
  F64.toInt64 (F64.ceil (F64.div (F64.mul (F64.neg (log (F64.sub (F64.ofNat 1)
    (F64.div (F64.ofInt (x : Int)) (F64.ofInt (m : Int)))))) (F64.ofInt (m : Int))) (F64.ofNat k)))

theorem items_nonneg {m k x : Nat} (hx : x < m) : 0 ≤ itemsFor m k x := by
  unfold itemsFor
  have h1 : (x : ℝ) < m := by exact_mod_cast hx
  apply mul_nonneg (by positivity)
  apply Real.log_nonneg
  rw [le_div_iff₀ (by linarith)]
  have : (0 : ℝ) ≤ x := by positivity
  linarith

theorem items_le {m k x : Nat} (hm : m ≤ 2 ^ 36) (hx : x < m) (hk : 1 ≤ k) : itemsFor m k x ≤ (m : ℝ) / k * 25 := by
  unfold itemsFor
  have h1 : (x : ℝ) + 1 ≤ m := by exact_mod_cast hx
  have h0 : (0 : ℝ) ≤ x := by positivity
  have hM : (m : ℝ) ≤ 2 ^ 36 := by exact_mod_cast hm
  apply mul_le_mul_of_nonneg_left _ (by positivity)
  have h2 : (m : ℝ) / (m - x) ≤ 2 ^ 36 := by
    rw [div_le_iff₀ (by linarith)]; nlinarith
  calc Real.log ((m : ℝ) / (m - x)) ≤ Real.log (2 ^ 36) := Real.log_le_log (div_pos (by linarith) (by linarith)) h2
    _ = 36 * Real.log 2 := by rw [Real.log_pow]; norm_num
    _ ≤ 25 := by have := Real.log_two_lt_d9; linarith

theorem items_gain {m k x : Nat} (hx : x + 1 < m) (hk : 1 ≤ k) :
    itemsFor m k x + (m : ℝ) / k * (1 / ((m : ℝ) - x)) ≤ itemsFor m k (x + 1) := by
  unfold itemsFor
  have h1 : (x : ℝ) + 2 ≤ m := by exact_mod_cast hx
  have h0 : (0 : ℝ) ≤ x := by positivity
  rw [← mul_add]
  apply mul_le_mul_of_nonneg_left _ (by positivity)
  push_cast
  rw [Real.log_div (by linarith) (by linarith), Real.log_div (by linarith) (by linarith)]
  have h2 : Real.log (((m : ℝ) - (x + 1)) / (m - x)) ≤ ((m : ℝ) - (x + 1)) / (m - x) - 1 :=
    Real.log_le_sub_one_of_pos (div_pos (by linarith) (by linarith))
  rw [Real.log_div (by linarith) (by linarith)] at h2
  have h3 : ((m : ℝ) - (x + 1)) / (m - x) - 1 = -(1 / ((m : ℝ) - x)) := by
    have : (m : ℝ) - x ≠ 0 := by linarith
    rw [div_sub_one this, ← neg_div]; congr 1; ring
  linarith

set_option maxHeartbeats 1000000 in
theorem countFrom_step {log : F64 → F64} (hl : LogOk log) {m k x : Nat} (hm : m ≤ 2 ^ 36) (hk : 1 ≤ k) (hk8 : k ≤ 255)
    (hx : x + 1 < m) : countFrom log m k x ≤ countFrom log m k (x + 1) := by
  obtain ⟨e', re', he', he2'⟩ := items_bound hl hm (show 1 ≤ x + 1 by omega) hx hk hk8
  have c' : countFrom log m k (x + 1) = (⌈e'⌉₊ : Int) := ceil_int re' he2'
  rcases Nat.eq_zero_or_pos x with rfl | h0
  · have c0 : countFrom log m k 0 = 0 := count_none hl (by omega) (by omega) hk hk8
    rw [c0, c']; omega
  · obtain ⟨e, re, he, he2⟩ := items_bound hl hm h0 (by omega) hk hk8
    have c : countFrom log m k x = (⌈e⌉₊ : Int) := ceil_int re he2
    rw [c, c']
    have hee : e ≤ e' := by
      have g := items_gain hx hk
      have l0 := items_le (k := k) hm (show x < m by omega) hk
      have l1 := items_le (k := k) hm hx hk
      have hM : (m : ℝ) ≤ 2 ^ 36 := by exact_mod_cast hm
      have hX : (x : ℝ) + 2 ≤ m := by exact_mod_cast hx
      have hX0 : (1 : ℝ) ≤ x := by exact_mod_cast h0
      have hK : (1 : ℝ) ≤ k := by exact_mod_cast hk
      push_cast at he'
      generalize itemsFor m k x = A at *
      generalize itemsFor m k (x + 1) = B at *
      generalize (m : ℝ) = M at *
      generalize (k : ℝ) = K at *
      generalize (x : ℝ) = X at *
      clear * - he he' g l0 l1 hM hX hX0 hK
      have hc0 : 0 < M / K := div_pos (by linarith) (by linarith)
      have hs0 : 0 < 1 / (M - X) := one_div_pos.2 (by linarith)
      have e1 : M ^ 2 / (K * (M - X)) = M / K * (1 / (M - X)) * M := by
        have h1 : K ≠ 0 := by linarith
        have h2 : M - X ≠ 0 := by linarith
        field_simp
      have e2 : M ^ 2 / (K * (M - (X + 1))) ≤ M / K * (1 / (M - X)) * (2 * M) := by
        have h1 : K ≠ 0 := by linarith
        have h2 : M - (X + 1) ≠ 0 := by linarith
        have : 1 / (M - (X + 1)) ≤ 1 / (M - X) * 2 := by
          rw [one_div_mul_eq_div, div_le_div_iff₀ (by linarith) (by linarith)]; linarith
        calc M ^ 2 / (K * (M - (X + 1))) = M / K * M * (1 / (M - (X + 1))) := by field_simp
          _ ≤ M / K * M * (1 / (M - X) * 2) := mul_le_mul_of_nonneg_left this (mul_nonneg hc0.le (by linarith))
          _ = _ := by ring
      have e3 : M / K ≤ M / K * (1 / (M - X)) * M := by
        rw [mul_assoc, one_div_mul_eq_div]
        apply le_mul_of_one_le_right hc0.le
        rw [one_le_div (by linarith)]; linarith
      rw [e1] at he
      have hP0 : 0 < M / K * (1 / (M - X)) := mul_pos hc0 hs0
      generalize M ^ 2 / (K * (M - (X + 1))) = R at *
      generalize M / K * (1 / (M - X)) = P at *
      have e4 : P * M ≤ P * 2 ^ 36 := mul_le_mul_of_nonneg_left hM hP0.le
      have e5 : P * (2 * M) = 2 * (P * M) := by ring
      rw [e5] at e2
      generalize P * M = T at *
      generalize M / K = C at *
      rw [abs_le] at he he'
      have h1 := he.2
      have h2 := he'.1
      clear * - h1 h2 g l0 l1 e2 e3 e4 hP0
      norm_num at *
      linarith
    have := Nat.ceil_mono hee
    omega

theorem countFrom_mono {log : F64 → F64} (hl : LogOk log) {m k x y : Nat} (hm : m ≤ 2 ^ 36) (hk : 1 ≤ k) (hk8 : k ≤ 255)
    (hxy : x ≤ y) (hy : y < m) : countFrom log m k x ≤ countFrom log m k y := by
  induction y, hxy using Nat.le_induction with
  | base => exact Int.le_refl _
  | succ y hxy ih => exact Int.le_trans (ih (by omega)) (countFrom_step hl hm hk hk8 hy)

/-- **C61**, where it holds: adding values never lowers Count, and it is never negative, as long as some bit is still clear. -/
theorem C61_monotone_partial (lib : MathLib) (hl : LogOk lib.log) (m : Nat) (k : Byte) (hm : m ≤ 2 ^ 36) (hk : 1 ≤ k.toNat)
    (h h' : AddHist) (hsub : ∀ v ∈ live h, v ∈ live h') (hfull : (bloomBits m k.toNat (live h')).length < m) :
    ∃ b0 b b', ∃ c c' : Int, newBits (m : Int) k = .val b0 ∧ runBloom b0 h = .val b ∧ runBloom b0 h' = .val b' ∧
      count lib b = .val c ∧ count lib b' = .val c' ∧ 0 ≤ c ∧ c ≤ c' := by
  have hk8 : k.toNat ≤ 255 := by have := k.isLt; omega
  obtain ⟨b0, b, e0, e, hbk, hb⟩ := run_holds m k (by omega) (by omega) h
  obtain ⟨b0', b', e0', e', hbk', hb'⟩ := run_holds m k (by omega) (by omega) h'
  rw [e0] at e0'
  have e0' := Out.val.inj e0'
  subst e0'
  have hle := bloomBits_mono (m := m) (k := k.toNat) hsub
  refine ⟨b0, b, b', countFrom lib.log m k.toNat (bloomBits m k.toNat (live h)).length,
    countFrom lib.log m k.toNat (bloomBits m k.toNat (live h')).length, e0, e, e', ?_, ?_, ?_, ?_⟩
  · rw [hb.count_eq, hbk]; rfl
  · rw [hb'.count_eq, hbk']; rfl
  · have := countFrom_mono hl (x := 0) hm hk hk8 (Nat.zero_le _) (Nat.lt_of_le_of_lt hle hfull)
    rwa [show countFrom lib.log m k.toNat 0 = 0 from count_none hl (by omega) (by omega) hk hk8] at this
  · exact countFrom_mono hl hm hk hk8 hle hfull

/-- **C61 is false for a full filter**: once every bit is set, `ln(0)` is minus infinity and Count returns the smallest integer. (The
conversion of infinity to int64 is left open by Go; this is what amd64 gives.) -/
theorem C61_full_refuted (lib : MathLib) (h0 : lib.log F64.zero = .inf true) (m : Nat) (k : Byte) (hm1 : 1 ≤ m) (hm : m ≤ 2 ^ 53)
    (h : AddHist) (hfull : (bloomBits m k.toNat (live h)).length = m) :
    ∃ b0 b, newBits (m : Int) k = .val b0 ∧ runBloom b0 h = .val b ∧ count lib b = .val (-2 ^ 63) ∧ ∀ v, has b v = .val true := by
  obtain ⟨b0, b, e0, e, hbk, hb⟩ := run_holds m k hm1 (by omega) h
  refine ⟨b0, b, e0, e, ?_, fun v => ?_⟩
  · rw [hb.count_eq, hbk, hfull, count_all h0 hm1 hm (by have := k.isLt; omega)]
  · rw [hb.has v, hbk, decide_eq_true]
    intro i _
    have hall : bloomBits m k.toNat (live h) = List.range m :=
      (List.filter_sublist (l := List.range m)).eq_of_length (by rw [List.length_range]; exact hfull)
    rw [hall, List.mem_range]
    exact Nat.lt_of_lt_of_le (bloomPosition_lt hm1 v i) (bloomRange_bounds hm1).2

/-- a concrete full filter, and one that is neither empty nor full -/
example : (bloomBits 2 2 (live [some (asc "a")])).length = 2 ∧ (bloomBits 64 4 (live [some (asc "a"), none, some (asc "b")])).length = 4 := by
  decide +kernel
example : bloomRange 64 = 2 ^ 6 ∧ 4 * (4#8).toNat ≤ 64 := by decide

end Starbow.Props
