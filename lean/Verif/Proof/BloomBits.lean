import Verif.Model.BloomEst
import Verif.Spec.Bloom
import Verif.Proof.Fnv
import Verif.Props.Bloom
import Mathlib.Data.Nat.ModEq
/-
Which bits a bloom filter holds, in terms of the specification of the positions.
-/
namespace Starbow.Bloom
open Starbow Starbow.Bitbucket Spec

theorem positions_eq (M s : Nat) : ∀ (c : Nat) (h : Hasher), h.m = (M : Int) → 1 ≤ M → M < 2 ^ 63 → h.b.toNat = s →
    positions h c = (List.range c).map fun i => ((fun a => (a + s) % 2 ^ 64 % M)^[i] h.a.toNat) % M := by
  intro c
  induction c with
  | zero => intro h _ _ _ _; rfl
  | succ c ih =>
    intro h hm h1 h2 hs
    have ht : (BitVec.ofInt 64 h.m).toNat = M := by
      rw [hm, BitVec.ofInt_natCast, BitVec.toNat_ofNat]; omega
    rw [positions, ih { h with a := (h.a + h.b) % BitVec.ofInt 64 h.m } hm h1 h2 hs, List.range_succ_eq_map, List.map_cons,
      List.map_map]
    have e : ((h.a + h.b) % BitVec.ofInt 64 h.m).toNat = (h.a.toNat + s) % 2 ^ 64 % M := by
      rw [BitVec.toNat_umod, ht, BitVec.toNat_add, hs]
    congr 1
    · rw [hm]; rfl
    · apply List.map_congr_left
      intro i _
      simp only [Function.comp_apply, Function.iterate_succ_apply]
      rw [e]

theorem newHasher_spec (v : Bytes) {m : Nat} (h1 : 1 ≤ m) :
    (newHasher v (m : Int)).m = (bloomRange m : Nat) ∧ (newHasher v (m : Int)).a.toNat = fnv1 (nats v) ∧
      (newHasher v (m : Int)).b.toNat = bloomStride v := by
  have ha : (Fnv.sum64Of (Fnv.write1 Fnv.new64 v).1).toNat = fnv1 (nats v) := Fnv.foldl_step1_toNat v _
  have hb : (Fnv.sum64aOf (Fnv.write1a Fnv.new64a v).1).toNat = fnv1a (nats v) := Fnv.foldl_step1a_toNat v _
  unfold newHasher bloomRange bloomStride
  generalize Fnv.sum64Of (Fnv.write1 Fnv.new64 v).1 = a at *
  generalize Fnv.sum64aOf (Fnv.write1a Fnv.new64a v).1 = b at *
  rw [← ha, ← hb]
  have hodd : (b &&& 1#64 = 0#64) ↔ b.toNat % 2 = 0 := by
    rw [← BitVec.toNat_inj, BitVec.toNat_and]
    simp [Nat.and_one_is_mod]
  have hb2 : (if b &&& 1#64 = 0#64 then b + 1#64 else b).toNat = if b.toNat % 2 = 0 then b.toNat + 1 else b.toNat := by
    by_cases h : b.toNat % 2 = 0
    · rw [if_pos (hodd.2 h), if_pos h, BitVec.toNat_add]
      have := b.isLt
      have : (1#64).toNat = 1 := rfl
      omega
    · rw [if_neg (fun x => h (hodd.1 x)), if_neg h]
  by_cases h : (m : Int) % 2 = 0
  · rw [if_pos h]
    have : ¬ (m % 2 = 1 ∧ 2 < m) := by omega
    rw [if_neg this]
    exact ⟨rfl, rfl, hb2⟩
  · rw [if_neg h]
    refine ⟨?_, rfl, hb2⟩
    simp only
    by_cases h3 : 2 < m
    · rw [if_pos (by omega), if_pos ⟨by omega, h3⟩]; omega
    · rw [if_neg (by omega), if_neg (by omega)]

theorem bloomRange_bounds {m : Nat} (h1 : 1 ≤ m) : 1 ≤ bloomRange m ∧ bloomRange m ≤ m := by
  unfold bloomRange; split <;> omega

theorem bloomPosition_lt {m : Nat} (h1 : 1 ≤ m) (v : Bytes) (i : Nat) : bloomPosition m v i < bloomRange m :=
  Nat.mod_lt _ (bloomRange_bounds h1).1

theorem posOf_spec {b : Filter} (hb : WF b) {m : Nat} (hm : b.m = (m : Int)) (v : Bytes) :
    posOf b v = (List.range b.k.toNat).map (bloomPosition m v) := by
  have h1 : 1 ≤ m := by have := hb.m; omega
  have h2 : m < 2 ^ 63 := by have := hb.m_lt; omega
  obtain ⟨e1, e2, e3⟩ := newHasher_spec v h1
  have h3 := bloomRange_bounds h1
  unfold posOf
  rw [hm, positions_eq (bloomRange m) (bloomStride v) _ _ e1 h3.1 (by omega) e3, e2]
  rfl

/-- a filter whose set bits are those selected by the values -/
structure HoldsBits (b : Filter) (m : Nat) (vs : List Bytes) : Prop where
  wf : WF b
  bm : b.m = (m : Int)
  bit : ∀ x < m, bitAt b.bits.data x = true ↔ ∃ v ∈ vs, ∃ i < b.k.toNat, bloomPosition m v i = x

theorem bitAt_zero (n x : Nat) : bitAt (List.replicate n 0#8) x = false := by
  unfold bitAt
  by_cases h : x / 8 < n
  · simp [List.getD_eq_getElem?_getD, List.getElem?_replicate, h]
  · simp [List.getD_eq_getElem?_getD, List.getElem?_replicate, h]

/-- every history leads to such a filter -/
theorem run_holds (m : Nat) (k : Byte) (hm : 1 ≤ m) (hf : m + 7 < 2 ^ 63) (h : AddHist) :
    ∃ b0 b, newBits (m : Int) k = .val b0 ∧ Props.runBloom b0 h = .val b ∧ b.k = k ∧ HoldsBits b m (live h) := by
  obtain ⟨b0, e0, hwf, hm0, hk, hd⟩ := Props.newBits_wf m k hm hf
  obtain ⟨b0', e0', _, hk', e1⟩ := Props.runBloom_fresh m k hm hf h
  rw [e0] at e0'
  have e0' := Out.val.inj e0'
  subst e0'
  have hwf' := hwf.withData (((live h).flatMap (posOf b0)).foldl setBit
    (List.replicate b0.bits.data.length 0#8)) (by rw [foldl_setBit_length]; simp)
  refine ⟨b0, _, e0, e1, hk, hwf', hm0, ?_⟩
  intro x hx
  have hb : ∀ y ∈ (live h).flatMap (posOf b0), y < 8 * (List.replicate b0.bits.data.length 0#8).length := by
    intro y hy
    obtain ⟨w, _, hw⟩ := List.mem_flatMap.mp hy
    simpa using posOf_bound hwf w y hw
  have hx' : x < 8 * b0.bits.data.length := pos_bound hwf.bits hwf.w (by rw [hwf.n, hm0]; omega)
  simp only
  rw [foldl_setBit_bit _ _ _ hb (by simpa using hx'), bitAt_zero, Bool.or_false, decide_eq_true_iff, List.mem_flatMap]
  constructor
  · rintro ⟨v, hv, hp⟩
    rw [posOf_spec hwf hm0, List.mem_map] at hp
    obtain ⟨i, hi, e⟩ := hp
    exact ⟨v, hv, i, List.mem_range.1 hi, e⟩
  · rintro ⟨v, hv, i, hi, e⟩
    refine ⟨v, hv, ?_⟩
    rw [posOf_spec hwf hm0, List.mem_map]
    exact ⟨i, List.mem_range.2 hi, e⟩

theorem mem_bloomBits {m k : Nat} {vs : List Bytes} {x : Nat} :
    x ∈ bloomBits m k vs ↔ x < m ∧ ∃ v ∈ vs, ∃ i < k, bloomPosition m v i = x := by
  unfold bloomBits
  simp only [List.mem_filter, List.mem_range, List.any_eq_true, beq_iff_eq]

/-- `CountN(1)` counts the selected bits -/
theorem HoldsBits.countN {b : Filter} {m : Nat} {vs : List Bytes} (h : HoldsBits b m vs) :
    Bitbucket.countN b.bits 1#8 = .val (bloomBits m b.k.toNat vs).length := by
  unfold Bitbucket.countN
  rw [countNLoop_eq h.wf.bits _ _ 0 0 (by omega)]
  have hn : b.bits.n.toNat = m := by rw [h.wf.n, h.bm, Int.toNat_natCast]
  unfold bloomBits
  rw [Nat.zero_add, ← List.countP_eq_length_filter, ← List.range_eq_range', hn]
  congr 1
  apply List.countP_congr
  intro x hx
  have hx' : x < m := List.mem_range.1 hx
  have hx2 : (x : Int) < b.bits.n := by rw [h.wf.n, h.bm]; omega
  obtain ⟨g, hg1, hg2⟩ := get1_eq h.wf.bits h.wf.w hx2
  have hg3 := Bitbucket.get_eq h.wf.bits (i := x) (by omega)
  rw [hg1] at hg3
  have hg3 := Out.val.inj hg3
  rw [← hg3]
  simp only [decide_eq_true_eq, List.any_eq_true, List.mem_range, beq_iff_eq]
  rw [hg2, h.bit x hx']

/-- `Has` asks whether all bits the value selects are set -/
theorem HoldsBits.has {b : Filter} {m : Nat} {vs : List Bytes} (h : HoldsBits b m vs) (v : Bytes) :
    has b v = .val (decide (∀ i < b.k.toNat, bloomPosition m v i ∈ bloomBits m b.k.toNat vs)) := by
  rw [has_eq h.wf, posOf_spec h.wf h.bm]
  congr 1
  rw [Bool.eq_iff_iff, List.all_eq_true, decide_eq_true_iff]
  have h1 : 1 ≤ m := by have := h.wf.m; have := h.bm; omega
  have hlt : ∀ i, bloomPosition m v i < m := fun i =>
    Nat.lt_of_lt_of_le (bloomPosition_lt h1 v i) (bloomRange_bounds h1).2
  constructor
  · intro ha i hi
    rw [mem_bloomBits]
    exact ⟨hlt i, (h.bit _ (hlt i)).1 (ha _ (List.mem_map_of_mem (List.mem_range.2 hi)))⟩
  · intro ha x hx
    obtain ⟨i, hi, rfl⟩ := List.mem_map.1 hx
    exact (h.bit _ (hlt i)).2 (mem_bloomBits.1 (ha i (List.mem_range.1 hi))).2

theorem bloomBits_nodup (m k : Nat) (vs : List Bytes) : (bloomBits m k vs).Nodup :=
  List.Nodup.filter _ List.nodup_range

theorem bloomBits_length_le (m k : Nat) (vs : List Bytes) : (bloomBits m k vs).length ≤ m := by
  unfold bloomBits
  refine Nat.le_trans (List.length_filter_le _ _) ?_
  rw [List.length_range]

theorem bloomBits_mono {m k : Nat} {vs ws : List Bytes} (h : ∀ v ∈ vs, v ∈ ws) :
    (bloomBits m k vs).length ≤ (bloomBits m k ws).length := by
  apply List.Subperm.length_le
  apply List.subperm_of_subset (bloomBits_nodup m k vs)
  intro x hx
  obtain ⟨h1, v, hv, h2⟩ := mem_bloomBits.1 hx
  exact mem_bloomBits.2 ⟨h1, v, h v hv, h2⟩

/-- the bits of one value are at most `k` -/
theorem bloomBits_single_le {m : Nat} (h1 : 1 ≤ m) (k : Nat) (v : Bytes) : (bloomBits m k [v]).length ≤ k := by
  have : (bloomBits m k [v]).length ≤ ((List.range k).map (bloomPosition m v)).length := by
    apply List.Subperm.length_le
    apply List.subperm_of_subset (bloomBits_nodup m k [v])
    intro x hx
    obtain ⟨_, w, hw, i, hi, e⟩ := mem_bloomBits.1 hx
    rw [List.mem_singleton.1 hw] at e
    exact List.mem_map.2 ⟨i, List.mem_range.2 hi, e⟩
  rwa [List.length_map, List.length_range] at this

theorem bloomStride_odd (v : Bytes) : bloomStride v % 2 = 1 := by
  unfold bloomStride; split <;> omega

/-- positions modulo a power of two form an arithmetic progression -/
theorem bloomPosition_pow {m j : Nat} (hr : bloomRange m = 2 ^ j) (hj : j ≤ 64) (v : Bytes) (i : Nat) :
    bloomPosition m v i = (fnv1 (nats v) + i * bloomStride v) % 2 ^ j := by
  unfold bloomPosition
  rw [hr]
  have hd : 2 ^ j ∣ 2 ^ 64 := Nat.pow_dvd_pow 2 hj
  induction i with
  | zero => simp
  | succ i ih =>
    rw [Function.iterate_succ_apply', Nat.mod_mod_of_dvd _ hd, Nat.mod_mod, Nat.add_mod, ih, ← Nat.add_mod]
    congr 1; ring

theorem bloomPosition_inj {m j : Nat} (hr : bloomRange m = 2 ^ j) (hj : j ≤ 64) (v : Bytes) {i i' : Nat} (hi : i < 2 ^ j)
    (hi' : i' < 2 ^ j) (h : bloomPosition m v i = bloomPosition m v i') : i = i' := by
  rw [bloomPosition_pow hr hj, bloomPosition_pow hr hj] at h
  have h1 : fnv1 (nats v) + i * bloomStride v ≡ fnv1 (nats v) + i' * bloomStride v [MOD 2 ^ j] := h
  have h2 := Nat.ModEq.add_left_cancel' _ h1
  have hc : Nat.gcd (2 ^ j) (bloomStride v) = 1 := by
    apply Nat.Coprime.pow_left
    rw [Nat.coprime_two_left] 
    exact Nat.odd_iff.2 (bloomStride_odd v)
  have h3 := Nat.ModEq.cancel_right_of_coprime hc h2
  exact Nat.ModEq.eq_of_lt_of_lt h3 hi hi'

/-- in a filter of `2^j` (or `2^j + 1`) bits a value selects as many bits as it can -/
theorem bloomBits_pow {m j : Nat} (h1 : 1 ≤ m) (hr : bloomRange m = 2 ^ j) (hj : j ≤ 64) (k : Nat) (v : Bytes) :
    (bloomBits m k [v]).length = min k (2 ^ j) := by
  have hmem : ∀ i < k, bloomPosition m v i ∈ bloomBits m k [v] := fun i hi =>
    mem_bloomBits.2 ⟨Nat.lt_of_lt_of_le (bloomPosition_lt h1 v i) (bloomRange_bounds h1).2, v, List.mem_singleton.2 rfl, i, hi, rfl⟩
  apply Nat.le_antisymm
  · apply Nat.le_min.2 ⟨bloomBits_single_le h1 k v, ?_⟩
    have : (bloomBits m k [v]).length ≤ (List.range (2 ^ j)).length := by
      apply List.Subperm.length_le
      apply List.subperm_of_subset (bloomBits_nodup m k [v])
      intro x hx
      obtain ⟨_, w, hw, i, hi, rfl⟩ := mem_bloomBits.1 hx
      have := bloomPosition_lt h1 w i
      rw [hr] at this
      exact List.mem_range.2 this
    rwa [List.length_range] at this
  · have : ((List.range (min k (2 ^ j))).map (bloomPosition m v)).length ≤ (bloomBits m k [v]).length := by
      apply List.Subperm.length_le
      apply List.subperm_of_subset
      · rw [List.nodup_map_iff_inj_on List.nodup_range]
        intro x hx y hy e
        have hx := List.mem_range.1 hx
        have hy := List.mem_range.1 hy
        exact bloomPosition_inj hr hj v (by omega) (by omega) e
      · intro x hx
        obtain ⟨i, hi, rfl⟩ := List.mem_map.1 hx
        have hi := List.mem_range.1 hi
        exact hmem i (by omega)
    rwa [List.length_map, List.length_range] at this

end Starbow.Bloom
