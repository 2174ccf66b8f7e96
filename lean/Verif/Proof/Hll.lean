import Verif.Model.Hll
import Verif.Spec.Hll
import Verif.Proof.Bloom
import Verif.Proof.Fnv
import Verif.Proof.Wrapped
/- Helper lemmas about the HyperLogLog model: index, rank, registers. -/
namespace Starbow.Hll
open Starbow Starbow.Bitbucket Spec

theorem two_pow_lt (p : Nat) (h : p ≤ 18) : 2 ^ p ≤ 262144 := by
  have : 2 ^ p ≤ 2 ^ 18 := Nat.pow_le_pow_right (by omega) h
  simpa using this

theorem shl_one_toNat (p : Nat) (h : p ≤ 18) : (1#64 <<< p).toNat = 2 ^ p := by
  rw [BitVec.toNat_shiftLeft, BitVec.toNat_ofNat, Nat.shiftLeft_eq]
  have := two_pow_lt p h
  rw [show 1 % 2 ^ 64 = 1 from rfl, Nat.one_mul]
  exact Nat.mod_eq_of_lt (by omega)

theorem mInt_eq (p : Byte) (h : p.toNat ≤ 18) : mInt p = ((2 ^ p.toNat : Nat) : Int) := by
  unfold mInt
  have h1 := shl_one_toNat p.toNat h
  have h2 := two_pow_lt p.toNat h
  rw [BitVec.toInt_eq_toNat_of_lt (by omega), h1]

theorem low_ones (p t : Nat) (h : p ≤ 18) : ((1#64 <<< p) - 1#64).getLsbD t = decide (t < p) := by
  have h1 := shl_one_toNat p h
  have h2 := two_pow_lt p h
  have h3 : 0 < 2 ^ p := Nat.two_pow_pos p
  have e : ((1#64 <<< p) - 1#64).toNat = 2 ^ p - 1 := by
    rw [BitVec.toNat_sub, h1, BitVec.toNat_ofNat]
    omega
  rw [← BitVec.testBit_toNat, e, Nat.testBit_two_pow_sub_one]

theorem sub64_toNat (p : Byte) (h : p.toNat ≤ 18) : (64#8 - p).toNat = 64 - p.toNat := by
  rw [BitVec.toNat_sub, BitVec.toNat_ofNat]; omega

theorem sub63_toNat (p : Byte) (h : p.toNat ≤ 18) : (63#8 - p).toNat = 63 - p.toNat := by
  rw [BitVec.toNat_sub, BitVec.toNat_ofNat]; omega

theorem idx_eq (p : Byte) (h4 : 4 ≤ p.toNat) (h : p.toNat ≤ 18) (x : U64) :
    idx p x = x >>> (64 - p.toNat) := by
  unfold idx mask
  rw [sub64_toNat p h]
  apply BitVec.eq_of_getLsbD_eq
  intro t ht
  rw [BitVec.getLsbD_ushiftRight, BitVec.getLsbD_ushiftRight, BitVec.getLsbD_and,
    BitVec.getLsbD_shiftLeft]
  by_cases hb : 64 - p.toNat + t < 64
  · rw [show 64 - p.toNat + t - (64 - p.toNat) = t by omega, low_ones _ _ h]
    simp [hb, show t < p.toNat by omega]
  · rw [BitVec.getLsbD_of_ge _ _ (by omega)]; simp

theorem idx_toInt (p : Byte) (h4 : 4 ≤ p.toNat) (h : p.toNat ≤ 18) (x : U64) :
    (idx p x).toInt = ((hllIndex p.toNat x.toNat : Nat) : Int) ∧ hllIndex p.toNat x.toNat < 2 ^ p.toNat := by
  have e : (idx p x).toNat = hllIndex p.toNat x.toNat := by
    rw [idx_eq p h4 h, BitVec.toNat_ushiftRight, Nat.shiftRight_eq_div_pow]; rfl
  have hlt : hllIndex p.toNat x.toNat < 2 ^ p.toNat := by
    unfold hllIndex
    rw [Nat.div_lt_iff_lt_mul (Nat.two_pow_pos _), ← Nat.pow_add]
    rw [show p.toNat + (64 - p.toNat) = 64 by omega]
    exact x.isLt
  have := two_pow_lt p.toNat h
  exact ⟨by rw [BitVec.toInt_eq_toNat_of_lt (by omega), e], hlt⟩

theorem and_twoPow_ne (x : U64) (k : Nat) (hk : k < 64) :
    (x &&& (1#64 <<< k) ≠ 0#64) ↔ x.getLsbD k = true := by
  have hb : ∀ t, t < 64 → (1#64 <<< k).getLsbD t = decide (t = k) := by
    intro t ht
    rw [BitVec.getLsbD_shiftLeft]
    by_cases h1 : t < k
    · simp [h1, ht]; omega
    · by_cases h2 : t = k
      · subst h2; simp [ht]
      · have : (1#64).getLsbD (t - k) = false := by
          rw [BitVec.getLsbD_one]; simp; omega
        simp [h2, this]
  constructor
  · intro h
    cases hx : x.getLsbD k with
    | true => rfl
    | false =>
      exfalso; apply h
      apply BitVec.eq_of_getLsbD_eq
      intro t ht
      rw [BitVec.getLsbD_and, hb t ht]
      by_cases ht' : t = k
      · subst ht'; simp [hx]
      · simp [ht']
  · intro hx h
    have := congrArg (fun y => BitVec.getLsbD y k) h
    simp only [BitVec.getLsbD_and, hb k hk, hx] at this
    simp at this

theorem shl_shr_one (k : Nat) (h : k + 1 < 64) : (1#64 <<< (k + 1)) >>> 1 = 1#64 <<< k := by
  have e1 : ∀ j, j < 64 → (1#64 <<< j).toNat = 2 ^ j := by
    intro j hj
    rw [BitVec.toNat_shiftLeft, BitVec.toNat_ofNat, Nat.shiftLeft_eq, show 1 % 2 ^ 64 = 1 from rfl,
      Nat.one_mul]
    exact Nat.mod_eq_of_lt (Nat.pow_lt_pow_right (by omega) hj)
  apply BitVec.eq_of_toNat_eq
  rw [BitVec.toNat_ushiftRight, e1 _ h, e1 _ (by omega), Nat.shiftRight_eq_div_pow, Nat.pow_succ]
  omega

theorem rhoLoop_eq (x : U64) : ∀ (k : Nat) (r : Byte), k ≤ 63 → r.toNat + k ≤ 255 →
    (rhoLoop x k (1#64 <<< (k - 1)) r).toNat
      = r.toNat + ((List.range k).reverse.takeWhile fun b => !x.toNat.testBit b).length := by
  intro k
  induction k with
  | zero => intro r _ _; simp [rhoLoop]
  | succ k ih =>
    intro r hk hr
    rw [rhoLoop, Nat.add_sub_cancel, List.range_succ, List.reverse_append]
    simp only [List.reverse_cons, List.reverse_nil, List.nil_append, List.cons_append, List.takeWhile_cons]
    have hand := and_twoPow_ne x k (by omega)
    rw [BitVec.testBit_toNat]
    by_cases hb : x.getLsbD k = true
    · rw [if_pos (hand.mpr hb)]
      simp [hb]
    · rw [if_neg (fun h => hb (hand.mp h))]
      have hb' : x.getLsbD k = false := by simpa using hb
      simp only [hb', Bool.not_false, if_true, List.length_cons]
      have hr1 : (r + 1#8).toNat = r.toNat + 1 := by
        rw [BitVec.toNat_add, BitVec.toNat_ofNat]; omega
      cases k with
      | zero => rw [rhoLoop]; simp [hr1]
      | succ k =>
        rw [shl_shr_one k (by omega)]
        have := ih (r + 1#8) (by omega) (by omega)
        rw [Nat.add_sub_cancel] at this
        rw [this, hr1]; omega

theorem rho_eq (p : Byte) (h4 : 4 ≤ p.toNat) (h : p.toNat ≤ 18) (x : U64) :
    (rho p x).toNat = hllRank p.toNat x.toNat := by
  unfold rho hllRank
  have e1 : (64 - (p.toNat : Int)).toNat = 64 - p.toNat := by omega
  have e2 : 63 - p.toNat = 64 - p.toNat - 1 := by omega
  rw [e1, sub63_toNat p h, e2]
  have := rhoLoop_eq x (64 - p.toNat) 1#8 (by omega) (by
    rw [BitVec.toNat_ofNat]; omega)
  rw [this]
  rfl

theorem hllRank_bounds (p x : Nat) : 1 ≤ hllRank p x ∧ hllRank p x ≤ 65 - p ∨ 64 < p := by
  by_cases h : 64 < p
  · right; exact h
  · left
    unfold hllRank
    have : ((List.range (64 - p)).reverse.takeWhile fun b => !x.testBit b).length ≤ 64 - p := by
      have := (List.takeWhile_sublist (fun b => !x.testBit b) (l := (List.range (64 - p)).reverse)).length_le
      simpa using this
    omega

/-- a counter as `New` and the operations produce it -/
structure WF (c : Counter) : Prop where
  p4 : 4 ≤ c.p.toNat
  p18 : c.p.toNat ≤ 18
  bits : Bitbucket.WF c.bits
  w : c.bits.w = 6#8
  n : c.bits.n = ((2 ^ c.p.toNat : Nat) : Int)

/-- the counter's registers are `regs` -/
structure Regs (c : Counter) (regs : List Nat) : Prop where
  wf : WF c
  holds : Holds c.bits regs

theorem add_eq {c : Counter} {regs : List Nat} (h : Regs c regs) (v : Bytes) :
    ∃ c', add c v = .val c' ∧ c'.p = c.p ∧
      Regs c' (regs.set (hllIndex c.p.toNat (Fnv.sum64 v).toNat)
        (max (regs.getD (hllIndex c.p.toNat (Fnv.sum64 v).toNat) 0)
          (hllRank c.p.toNat (Fnv.sum64 v).toNat))) := by
  have hw := h.wf
  have hp4 := hw.p4
  have hp18 := hw.p18
  obtain ⟨e1, hlt⟩ := idx_toInt c.p hw.p4 hw.p18 (Fnv.sum64 v)
  have hrho := rho_eq c.p hw.p4 hw.p18 (Fnv.sum64 v)
  have hrk := hllRank_bounds c.p.toNat (Fnv.sum64 v).toNat
  generalize hi : hllIndex c.p.toNat (Fnv.sum64 v).toNat = i at *
  generalize hk : hllRank c.p.toNat (Fnv.sum64 v).toNat = rk at *
  have hin : i < c.bits.n.toNat := by rw [hw.n, Int.toNat_natCast]; exact hlt
  have hval := h.holds.val i hin
  unfold add
  simp only
  rw [e1, get_eq hw.bits hin]
  simp only [Out.bind_val, Out.pure_eq]
  generalize hg : field c.bits.data (i * c.bits.w.toNat) c.bits.w.toNat = g at *
  by_cases hgt : rho c.p (Fnv.sum64 v) > g
  · rw [if_pos hgt]
    have hgt' : g.toNat < (rho c.p (Fnv.sum64 v)).toNat := hgt
    obtain ⟨b', eb, hn, hwd, hh⟩ := holds_op h.holds (.set i (rho c.p (Fnv.sum64 v))) hin
    have eb' : Bitbucket.set c.bits (i : Int) (rho c.p (Fnv.sum64 v)) = .val b' := eb
    rw [eb']
    refine ⟨⟨c.p, b'⟩, rfl, rfl, ⟨hw.p4, hw.p18, hh.wf, hwd.trans hw.w, hn.trans hw.n⟩, ?_⟩
    have : counterStep c.bits.w.toNat regs (.set i (rho c.p (Fnv.sum64 v)))
        = regs.set i (max (regs.getD i 0) rk) := by
      simp only [counterStep]
      rw [hw.w, hrho, ← hval]
      have e63 : 2 ^ (6#8).toNat - 1 = 63 := rfl
      rw [e63]
      have em : min rk 63 = max g.toNat rk := by omega
      rw [em]
    rw [this] at hh
    exact hh
  · rw [if_neg hgt]
    have hgt' : ¬ g.toNat < (rho c.p (Fnv.sum64 v)).toNat := hgt
    refine ⟨c, rfl, rfl, hw, ?_⟩
    have e : regs.set i (max (regs.getD i 0) rk) = regs := by
      rw [← hval, Nat.max_eq_left (by omega), hval]
      apply List.ext_getElem?
      intro j
      rw [List.getElem?_set]
      split
      · rename_i hij; subst hij
        split
        · rename_i hl
          rw [List.getD_eq_getElem?_getD, List.getElem?_eq_getElem hl]; rfl
        · rename_i hl
          rw [List.getElem?_eq_none (by omega)]
      · rfl
    rw [e]; exact h.holds

theorem reset_regs {c : Counter} {regs : List Nat} (h : Regs c regs) :
    Regs (reset c) (List.replicate regs.length 0) :=
  ⟨⟨h.wf.p4, h.wf.p18, (holds_reset h.holds).wf, h.wf.w, h.wf.n⟩, holds_reset h.holds⟩

theorem new_regs (p : Byte) (h4 : 4 ≤ p.toNat) (h18 : p.toNat ≤ 18) :
    ∃ c, new p = .val c ∧ c.p = p ∧ Regs c (List.replicate (2 ^ p.toNat) 0) := by
  have h2 := two_pow_lt p.toNat h18
  have e6 : (6#8).toNat = 6 := rfl
  obtain ⟨bb, e, hn, hw, hh⟩ := new_holds (n := mInt p) (w := 6#8)
    (by rw [mInt_eq p h18]; exact Int.natCast_nonneg _) (by decide) (by decide)
    (by rw [mInt_eq p h18, e6]; generalize 2 ^ p.toNat = z at *; omega)
  rw [mInt_eq p h18] at hn hh
  have hcond : ¬ (p < 4#8 ∨ p > 18#8) := by
    rintro (h | h)
    · have h' : p.toNat < (4#8).toNat := h
      have : (4#8).toNat = 4 := rfl
      omega
    · have h' : (18#8).toNat < p.toNat := h
      have : (18#8).toNat = 18 := rfl
      omega
  refine ⟨⟨p, bb⟩, ?_, rfl, ⟨h4, h18, hh.wf, hw, hn⟩, hh⟩
  unfold new
  rw [if_neg hcond, e]
  rfl

/-- the registers determine the whole counter state (there are no padding bits) -/
theorem regs_inj {c c' : Counter} {regs : List Nat} (h : Regs c regs) (h' : Regs c' regs)
    (hp : c.p = c'.p) : c = c' := by
  have hn : c.bits.n = c'.bits.n := by rw [h.wf.n, h'.wf.n, hp]
  have hw : c.bits.w = c'.bits.w := by rw [h.wf.w, h'.wf.w]
  have e6 : c.bits.w.toNat = 6 := by rw [h.wf.w]; rfl
  have hl : c.bits.data.length = c'.bits.data.length := by
    rw [h.wf.bits.len, h'.wf.bits.len, hn, hw]
  have hfull : 8 * c.bits.data.length = c.bits.n.toNat * 6 := by
    rw [h.wf.bits.len, e6, h.wf.n, Int.toNat_natCast]
    obtain ⟨k, hk⟩ : ∃ k, c.p.toNat = k + 4 := ⟨c.p.toNat - 4, by have := h.wf.p4; omega⟩
    rw [hk, Nat.pow_add]
    omega
  have hd : c.bits.data = c'.bits.data := by
    apply Bloom.bytes_ext hl
    intro j hj
    have h1 : j / 6 < c.bits.n.toNat := by omega
    have e1 := h.holds.val (j / 6) h1
    have e2 := h'.holds.val (j / 6) (by rw [← hn]; exact h1)
    rw [e6] at e1
    rw [← hw, e6] at e2
    have ef : field c.bits.data (j / 6 * 6) 6 = field c'.bits.data (j / 6 * 6) 6 :=
      BitVec.eq_of_toNat_eq (e1.trans e2.symm)
    have b1 := field_bit c.bits.data (j / 6 * 6) 6 (5 - j % 6) (by omega) (by omega) (by omega)
    have b2 := field_bit c'.bits.data (j / 6 * 6) 6 (5 - j % 6) (by omega) (by omega) (by omega)
    rw [ef, b2] at b1
    rw [decide_eq_true (by omega), Bool.true_and, Bool.true_and,
      show j / 6 * 6 + (6 - 1 - (5 - j % 6)) = j by omega] at b1
    exact b1.symm
  obtain ⟨p, d, n, w⟩ := c
  obtain ⟨p', d', n', w'⟩ := c'
  simp only at hp hn hw hd
  subst hp; subst hn; subst hw; subst hd
  rfl

end Starbow.Hll
