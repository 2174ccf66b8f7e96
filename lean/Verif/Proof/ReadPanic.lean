import Verif.Proof.Store
import Verif.Proof.HllEst
import Mathlib.Tactic.IntervalCases
/-
What becomes of a HyperLogLog counter of which only the first bytes are read, the rest being zeroes.
-/
namespace Starbow.Collation
open Starbow Starbow.Spec Starbow.Storage

theorem enc_eq (c : Hll.Counter) :
    enc c = [1#8, c.p, 1#8, c.bits.w] ++ (le64 (BitVec.ofInt 64 c.bits.n) ++ c.bits.data) := by
  unfold enc
  rw [(Props.hll_out c).1, Bitbucket.writeTo_out _ _ rfl]
  rfl

theorem seen_length (x : Nat) (d : Bytes) : (seen x d).length = d.length := by
  unfold seen
  simp
  omega

theorem seen_append (x : Nat) (a b : Bytes) : seen x (a ++ b) = seen x a ++ seen (x - a.length) b := by
  unfold seen
  rw [List.take_append]
  by_cases h : x ≤ a.length
  · rw [Nat.sub_eq_zero_of_le h]
    simp only [List.take_zero, List.append_nil, List.length_append, List.nil_append, Nat.sub_zero, List.append_assoc]
    rw [List.replicate_append_replicate]
    congr 2; omega
  · rw [List.take_of_length_le (show a.length ≤ x by omega), Nat.sub_eq_zero_of_le (show a.length ≤ x by omega)]
    simp only [List.replicate_zero, List.append_nil, List.length_append, List.append_assoc]
    congr 3; omega

theorem seen_slice (x : Nat) (d : Bytes) (lo hi : Nat) (h : lo ≤ hi) (hd : hi ≤ d.length) :
    slice (seen x d) lo hi = seen (x - lo) (slice d lo hi) := by
  have h1 : d = d.take lo ++ (slice d lo hi ++ d.drop hi) := by
    unfold slice
    conv_lhs => rw [← List.take_append_drop lo d, ← List.take_append_drop (hi - lo) (d.drop lo), List.drop_drop]
    rw [show lo + (hi - lo) = hi by omega]
  have l1 : (d.take lo).length = lo := by simp; omega
  have l2 : (slice d lo hi).length = hi - lo := slice_length _ _ _ hd
  conv_lhs => rw [h1, seen_append, seen_append]
  unfold slice at *
  rw [List.drop_append, seen_length, l1, List.drop_of_length_le (by rw [seen_length, l1]), Nat.sub_self, List.drop_zero, List.nil_append,
    List.take_append_of_le_length (by rw [seen_length, l2]), List.take_of_length_le (by rw [seen_length, l2])]

theorem seen_zero (d : Bytes) : seen 0 d = List.replicate d.length 0#8 := by unfold seen; simp

theorem seen_replicate (x n : Nat) : seen x (List.replicate n 0#8) = List.replicate n 0#8 := by
  unfold seen
  rw [List.take_replicate, List.length_replicate, List.replicate_append_replicate]
  congr 1; omega

/-- the header of the buckets is complete once the non-zero byte of the number of registers is there -/
theorem seen_count (p : Nat) (h4 : 4 ≤ p) (h18 : p ≤ 18) (j : Nat) (d : Bytes) :
    seen j (le64 (BitVec.ofInt 64 ((2 ^ p : Nat) : Int)) ++ d) =
      (if j ≤ p / 8 then List.replicate (8 + d.length) 0#8 else le64 (BitVec.ofInt 64 ((2 ^ p : Nat) : Int)) ++ seen (j - 8) d) := by
  have h8 : ∀ p, 4 ≤ p → p ≤ 18 → ∀ j, j < 8 → seen j (le64 (BitVec.ofInt 64 ((2 ^ p : Nat) : Int))) =
      if j ≤ p / 8 then List.replicate 8 0#8 else le64 (BitVec.ofInt 64 ((2 ^ p : Nat) : Int)) := by
    intro p h4 h18
    interval_cases p <;> decide +kernel
  have hl : (le64 (BitVec.ofInt 64 ((2 ^ p : Nat) : Int))).length = 8 := rfl
  rw [seen_append, hl]
  by_cases hj : j < 8
  · rw [h8 p h4 h18 j hj]
    split
    · rw [Nat.sub_eq_zero_of_le (by omega), seen_zero, List.replicate_append_replicate]
    · rfl
  · rw [if_neg (by omega), seen_all (by rw [hl]; omega)]

/-- a counter of which the first `j` bytes are read -/
theorem cut_counter {c : Hll.Counter} (hc : Hll.WF c) (j : Nat) :
    (j < 3 ∧ Hll.withBytes (seen j (enc c)) = .val (.error .incompatibleVersion)) ∨
    (3 ≤ j ∧ j ≤ 4 + c.p.toNat / 8 ∧ ∃ w, Hll.withBytes (seen j (enc c)) = .val (.ok ⟨c.p, ⟨[], 0, w⟩⟩)) ∨
    (4 + c.p.toNat / 8 < j ∧ ∃ c', Hll.WF c' ∧ Hll.withBytes (seen j (enc c)) = .val (.ok c')) := by
  rw [enc_eq, hc.n]
  have hzero : ∀ (w : Byte) (m : Nat), w = 0#8 ∨ w = 6#8 → Hll.withBytes ([1#8, c.p, 1#8, w] ++ List.replicate (8 + m) 0#8) =
      .val (.ok ⟨c.p, ⟨[], 0, w⟩⟩) := by
    intro w m hw
    unfold Hll.withBytes
    rw [if_neg (by simp), if_neg (by simp [Hll.version]), if_neg (by simp)]
    rw [show ([1#8, c.p, 1#8, w] ++ List.replicate (8 + m) 0#8).drop 2 = 1#8 :: w :: List.replicate (8 + m) 0#8 from rfl]
    have : Bitbucket.withBytes (1#8 :: w :: List.replicate (8 + m) 0#8) = .val (.ok ⟨[], 0, w⟩) := by
      unfold Bitbucket.withBytes
      have hs : slice (1#8 :: w :: List.replicate (8 + m) 0#8) 2 Bitbucket.hdrLen = List.replicate 8 0#8 := by
        unfold slice Bitbucket.hdrLen
        rw [show (1#8 :: w :: List.replicate (8 + m) 0#8).drop 2 = List.replicate (8 + m) 0#8 from rfl, List.take_replicate]
        congr 1; omega
      rw [if_neg (by simp [Bitbucket.hdrLen]), if_neg (by simp [Bitbucket.version])]
      simp only [hs]
      rw [show (leU64 (List.replicate 8 0#8)).toInt = 0 by decide]
      rw [show (1#8 :: w :: List.replicate (8 + m) 0#8).getD 1 0 = w from rfl]
      have hlen : Bitbucket.length 0 w = 0 := by rcases hw with rfl | rfl <;> decide
      rw [if_neg (by rcases hw with rfl | rfl <;> decide), hlen, if_neg, if_neg (by decide)]
      · unfold slice Bitbucket.hdrLen
        simp
      · rw [show wrap64 ((Bitbucket.hdrLen : Int) + 0) = 10 by decide]
        simp
        omega
    rw [this]
    rfl
  have herr : ∀ (a b : Byte) (t : Bytes), 8 ≤ t.length → (a = 1#8 → True) → Hll.withBytes ([a, b, 0#8, 0#8] ++ t) = .val (.error .incompatibleVersion) := by
    intro a b t ht _
    unfold Hll.withBytes
    rw [if_neg (by simp)]
    by_cases ha : a = 1#8
    · subst ha
      rw [if_neg (by simp [Hll.version]), if_neg (by simp)]
      rw [show ([1#8, b, 0#8, 0#8] ++ t).drop 2 = 0#8 :: 0#8 :: t from rfl]
      have : Bitbucket.withBytes (0#8 :: 0#8 :: t) = .val (.error .incompatibleVersion) := by
        unfold Bitbucket.withBytes
        rw [if_neg (by simp [Bitbucket.hdrLen]; omega), if_pos (by simp [Bitbucket.version])]
      rw [this]; rfl
    · rw [if_pos (by simpa [Hll.version] using ha)]
  rw [seen_append]
  rcases Nat.lt_or_ge j 3 with hj | hj
  · refine .inl ⟨hj, ?_⟩
    have ht : 8 ≤ (seen (j - [1#8, c.p, 1#8, c.bits.w].length) (le64 (BitVec.ofInt 64 ((2 ^ c.p.toNat : Nat) : Int)) ++ c.bits.data)).length := by
      rw [seen_length, List.length_append, show (le64 (BitVec.ofInt 64 ((2 ^ c.p.toNat : Nat) : Int))).length = 8 from rfl]; omega
    generalize seen (j - [1#8, c.p, 1#8, c.bits.w].length) (le64 (BitVec.ofInt 64 ((2 ^ c.p.toNat : Nat) : Int)) ++ c.bits.data) = t at ht
    interval_cases j
    · exact herr _ _ _ ht fun _ => trivial
    · exact herr _ _ _ ht fun _ => trivial
    · exact herr _ _ _ ht fun _ => trivial
  · have hw : seen j [1#8, c.p, 1#8, c.bits.w] = [1#8, c.p, 1#8, if j = 3 then 0#8 else 6#8] := by
      rw [hc.w]
      rcases Nat.lt_or_ge j 4 with h | h
      · interval_cases j; rfl
      · rw [if_neg (by omega), seen_all (by simpa using h)]
    rw [hw, show [1#8, c.p, 1#8, c.bits.w].length = 4 from rfl, seen_count _ hc.p4 hc.p18]
    refine .inr ?_
    rcases Nat.lt_or_ge (4 + c.p.toNat / 8) j with h | h
    · refine .inr ⟨h, ⟨c.p, { c.bits with data := seen (j - 4 - 8) c.bits.data }⟩, ⟨hc.p4, hc.p18, ?_, hc.w, hc.n⟩, ?_⟩
      · exact ⟨hc.bits.w0, hc.bits.w8, hc.bits.n0, hc.bits.fits, by rw [seen_length]; exact hc.bits.len⟩
      · have hwf : Hll.WF ⟨c.p, { c.bits with data := seen (j - 4 - 8) c.bits.data }⟩ :=
          ⟨hc.p4, hc.p18, ⟨hc.bits.w0, hc.bits.w8, hc.bits.n0, hc.bits.fits, by rw [seen_length]; exact hc.bits.len⟩, hc.w, hc.n⟩
        have := Props.C13_withBytes _ hwf []
        rw [List.append_nil, show (Hll.writeTo ⟨c.p, { c.bits with data := seen (j - 4 - 8) c.bits.data }⟩ Writer.buffer).2.out = enc _ from rfl,
          enc_eq] at this
        rw [if_neg (by omega), if_neg (by omega)]
        simp only [hc.w, hc.n] at this ⊢
        exact this
    · refine .inl ⟨hj, h, if j = 3 then 0#8 else 6#8, ?_⟩
      rw [if_pos (show j - 4 ≤ c.p.toNat / 8 by omega)]
      exact hzero (if j = 3 then 0#8 else 6#8) _ (by split <;> simp)

/-- counting without registers panics -/
theorem count_none (log : F64 → F64) (p w : Byte) (h4 : 4 ≤ p.toNat) (h18 : p.toNat ≤ 18) : Hll.count log ⟨p, ⟨[], 0, w⟩⟩ = .panic := by
  have hm : ∃ k, (Hll.mInt p).toNat = k + 1 := by
    rw [Hll.mInt_eq _ h18]
    have := Nat.two_pow_pos p.toNat
    exact ⟨2 ^ p.toNat - 1, by omega⟩
  obtain ⟨k, hk⟩ := hm
  unfold Hll.count
  have : Bitbucket.countN ⟨[], 0, w⟩ 0#8 = .val 0 := rfl
  simp only
  rw [this, Out.bind_val, if_neg (by simp)]
  unfold Hll.countLarge Hll.harmonic
  simp only
  rw [hk, Hll.harmonicLoop]
  have hg : Bitbucket.get ⟨[], 0, w⟩ ((0 : Nat) : Int) = .panic := by
    unfold Bitbucket.get Bitbucket.get0 Bitbucket.extract
    simp
    rfl
  rw [hg]
  rfl

end Starbow.Collation

namespace Starbow.Collation
open Starbow Starbow.Spec Starbow.Storage

section
variable {b : Building} {L : List (Owner × Cell)} {D : List (Bytes × Measure)}

theorem readerFn_number (lib : Lib) {w m : Measure} (hc : Compat w m) (hm : ∀ p, m ≠ .cardinality p) {d : Bytes} (hd : (d.length : Int) = w.size) :
    readerFn lib m d ≠ .panic := by
  have hst : m.stat = true → m.continuousInput = true → 32 ≤ d.length := by
    intro h1 h2
    rcases hc with rfl | ⟨h3, h4, _⟩
    · have := stat_size h1 h2; omega
    · have := stat_size h3 h4; omega
  have h8 : m.stat = false ∨ m.continuousInput = false → d.length = m.size.toNat := by
    intro h1
    rcases hc with rfl | ⟨_, _, h3, h4⟩
    · omega
    · rw [h3, h4] at h1; simp at h1
  cases m with
  | cardinality p => exact absurd rfl (hm p)
  | count =>
    have : d.length = 8 := h8 (.inr rfl)
    unfold readerFn; simp only; rw [if_neg (by omega)]; simp
  | max =>
    have : d.length = 8 := h8 (.inl rfl)
    unfold readerFn; simp only; rw [if_neg (by omega)]; simp
  | min =>
    have : d.length = 8 := h8 (.inl rfl)
    unfold readerFn; simp only; rw [if_neg (by omega)]; simp
  | sum =>
    have := hst rfl rfl
    unfold readerFn Stat64.sum; simp only; rw [if_neg (by omega)]
    show Out.val _ ≠ _
    simp
  | mean =>
    have := hst rfl rfl
    unfold readerFn Stat64.mean; simp only; rw [if_neg (by omega)]
    show Out.val _ ≠ _
    simp
  | variance =>
    have := hst rfl rfl
    unfold readerFn Stat64.variance Stat64.size; simp only; rw [if_neg (by omega)]
    split
    · show Out.val _ ≠ _
      simp
    · rw [if_neg (by omega)]
      show Out.val _ ≠ _
      simp

/-- reading a measure from the first `x` bytes of a record in order panics exactly if it is a uniquecount whose counter exists and is cut within
the header of its registers -/
theorem cell_panic (lib : Lib) (h : Laid b L D) {F : List Bytes} {buf : Bytes} (hb : Hold b L F buf) (x : Nat) {f n : Bytes} {r : Cell}
    (hr : readerAt b.coll f n = some r) :
    r.read lib (seen x buf) = .panic ↔
      ∃ p : Int, r.m = .cardinality p ∧ r.low + 3 ≤ (x : Int) ∧ (x : Int) ≤ r.low + 4 + p / 8 ∧ buf.getD r.low.toNat 0 ≠ 0 := by
  obtain ⟨_, _, o, w, hw, e1, e2, _, hc⟩ := h.reader f n r hr
  have hin := inRec h hw
  obtain ⟨c1, c2, c3, c4, c5⟩ := h.cell o w hw
  have hlen := hb.len
  have hin1 := hin.low
  have hin2 := hin.le
  have hin3 := hin.high
  have hsl : ((slice buf w.low.toNat w.high.toNat).length : Int) = w.m.size := by
    rw [slice_len hin hlen]; omega
  have hread : r.read lib (seen x buf) = readerFn lib r.m (seen (x - w.low.toNat) (slice buf w.low.toNat w.high.toNat)) := by
    unfold Cell.read
    rw [← e1, ← e2, seen_length, if_neg (by omega), seen_slice _ _ _ _ (by omega) (by omega)]
  rw [hread]
  by_cases hm : ∃ p, r.m = .cardinality p
  · obtain ⟨p, hp⟩ := hm
    have hwm : w.m = .cardinality p := by
      rcases hc with hc | ⟨_, _, h3, _⟩
      · rw [hc, hp]
      · rw [hp] at h3; simp [Measure.stat] at h3
    have ho : (∃ g, o = .disc g) ∧ 4 ≤ p ∧ p ≤ 18 := by
      rw [hwm] at c5
      cases o with
      | row => simp [Owner.takes] at c5
      | cont g => simp [Owner.takes, Measure.continuousInput] at c5
      | disc g =>
        obtain ⟨q, hq, h4, h18⟩ := c5
        injection hq with hq
        subst hq
        exact ⟨⟨g, rfl⟩, h4, h18⟩
    obtain ⟨⟨g, rfl⟩, h4, h18⟩ := ho
    have hbyte : buf.getD r.low.toNat 0 = (slice buf w.low.toNat w.high.toNat).getD 0 0 := by
      rw [← e1, List.getD_eq_getElem?_getD, List.getD_eq_getElem?_getD, slice_getElem?, if_pos (by omega), Nat.add_zero]
    rw [hbyte]
    rcases hb.ok _ w hw g p rfl hwm with ⟨_, hz⟩ | ⟨c, hwf, hcp, he⟩
    · rw [hz, seen_replicate, hp]
      have hne : readerFn lib (.cardinality p) (List.replicate w.m.size.toNat 0#8) = .val (.error .incompatibleVersion) := by
        obtain ⟨m, hm⟩ : ∃ m, w.m.size.toNat = m + 1 := ⟨w.m.size.toNat - 1, by omega⟩
        rw [hm, List.replicate_succ]
        unfold readerFn Hll.withBytes
        simp only
        rw [if_neg (by simp), if_pos (by simp [Hll.version])]
        rfl
      constructor
      · intro hpan; rw [hne] at hpan; simp at hpan
      · rintro ⟨q, _, _, _, hbad⟩
        refine absurd ?_ hbad
        rw [List.getD_eq_getElem?_getD, List.getElem?_replicate]
        split <;> rfl
    · have hpp : c.p.toNat = p.toNat := by
        rw [hcp]; unfold precision
        rw [BitVec.toNat_ofInt]
        omega
      rw [he, hp]
      have hfirst : (enc c).getD 0 0 ≠ 0 := by rw [enc_eq]; simp
      rcases cut_counter hwf (x - w.low.toNat) with ⟨hj, ew⟩ | ⟨hj1, hj2, w', ew⟩ | ⟨hj, c', hwf', ew⟩
      · have hne : readerFn lib (.cardinality p) (seen (x - w.low.toNat) (enc c)) = .val (.error .incompatibleVersion) := by
          unfold readerFn; simp only; rw [ew]; rfl
        constructor
        · intro hpan; rw [hne] at hpan; simp at hpan
        · rintro ⟨q, hq, h1, h2, _⟩
          omega
      · constructor
        · intro _
          exact ⟨p, rfl, by omega, by omega, hfirst⟩
        · intro _
          unfold readerFn; simp only; rw [ew]
          simp only [Out.bind_val]
          rw [count_none lib.log c.p w' hwf.p4 hwf.p18]
          rfl
      · obtain ⟨v, hv⟩ := Hll.count_ok lib.log hwf'
        have hne : readerFn lib (.cardinality p) (seen (x - w.low.toNat) (enc c)) = .val (.ok (F64.ofInt v)) := by
          unfold readerFn; simp only; rw [ew]
          simp only [Out.bind_val]
          rw [hv]; rfl
        constructor
        · intro hpan; rw [hne] at hpan; simp at hpan
        · rintro ⟨q, hq, h1, h2, _⟩
          injection hq with hq
          subst hq
          omega
  · constructor
    · intro hpan
      exact absurd hpan (readerFn_number lib hc (fun p hp => hm ⟨p, hp⟩) (by rw [seen_length]; exact hsl))
    · rintro ⟨p, hp, _⟩
      exact absurd ⟨p, hp⟩ hm

end

end Starbow.Collation
