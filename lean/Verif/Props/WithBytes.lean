import Verif.Props.Bitbucket
import Verif.Props.Bloom
import Verif.Props.Hll
/-
Property C76: which buffers `WithBytes` of the bit bucket, the bloom filter and the cardinality counter
refuses, with which error, and what it opens otherwise.

A bucket buffer is written `v :: w :: le64 n ++ body`: the version byte, the width byte, the count as eight
little-endian bytes, and what follows. Every buffer of ten bytes or more has this form
(`C76_every_buffer`).
-/
namespace Starbow.Props
open Starbow

section Bucket
open Starbow.Bitbucket

private theorem wbytes_fields (v w : Byte) (n : U64) (body : Bytes) :
    (v :: w :: le64 n ++ body).getD 0 0 = v ∧ (v :: w :: le64 n ++ body).getD 1 0 = w ∧
      leU64 (slice (v :: w :: le64 n ++ body) 2 hdrLen) = n ∧
      (v :: w :: le64 n ++ body).length = 10 + body.length := by
  refine ⟨rfl, rfl, ?_, ?_⟩
  · have : slice (v :: w :: le64 n ++ body) 2 hdrLen = le64 n := by
      unfold slice hdrLen
      show List.take 8 (le64 n ++ body) = le64 n
      exact List.take_left' (by simp)
    rw [this]; exact leU64_le64 n
  · simp; omega

private theorem bit_lt {y z u t : Nat} (hb : y + u ≤ z) (ht : t < u) : (y + (u - 1 - t)) / 8 < (z + 7) / 8 := by
  omega

/-- every buffer of at least ten bytes is a version byte, a width byte, a 64-bit count and a body -/
theorem C76_every_buffer (buf : Bytes) (h : 10 ≤ buf.length) :
    ∃ v w n body, buf = v :: w :: le64 n ++ body ∧ body.length + 10 = buf.length := by
  obtain ⟨v, w, t, rfl⟩ : ∃ v w t, buf = v :: w :: t := by
    match buf, h with
    | v :: w :: t, _ => exact ⟨v, w, t, rfl⟩
  simp only [List.length_cons] at h
  have h8 : (t.take 8).length = 8 := by simp; omega
  refine ⟨v, w, leU64 (t.take 8), t.drop 8, ?_, by simp; omega⟩
  have : le64 (leU64 (t.take 8)) = t.take 8 := le64_leU64 _ h8
  rw [this]
  simp

/-- **C76**, bit bucket, refusals: too short for a header, another version, a width above 8. The checks are
made in this order. -/
theorem C76_bucket_refused :
    (∀ buf : Bytes, buf.length < 10 → withBytes buf = .val (.error .shortBuffer)) ∧
    (∀ (v w : Byte) (n : U64) (body : Bytes), v ≠ 1#8 →
      withBytes (v :: w :: le64 n ++ body) = .val (.error .incompatibleVersion)) ∧
    (∀ (w : Byte) (n : U64) (body : Bytes), 8 < w.toNat →
      withBytes (1#8 :: w :: le64 n ++ body) = .val (.error .unsupportedWidth)) := by
  refine ⟨?_, ?_, ?_⟩
  · intro buf h
    unfold withBytes
    rw [if_pos (show buf.length < hdrLen from h)]
  · intro v w n body hv
    obtain ⟨f1, _, _, f4⟩ := wbytes_fields v w n body
    unfold withBytes
    rw [if_neg (by rw [f4]; unfold hdrLen; omega), if_pos (by rw [f1]; exact hv)]
  · intro w n body hw
    obtain ⟨f1, f2, _, f4⟩ := wbytes_fields 1#8 w n body
    unfold withBytes
    rw [if_neg (by rw [f4]; unfold hdrLen; omega), if_neg (by rw [f1]; simp [version])]
    simp only [f2]
    rw [if_pos (show w > 8#8 from (show (8#8 : Byte).toNat < w.toNat from hw))]

/-- **C76**, bit bucket, what is opened: with version 1, width `w` from 1 to 8 and a count `n` whose size in
bits fits a 64-bit int, the buffer is refused as short if fewer than `⌈n·w/8⌉` bytes follow the header, and
otherwise opens as a bucket of `n` counters of width `w`, counter `i` being the `w` bits of the body that
begin at bit `i·w`, most significant bit first. -/
theorem C76_bucket_opens (w : Byte) (n : Nat) (body : Bytes) (h1 : 1 ≤ w.toNat) (h8 : w.toNat ≤ 8)
    (hfit : n * w.toNat + 7 < 2 ^ 63) :
    (body.length * 8 < n * w.toNat →
      withBytes (1#8 :: w :: le64 (BitVec.ofNat 64 n) ++ body) = .val (.error .shortBuffer)) ∧
    (n * w.toNat ≤ body.length * 8 →
      ∃ b, withBytes (1#8 :: w :: le64 (BitVec.ofNat 64 n) ++ body) = .val (.ok b) ∧
        count b = n ∧ width b = w ∧
        ∀ i, i < n → ∃ x : Byte, get b (i : Int) = .val x ∧ x.toNat < 2 ^ w.toNat ∧
          ∀ t, t < w.toNat → x.toNat.testBit t = bitAt body (i * w.toNat + (w.toNat - 1 - t))) := by
  have hn : n < 2 ^ 63 := by
    have : n * 1 ≤ n * w.toNat := Nat.mul_le_mul_left _ h1
    omega
  obtain ⟨f1, f2, f3, f4⟩ := wbytes_fields 1#8 w (BitVec.ofNat 64 n) body
  have hi : (BitVec.ofNat 64 n).toInt = (n : Int) := by
    rw [BitVec.toInt_eq_toNat_of_lt]
    · rw [BitVec.toNat_ofNat, Nat.mod_eq_of_lt (by omega)]
    · rw [BitVec.toNat_ofNat, Nat.mod_eq_of_lt (by omega)]; omega
  have hcast : (n : Int) * (w.toNat : Int) = ((n * w.toNat : Nat) : Int) := by push_cast; rfl
  have hlen : length (n : Int) w = ((n * w.toNat + 7) / 8 : Nat) := by
    rw [length_nat (by omega) (by rw [hcast]; omega), Int.toNat_natCast]
  have hwrap : wrap64 ((hdrLen : Int) + ((n * w.toNat + 7) / 8 : Nat)) = 10 + ((n * w.toNat + 7) / 8 : Nat) := by
    unfold hdrLen
    generalize n * w.toNat = z at *
    rw [wrap64_id (by omega) (by omega)]; omega
  have hw8 : ¬ w > 8#8 := not_gt8 h8
  constructor
  · intro hs
    unfold withBytes
    rw [if_neg (by rw [f4]; unfold hdrLen; omega), if_neg (by rw [f1]; simp [version])]
    simp only [f2, f3, hi, hlen, f4]
    rw [if_neg hw8, hwrap, if_pos]
    generalize n * w.toNat = z at *
    omega
  · intro hl
    have hd : slice (1#8 :: w :: le64 (BitVec.ofNat 64 n) ++ body) hdrLen
        (hdrLen + (((n * w.toNat + 7) / 8 : Nat) : Int).toNat) = body.take ((n * w.toNat + 7) / 8) := by
      rw [Int.toNat_natCast]
      unfold slice
      rw [Nat.add_sub_cancel_left, List.drop_left' (by simp [hdrLen])]
    have hwf : WF ⟨body.take ((n * w.toNat + 7) / 8), (n : Int), w⟩ := by
      refine ⟨h1, h8, by simp, ?_, ?_⟩
      · show (n : Int) * (w.toNat : Int) + 7 < 2 ^ 63
        rw [hcast]; omega
      · show (body.take ((n * w.toNat + 7) / 8)).length = ((n : Int).toNat * w.toNat + 7) / 8
        rw [List.length_take, Int.toNat_natCast]
        generalize n * w.toNat = z at *
        omega
    refine ⟨⟨body.take ((n * w.toNat + 7) / 8), (n : Int), w⟩, ?_, rfl, rfl, ?_⟩
    · unfold withBytes
      rw [if_neg (by rw [f4]; unfold hdrLen; omega), if_neg (by rw [f1]; simp [version])]
      simp only [f2, f3, hi, hlen, f4, hd]
      rw [if_neg hw8, hwrap, if_neg, if_neg]
      · unfold hdrLen; omega
      · generalize n * w.toNat = z at *
        omega
    · intro i hin
      refine ⟨_, get_eq hwf (show i < (n : Int).toNat by omega), ?_, ?_⟩
      · apply Nat.lt_pow_two_of_testBit
        intro t ht
        simp only
        by_cases ht8 : t < 8
        · rw [BitVec.testBit_toNat, field_bit _ _ _ _ h1 h8 ht8]
          simp [show ¬ t < w.toNat by omega]
        · rw [BitVec.testBit_toNat]
          exact BitVec.getLsbD_of_ge _ _ (by omega)
      · intro t ht
        simp only
        rw [BitVec.testBit_toNat, field_bit _ _ _ _ h1 h8 (by omega)]
        simp only [ht, decide_true, Bool.true_and]
        have hb : (i + 1) * w.toNat ≤ n * w.toNat := Nat.mul_le_mul_right _ hin
        rw [Nat.succ_mul] at hb
        have : (i * w.toNat + (w.toNat - 1 - t)) / 8 < (n * w.toNat + 7) / 8 := bit_lt hb ht
        unfold bitAt
        rw [List.getD_eq_getElem?_getD, List.getElem?_take, if_pos this, ← List.getD_eq_getElem?_getD]

/-- the hypotheses of `C76_bucket_opens` hold of three 6-bit counters in three bytes -/
example : ∃ b, withBytes [1#8, 6#8, 3#8, 0#8, 0#8, 0#8, 0#8, 0#8, 0#8, 0#8, 0xab#8, 0xcd#8, 0xef#8] = .val (.ok b) ∧
    count b = 3 ∧ get b 1 = .val 0x3c#8 := ⟨⟨[0xab#8, 0xcd#8, 0xef#8], 3, 6#8⟩, by decide, by decide, by decide⟩

example : withBytes [1#8, 6#8, 3#8, 0#8, 0#8, 0#8, 0#8, 0#8, 0#8, 0#8, 0xab#8, 0xcd#8] = .val (.error .shortBuffer) ∧
    withBytes [1#8, 9#8, 3#8, 0#8, 0#8, 0#8, 0#8, 0#8, 0#8, 0#8] = .val (.error .unsupportedWidth) ∧
    withBytes [2#8, 9#8, 3#8, 0#8, 0#8, 0#8, 0#8, 0#8, 0#8, 0#8] = .val (.error .incompatibleVersion) ∧
    withBytes [2#8, 9#8, 3#8, 0#8, 0#8, 0#8, 0#8, 0#8, 0#8] = .val (.error .shortBuffer) := by decide

/-- **C76**, bit bucket: no proper prefix of a serialised bucket opens. -/
theorem C76_bucket_prefix (b : BB) (hb : WF b) (j : Nat) (hj : j < lenOf b) :
    withBytes ((writeTo b Writer.buffer).2.out.take j) = .val (.error .shortBuffer) := by
  rw [writeTo_out _ _ rfl]
  simp only [Writer.buffer, List.nil_append]
  have hL : lenOf b = 10 + b.data.length := rfl
  by_cases h10 : j < 10
  · exact C76_bucket_refused.1 _ (by rw [List.length_take]; omega)
  · have ht : (header b ++ b.data).take j = header b ++ b.data.take (j - 10) := by
      rw [List.take_append, List.take_of_length_le (by simp; omega), header_length]
    have hn : BitVec.ofInt 64 b.n = BitVec.ofNat 64 b.n.toNat := by
      rw [← BitVec.ofInt_natCast, Int.toNat_of_nonneg hb.n0]
    have hl := hb.len
    have hf := hb.fits
    rw [ht]
    unfold header
    rw [hn]
    have hcast : b.n * (b.w.toNat : Int) = ((b.n.toNat * b.w.toNat : Nat) : Int) := by
      push_cast; rw [Int.toNat_of_nonneg hb.n0]
    rw [hcast] at hf
    refine (C76_bucket_opens b.w b.n.toNat _ hb.w0 hb.w8 (by omega)).1 ?_
    rw [List.length_take]
    omega

example : WF bbEx ∧ 11 < lenOf bbEx := ⟨(by exact bbEx_wf), by decide⟩

end Bucket

/-- **C76**, bloom filter: an empty buffer panics, another version is refused whatever follows (nothing else
need be there), a buffer of the version byte alone panics, and otherwise the bytes after the first two decide:
an error of the bucket is passed on and an accepted bucket gives a filter of as many bits as it has counters,
setting the number of bits per key that the second byte says. -/
theorem C76_bloom :
    Bloom.withBytes [] = .panic ∧ Bloom.withBytes [1#8] = .panic ∧
    (∀ (v : Byte) (rest : Bytes), v ≠ 1#8 → Bloom.withBytes (v :: rest) = .val (.error .incompatibleVersion)) ∧
    (∀ (k : Byte) (rest : Bytes) (e : Err), Bitbucket.withBytes rest = .val (.error e) →
      Bloom.withBytes (1#8 :: k :: rest) = .val (.error e)) ∧
    (∀ (k : Byte) (rest : Bytes) (b : Bitbucket.BB), Bitbucket.withBytes rest = .val (.ok b) →
      Bloom.withBytes (1#8 :: k :: rest) = .val (.ok { m := Bitbucket.count b, k := k, bits := b })) ∧
    (∀ (k : Byte) (rest : Bytes), Bitbucket.withBytes rest = .panic →
      Bloom.withBytes (1#8 :: k :: rest) = .panic) := by
  refine ⟨by decide, by decide, ?_, ?_, ?_, ?_⟩
  · intro v rest hv
    unfold Bloom.withBytes
    rw [if_neg (by simp), if_pos (by simpa [Bloom.version] using hv)]
  all_goals
    intro k rest
    have h : Bloom.withBytes (1#8 :: k :: rest) = (do
        match ← Bitbucket.withBytes rest with
        | .error e => return .error e
        | .ok bits => return .ok { m := Bitbucket.count bits, k := k, bits := bits }) := by
      unfold Bloom.withBytes
      rw [if_neg (by simp), if_neg (by simp [Bloom.version]), if_neg (by simp)]
      rfl
    rw [h]
  · intro e he; rw [he]; rfl
  · intro b he; rw [he]; rfl
  · intro he; rw [he]; rfl

/-- **C76**, cardinality counter: the same, the second byte being the precision. -/
theorem C76_hll :
    Hll.withBytes [] = .panic ∧ Hll.withBytes [1#8] = .panic ∧
    (∀ (v : Byte) (rest : Bytes), v ≠ 1#8 → Hll.withBytes (v :: rest) = .val (.error .incompatibleVersion)) ∧
    (∀ (p : Byte) (rest : Bytes) (e : Err), Bitbucket.withBytes rest = .val (.error e) →
      Hll.withBytes (1#8 :: p :: rest) = .val (.error e)) ∧
    (∀ (p : Byte) (rest : Bytes) (b : Bitbucket.BB), Bitbucket.withBytes rest = .val (.ok b) →
      Hll.withBytes (1#8 :: p :: rest) = .val (.ok { p := p, bits := b })) ∧
    (∀ (p : Byte) (rest : Bytes), Bitbucket.withBytes rest = .panic →
      Hll.withBytes (1#8 :: p :: rest) = .panic) := by
  refine ⟨by decide, by decide, ?_, ?_, ?_, ?_⟩
  · intro v rest hv
    unfold Hll.withBytes
    rw [if_neg (by simp), if_pos (by simpa [Hll.version] using hv)]
  all_goals
    intro k rest
    have h : Hll.withBytes (1#8 :: k :: rest) = (do
        match ← Bitbucket.withBytes rest with
        | .error e => return .error e
        | .ok bits => return .ok { p := k, bits := bits }) := by
      unfold Hll.withBytes
      rw [if_neg (by simp), if_neg (by simp [Hll.version]), if_neg (by simp)]
      rfl
    rw [h]
  · intro e he; rw [he]; rfl
  · intro b he; rw [he]; rfl
  · intro he; rw [he]; rfl

/-- **C76**: no proper prefix (of two bytes or more) of a serialised filter or counter opens. -/
theorem C76_prefix :
    (∀ (b : Bloom.Filter), Bloom.WF b → ∀ j, 2 ≤ j → j < Bloom.lenOf b →
      Bloom.withBytes ((Bloom.writeTo b Writer.buffer).2.out.take j) = .val (.error .shortBuffer)) ∧
    (∀ (c : Hll.Counter), Hll.WF c → ∀ j, 2 ≤ j → j < Hll.lenOf c →
      Hll.withBytes ((Hll.writeTo c Writer.buffer).2.out.take j) = .val (.error .shortBuffer)) := by
  constructor
  · intro b hb j h2 hj
    have hj' : j < 2 + Bitbucket.lenOf b.bits := hj
    rw [(bloom_out b).1, show j = (j - 2) + 2 by omega]
    exact C76_bloom.2.2.2.1 b.k _ _ (C76_bucket_prefix b.bits hb.bits (j - 2) (by omega))
  · intro c hc j h2 hj
    have hj' : j < 2 + Bitbucket.lenOf c.bits := hj
    rw [(hll_out c).1, show j = (j - 2) + 2 by omega]
    exact C76_hll.2.2.2.1 c.p _ _ (C76_bucket_prefix c.bits hc.bits (j - 2) (by omega))

end Starbow.Props
