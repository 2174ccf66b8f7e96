import Verif.Props.Bloom
import Verif.Props.Hll
/-
Property C79: the number that WriteTo and ReadFrom return is the number of bytes that went through, for every writer and every reader.
-/
namespace Starbow.Props
open Starbow

/-- all the bytes a reader has still to deliver, with whatever errors in between -/
def pending (r : Reader) : Bytes := (r.map Chunk.data).flatten

theorem read_takes {r : Reader} {n : Nat} {d : Bytes} {e : Option Err} {r' : Reader} (h : r.read n = ((d, e), r')) : pending r = d ++ pending r' := by
  unfold Reader.read at h
  split at h
  · simp only [Prod.mk.injEq] at h
    obtain ⟨⟨rfl, _⟩, rfl⟩ := h
    rfl
  · next c rest =>
    split at h
    · simp only [Prod.mk.injEq] at h
      obtain ⟨⟨rfl, _⟩, rfl⟩ := h
      rfl
    · simp only [Prod.mk.injEq] at h
      obtain ⟨⟨rfl, _⟩, rfl⟩ := h
      show c.data ++ pending rest = c.data.take n ++ (c.data.drop n ++ pending rest)
      rw [← List.append_assoc, List.take_append_drop]

theorem readFull_takes (r : Reader) (want : Nat) (acc : Bytes) : ∀ {d : Bytes} {e : Option Err} {r' : Reader},
    readFull r want acc = ((d, e), r') → acc ++ pending r = d ++ pending r' := by
  fun_induction readFull r want acc with
  | case1 r acc hw =>
    intro d e r' h
    simp only [Prod.mk.injEq] at h
    obtain ⟨⟨rfl, _⟩, rfl⟩ := h
    rfl
  | case2 r acc hw d0 r0 h0 ih =>
    intro d e r' h
    rw [← ih h, List.append_assoc, ← read_takes h0]
  | case3 r acc hw d0 e0 r0 h0 hle =>
    intro d e r' h
    simp only [Prod.mk.injEq] at h
    obtain ⟨⟨rfl, _⟩, rfl⟩ := h
    rw [read_takes h0, ← List.append_assoc]
  | case4 r acc hw d0 e0 r0 h0 hle hx =>
    intro d e r' h
    simp only [Prod.mk.injEq] at h
    obtain ⟨⟨rfl, _⟩, rfl⟩ := h
    rw [read_takes h0, ← List.append_assoc]
  | case5 r acc hw d0 e0 r0 h0 hle hx =>
    intro d e r' h
    simp only [Prod.mk.injEq] at h
    obtain ⟨⟨rfl, _⟩, rfl⟩ := h
    rw [read_takes h0, ← List.append_assoc]

/-- the reader is left at `r'` after `n` bytes were taken from it -/
def Took (r : Reader) (n : Nat) (r' : Reader) : Prop := ∃ d : Bytes, d.length = n ∧ pending r = d ++ pending r'

theorem Took.trans {r r' r'' : Reader} {n n' : Nat} (h : Took r n r') (h' : Took r' n' r'') : Took r (n + n') r'' := by
  obtain ⟨d, rfl, e⟩ := h
  obtain ⟨d', rfl, e'⟩ := h'
  exact ⟨d ++ d', by simp, by rw [e, e', List.append_assoc]⟩

theorem readFull_took {r : Reader} {want : Nat} {d : Bytes} {e : Option Err} {r' : Reader} (h : readFull r want [] = ((d, e), r')) :
    Took r d.length r' := ⟨d, rfl, by simpa using readFull_takes r want [] h⟩

theorem read_took {r : Reader} {n : Nat} {d : Bytes} {e : Option Err} {r' : Reader} (h : r.read n = ((d, e), r')) : Took r d.length r' :=
  ⟨d, rfl, read_takes h⟩

/-- **C79**, bit bucket: ReadFrom, if it returns, returns the number of bytes it took from the reader, whatever the reader does and whatever error is
returned with it. -/
theorem C79_read_bucket (b : Bitbucket.BB) (r : Reader) (b' : Bitbucket.BB) (n : Nat) (e : Option Err) (r' : Reader)
    (h : Bitbucket.readFrom b r = .val (b', n, e, r')) : Took r n r' := by
  unfold Bitbucket.readFrom at h
  split at h
  · next hd e1 r1 h1 =>
    simp only [Out.val.injEq, Prod.mk.injEq] at h
    obtain ⟨_, rfl, _, rfl⟩ := h
    exact readFull_took h1
  · next hd r1 h1 =>
    split at h
    · simp only [Out.val.injEq, Prod.mk.injEq] at h
      obtain ⟨_, rfl, _, rfl⟩ := h
      exact readFull_took h1
    · simp only at h
      split at h
      · simp at h
      · split at h
        · next d e2 r2 h2 =>
          simp only [Out.val.injEq, Prod.mk.injEq] at h
          obtain ⟨_, rfl, _, rfl⟩ := h
          exact (readFull_took h1).trans (readFull_took h2)
        · next d r2 h2 =>
          obtain ⟨⟨⟨t, e3⟩, r3⟩, h3⟩ : ∃ x, r2.read Bitbucket.hdrLen = x := ⟨_, rfl⟩
          rw [h3] at h
          simp only [Out.val.injEq, Prod.mk.injEq] at h
          obtain ⟨_, rfl, _, rfl⟩ := h
          exact ((readFull_took h1).trans (readFull_took h2)).trans (read_took h3)

/-- **C79**, bloom filter. -/
theorem C79_read_bloom (b : Bloom.Filter) (r : Reader) (b' : Bloom.Filter) (n : Nat) (e : Option Err) (r' : Reader)
    (h : Bloom.readFrom b r = .val (b', n, e, r')) : Took r n r' := by
  unfold Bloom.readFrom at h
  split at h
  · next hd e1 r1 h1 =>
    simp only [Out.val.injEq, Prod.mk.injEq] at h
    obtain ⟨_, rfl, _, rfl⟩ := h
    exact readFull_took h1
  · next hd r1 h1 =>
    split at h
    · simp only [Out.val.injEq, Prod.mk.injEq] at h
      obtain ⟨_, rfl, _, rfl⟩ := h
      exact readFull_took h1
    · simp only at h
      cases hb : Bitbucket.readFrom ⟨[], 0, 0#8⟩ r1 with
      | panic => rw [hb] at h; cases h
      | val x =>
        obtain ⟨bits, n0, e0, r2⟩ := x
        have t2 := C79_read_bucket _ _ _ _ _ _ hb
        rw [hb, Out.bind_val] at h
        cases e0 with
        | some e0 =>
          change (.val _ : Out _) = .val _ at h
          simp only [Out.val.injEq, Prod.mk.injEq] at h
          obtain ⟨_, rfl, _, rfl⟩ := h
          exact (readFull_took h1).trans t2
        | none =>
          obtain ⟨⟨⟨t, e3⟩, r3⟩, h3⟩ : ∃ x, r2.read Bloom.hdrLen = x := ⟨_, rfl⟩
          simp only [h3] at h
          change (.val _ : Out _) = .val _ at h
          simp only [Out.val.injEq, Prod.mk.injEq] at h
          obtain ⟨_, rfl, _, rfl⟩ := h
          exact ((readFull_took h1).trans t2).trans (read_took h3)

/-- **C79**, cardinality counter. -/
theorem C79_read_hll (c : Hll.Counter) (r : Reader) (c' : Hll.Counter) (n : Nat) (e : Option Err) (r' : Reader)
    (h : Hll.readFrom c r = .val (c', n, e, r')) : Took r n r' := by
  unfold Hll.readFrom at h
  split at h
  · next hd e1 r1 h1 =>
    simp only [Out.val.injEq, Prod.mk.injEq] at h
    obtain ⟨_, rfl, _, rfl⟩ := h
    exact readFull_took h1
  · next hd r1 h1 =>
    split at h
    · simp only [Out.val.injEq, Prod.mk.injEq] at h
      obtain ⟨_, rfl, _, rfl⟩ := h
      exact readFull_took h1
    · simp only at h
      cases hb : Bitbucket.readFrom c.bits r1 with
      | panic => rw [hb] at h; cases h
      | val x =>
        obtain ⟨bits, n0, e0, r2⟩ := x
        have t2 := C79_read_bucket _ _ _ _ _ _ hb
        rw [hb, Out.bind_val] at h
        cases e0 with
        | some e0 =>
          change (.val _ : Out _) = .val _ at h
          simp only [Out.val.injEq, Prod.mk.injEq] at h
          obtain ⟨_, rfl, _, rfl⟩ := h
          exact (readFull_took h1).trans t2
        | none =>
          obtain ⟨⟨⟨t, e3⟩, r3⟩, h3⟩ : ∃ x, r2.read Hll.hdrLen = x := ⟨_, rfl⟩
          simp only [h3] at h
          change (.val _ : Out _) = .val _ at h
          simp only [Out.val.injEq, Prod.mk.injEq] at h
          obtain ⟨_, rfl, _, rfl⟩ := h
          exact ((readFull_took h1).trans t2).trans (read_took h3)

/-- a reader that goes on after an end of file: 14 bytes are taken by ReadFrom of the counter, and counted, although it succeeds -/
example : Hll.readFrom ⟨0#8, ⟨[], 0, 0#8⟩⟩
    [⟨[1#8, 4#8], none⟩, ⟨[1#8, 5#8, 0#8, 0#8, 0#8, 0#8, 0#8, 0#8, 0#8, 0#8], none⟩, ⟨[], some .eof⟩, ⟨[7#8, 8#8], some .eof⟩, ⟨[9#8], none⟩] =
      .val (⟨4#8, ⟨[], 0, 5#8⟩⟩, 14, none, [⟨[9#8], none⟩]) := by decide +kernel

/-- **C79**, writers: what a writer got is a beginning of what WriteTo gives an unlimited one, of the length returned, and there is an error unless this is all. -/
def Wrote (full : Bytes) (w : Writer) (res : (Nat × Option Err) × Writer) : Prop :=
  res.2.out = w.out ++ full.take res.1.1 ∧ res.1.1 ≤ full.length ∧ (res.1.2 = none ↔ res.1.1 = full.length) ∧ res.2.err = w.err ∧
    ∀ e, res.1.2 = some e → e = w.err

theorem write_wrote (w : Writer) (p : Bytes) : Wrote p w (w.write p) ∧
    (∀ n w', w.write p = ((n, none), w') → w'.out = w.out ++ p) := by
  unfold Writer.write
  cases hr : w.room with
  | none => simp [Wrote]
  | some k =>
    simp only
    split
    · simp [Wrote]
    · next hk => exact ⟨⟨rfl, by simp only; omega, by simp; omega, rfl, by simp⟩, by simp⟩

/-- two writes, the second only if the first went well -/
theorem wrote_two {p q : Bytes} {w : Writer} {n : Nat} {w1 : Writer} (h : Wrote p w ((n, none), w1)) {res : (Nat × Option Err) × Writer}
    (h' : Wrote q w1 res) : Wrote (p ++ q) w ((n + res.1.1, res.1.2), res.2) := by
  obtain ⟨a1, a2, a3, a4, _⟩ := h
  obtain ⟨b1, b2, b3, b4, b5⟩ := h'
  simp only at a1 a2 a3 a4
  have hn : n = p.length := a3.1 trivial
  subst hn
  refine ⟨?_, ?_, ?_, ?_, ?_⟩
  · simp only
    rw [b1, a1, List.take_length, List.append_assoc, List.take_length_add_append]
  · simp only [List.length_append]; omega
  · simp only [List.length_append]; rw [b3]; omega
  · simp only; rw [b4, a4]
  · intro e he; rw [b5 e he, a4]

theorem wrote_first {p q : Bytes} {w : Writer} {n : Nat} {e : Err} {w1 : Writer} (h : Wrote p w ((n, some e), w1)) :
    Wrote (p ++ q) w ((n, some e), w1) := by
  obtain ⟨a1, a2, a3, a4, a5⟩ := h
  simp only at a1 a2 a3 a4 a5
  have hlt : n < p.length := by
    rcases Nat.lt_or_ge n p.length with h | h
    · exact h
    · have := a3.2 (by omega); simp at this
  refine ⟨?_, ?_, ?_, a4, a5⟩
  · simp only; rw [a1, List.take_append_of_le_length a2]
  · simp only [List.length_append]; omega
  · simp only [List.length_append]; constructor
    · intro h; simp at h
    · intro h; omega

/-- **C79**, bit bucket, any writer. -/
theorem C79_write_bucket (b : Bitbucket.BB) (w : Writer) : Wrote (Bitbucket.writeTo b Writer.buffer).2.out w (Bitbucket.writeTo b w) := by
  rw [Bitbucket.writeTo_out b Writer.buffer rfl]
  show Wrote (Bitbucket.header b ++ b.data) w _
  unfold Bitbucket.writeTo
  simp only
  obtain ⟨⟨⟨n, e⟩, w1⟩, h1⟩ : ∃ x, w.write (Bitbucket.header b) = x := ⟨_, rfl⟩
  have k1 := (write_wrote w (Bitbucket.header b)).1
  rw [h1] at k1
  rw [show (Bitbucket.version :: b.w :: le64 (BitVec.ofInt 64 b.n)) = Bitbucket.header b from rfl, h1]
  cases e with
  | some e => exact wrote_first k1
  | none =>
    simp only
    obtain ⟨⟨⟨n0, e0⟩, w2⟩, h2⟩ : ∃ x, w1.write b.data = x := ⟨_, rfl⟩
    have k2 := (write_wrote w1 b.data).1
    rw [h2] at k2 ⊢
    have := wrote_two k1 k2
    cases e0 <;> exact this

private theorem write_behind (hdr : Bytes) (b : Bitbucket.BB) (w : Writer) : Wrote (hdr ++ (Bitbucket.writeTo b Writer.buffer).2.out) w
    (match w.write hdr with
      | ((n, some e), w1) => ((n, some e), w1)
      | ((n, none), w1) =>
        match Bitbucket.writeTo b w1 with
        | ((n0, e), w2) => ((n + n0, e), w2)) := by
  obtain ⟨⟨⟨n, e⟩, w1⟩, h1⟩ : ∃ x, w.write hdr = x := ⟨_, rfl⟩
  have k1 := (write_wrote w hdr).1
  rw [h1] at k1 ⊢
  cases e with
  | some e => exact wrote_first k1
  | none => exact wrote_two k1 (C79_write_bucket b w1)

/-- **C79**, bloom filter, any writer. -/
theorem C79_write_bloom (b : Bloom.Filter) (w : Writer) : Wrote (Bloom.writeTo b Writer.buffer).2.out w (Bloom.writeTo b w) := by
  have := write_behind [Bloom.version, b.k] b.bits w
  have e : (Bloom.writeTo b Writer.buffer).2.out = [Bloom.version, b.k] ++ (Bitbucket.writeTo b.bits Writer.buffer).2.out := by
    unfold Bloom.writeTo
    rw [show Writer.buffer.write [Bloom.version, b.k] = ((2, none), ⟨[Bloom.version, b.k], none, .eof⟩) from rfl]
    simp only
    rw [Bitbucket.writeTo_out b.bits _ rfl, Bitbucket.writeTo_out b.bits _ rfl]
    rfl
  rw [e]
  exact this

/-- **C79**, cardinality counter, any writer. -/
theorem C79_write_hll (c : Hll.Counter) (w : Writer) : Wrote (Hll.writeTo c Writer.buffer).2.out w (Hll.writeTo c w) := by
  have := write_behind [Hll.version, c.p] c.bits w
  have e : (Hll.writeTo c Writer.buffer).2.out = [Hll.version, c.p] ++ (Bitbucket.writeTo c.bits Writer.buffer).2.out := by
    unfold Hll.writeTo
    rw [show Writer.buffer.write [Hll.version, c.p] = ((2, none), ⟨[Hll.version, c.p], none, .eof⟩) from rfl]
    simp only
    rw [Bitbucket.writeTo_out c.bits _ rfl, Bitbucket.writeTo_out c.bits _ rfl]
    rfl
  rw [e]
  exact this

/-- a writer with room for five bytes gets five -/
example : (Hll.writeTo ⟨4#8, ⟨[], 0, 5#8⟩⟩ ⟨[], some 5, .shortBuffer⟩).1 = (5, some .shortBuffer) := by decide +kernel

end Starbow.Props
