import Verif.Proof.Bitbucket
/-
Property theorems C03 - C08 (bit buckets).
-/
namespace Starbow.Props
open Starbow.Spec Starbow.Bitbucket

/-- **C03.** For every count `n`, width `w` in 1..8 (whose bit size fits a 64-bit int) and every
sequence of in-range Set/IncN/Reset calls on a fresh bit bucket, nothing panics and `Get i` is what an
array of saturating counters holds, for every `i`. -/
theorem C03_saturating_counters (n : Nat) (w : Byte) (hw : 1 ≤ w.toNat ∧ w.toNat ≤ 8)
    (hfit : n * w.toNat + 7 < 2 ^ 63) (ops : List CounterOp) (hops : ∀ op ∈ ops, op.inRange n) :
    ∃ b0 b, new (n : Int) w = .val b0 ∧ applyOps b0 ops = .val b ∧ count b = n ∧ width b = w ∧
      ∀ i, i < n → ∃ x : Byte, get b (i : Int) = .val x ∧
        (counterRun n w.toNat ops)[i]? = some x.toNat := by
  have hp : (n : Int) * (w.toNat : Int) = ((n * w.toNat : Nat) : Int) := by push_cast; rfl
  obtain ⟨b0, e0, n0, w0, h0⟩ := new_holds (n := (n : Int)) (w := w) (by omega) hw.1 hw.2
    (by rw [hp]; omega)
  obtain ⟨b, e1, n1, w1, h1⟩ := holds_ops ops h0 (by rw [n0]; simpa using hops)
  refine ⟨b0, b, e0, e1, n1.trans n0, w1.trans w0, ?_⟩
  intro i hi
  have hbn : b.n.toNat = n := by rw [n1, n0]; rfl
  refine ⟨_, get_eq h1.wf (by omega), ?_⟩
  have hv := h1.val i (by omega)
  have hl := h1.len
  rw [hbn] at hl
  rw [hv]
  unfold counterRun
  rw [← w0, show List.replicate n 0 = List.replicate (n : Int).toNat 0 from rfl]
  rw [List.getD_eq_getElem?_getD, List.getElem?_eq_getElem (by omega)]
  rfl

/-- **C03**, any starting point: one write changes exactly the written bucket. -/
theorem C03_frame (b : BB) (hb : WF b) (i j : Nat) (hi : i < b.n.toNat) (hj : j < b.n.toNat)
    (v : Byte) (hij : i ≠ j) :
    (∃ b', set b (i : Int) v = .val b' ∧ get b' (j : Int) = get b (j : Int)) ∧
    (∃ b', incN b (i : Int) v = .val b' ∧ get b' (j : Int) = get b (j : Int)) := by
  have hs := holds_self hb
  constructor
  · obtain ⟨b', e, hn, hw, h'⟩ := holds_op hs (.set i v) hi
    refine ⟨b', e, ?_⟩
    rw [get_eq h'.wf (by omega), get_eq hb hj]
    refine congrArg Out.val (BitVec.eq_of_toNat_eq ?_)
    rw [h'.val j (by omega), hs.val j hj]
    simp [counterStep, List.getD_eq_getElem?_getD, List.getElem?_set, hij]
  · obtain ⟨b', e, hn, hw, h'⟩ := holds_op hs (.inc i v) hi
    refine ⟨b', e, ?_⟩
    rw [get_eq h'.wf (by omega), get_eq hb hj]
    refine congrArg Out.val (BitVec.eq_of_toNat_eq ?_)
    rw [h'.val j (by omega), hs.val j hj]
    simp [counterStep, List.getD_eq_getElem?_getD, List.getElem?_set, hij]

/-- The hypotheses of C03 are met by a width-3 bucket, whose third bucket straddles a byte. -/
example : (∀ op ∈ [CounterOp.set 2 200#8, .inc 0 1#8, .inc 0 1#8, .reset, .inc 2 3#8, .inc 2 9#8],
    op.inRange 5) ∧
    counterRun 5 3 [CounterOp.set 2 200#8, .inc 0 1#8, .inc 0 1#8, .reset, .inc 2 3#8, .inc 2 9#8]
      = [0, 0, 7, 0, 0] := by
  constructor
  · intro op h; simp at h; rcases h with rfl | rfl | rfl | rfl | rfl | rfl <;> simp [CounterOp.inRange]
  · rfl

/-- **C04.** `CountN v` is the number of buckets whose `Get` is `v`. -/
theorem C04_countN (b : BB) (hb : WF b) (v : Byte) :
    countN b v = .val ((List.range b.n.toNat).countP fun (i : Nat) => get b (i : Int) = .val v) := by
  unfold countN
  rw [countNLoop_eq hb v _ 0 0 (by simp), ← List.range_eq_range', Nat.zero_add]
  refine congrArg Out.val (List.countP_congr ?_)
  intro i hi
  rw [get_eq hb (by simpa using hi)]
  simp

/-- **C04**: the counts over all 256 values sum to the number of buckets. -/
theorem C04_total (b : BB) (hb : WF b) (f : Byte → Nat) (hf : ∀ v, countN b v = .val (f v)) :
    ((List.range 256).map fun k => f (BitVec.ofNat 8 k)).sum = b.n.toNat := by
  have hf' : ∀ v, f v = (List.range b.n.toNat).countP fun (i : Nat) => get b (i : Int) = .val v := by
    intro v
    have := hf v
    rw [C04_countN b hb v] at this
    injection this with h
    exact h.symm
  have hzero : ∀ m : List Nat, (m.map fun _ => 0).sum = 0 := by
    intro m
    induction m with
    | nil => rfl
    | cons a m ih => simpa using ih
  have hind : ∀ (a N : Nat), ((List.range N).map fun k => if a = k then 1 else 0).sum
      = if a < N then 1 else 0 := by
    intro a N
    induction N with
    | zero => rfl
    | succ N ih =>
      rw [List.range_succ, List.map_append, List.sum_append, ih]
      simp only [List.map_cons, List.map_nil, List.sum_cons, List.sum_nil]
      split <;> split <;> split <;> omega
  have key : ∀ (l : List Nat), (∀ i ∈ l, i < b.n.toNat) →
      ((List.range 256).map fun k => l.countP fun (i : Nat) => get b (i : Int) = .val (BitVec.ofNat 8 k)).sum
        = l.length := by
    intro l
    induction l with
    | nil => intro _; exact hzero _
    | cons i l ih =>
      intro hl
      have ih' := ih fun j hj => hl j (by simp [hj])
      have hg := get_eq hb (hl i (by simp))
      have hone : ∀ (x : Byte), ((List.range 256).map fun k =>
          if Out.val x = Out.val (BitVec.ofNat 8 k) then 1 else 0).sum = 1 := by
        intro x
        have h1 := hind x.toNat 256
        rw [if_pos x.isLt] at h1
        refine Eq.trans ?_ h1
        refine congrArg List.sum (List.map_congr_left ?_)
        intro k hk
        have hk' : k < 256 := by simpa using hk
        have : (Out.val x = Out.val (BitVec.ofNat 8 k)) ↔ x.toNat = k := by
          constructor
          · intro h; have h := congrArg BitVec.toNat (Out.val.inj h); exact h.trans ((BitVec.toNat_ofNat ..).trans (Nat.mod_eq_of_lt hk'))
          · intro h; rw [← h, BitVec.ofNat_toNat]; simp
        simp only [this]
      have hsplit : ∀ (f g : Nat → Nat) (m : List Nat), (m.map fun k => f k + g k).sum
          = (m.map f).sum + (m.map g).sum := by
        intro f g m
        induction m with
        | nil => rfl
        | cons a m ih => simp [ih]; omega
      simp only [List.countP_cons, List.length_cons]
      rw [hsplit, ih']
      rw [hg]
      simp only [decide_eq_true_eq]
      rw [hone]
  simp only [hf']
  rw [key _ (by simp)]
  simp

/-- Buckets reachable through the API are well formed (so C04-C08 apply to them). -/
theorem C03_reachable_wf (n : Nat) (w : Byte) (hw : 1 ≤ w.toNat ∧ w.toNat ≤ 8)
    (hfit : n * w.toNat + 7 < 2 ^ 63) (ops : List CounterOp) (hops : ∀ op ∈ ops, op.inRange n)
    (b0 b : BB) (h0 : new (n : Int) w = .val b0) (h : applyOps b0 ops = .val b) : WF b := by
  have hp : (n : Int) * (w.toNat : Int) = ((n * w.toNat : Nat) : Int) := by push_cast; rfl
  obtain ⟨b0', e0, n0, w0, hh⟩ := new_holds (n := (n : Int)) (w := w) (by omega) hw.1 hw.2
    (by rw [hp]; omega)
  rw [h0] at e0; injection e0 with e0; subst e0
  obtain ⟨b', e1, _, _, h1⟩ := holds_ops ops hh (by rw [n0]; simpa using hops)
  rw [h] at e1; injection e1 with e1; subst e1
  exact h1.wf

/-- a concrete well-formed bucket with data (used by the examples) -/
def bbEx : BB := ⟨[0x0f#8, 0x80#8], 5, 3#8⟩
theorem bbEx_wf : WF bbEx := ⟨by decide, by decide, by decide, by decide, by decide⟩

example : ∃ b0, new 5 3#8 = .val b0 ∧ applyOps b0 [CounterOp.inc 1 3#8, .set 2 200#8] = .val bbEx :=
  ⟨⟨[0#8, 0#8], 5, 3#8⟩, by decide, by decide⟩

/-- **C05**, writing: the bytes written number `Len()`, which is `Len(n, w)`, and the count is reported. -/
theorem C05_write (b : BB) (hb : WF b) :
    (writeTo b Writer.buffer).1 = (lenOf b, none) ∧
      (writeTo b Writer.buffer).2.out.length = lenOf b ∧ (lenOf b : Int) = len b.n b.w := by
  rw [writeTo_out _ _ rfl]
  refine ⟨by simp [lenOf], by simp [lenOf, Writer.buffer], ?_⟩
  unfold len lenOf
  rw [length_nat hb.n0 hb.fits, ← hb.len]
  have := wrap64_len hb
  unfold hdrLen at this
  simp only [Int.cast_ofNat_Int] at this
  rw [this]; omega

/-- **C05**, reading back through any reader: same width, count and contents, and the number of bytes
is reported. -/
theorem C05_readFrom (b : BB) (hb : WF b) (b0 : BB) (p : Bool) (r : Reader)
    (hr : Delivers p r (writeTo b Writer.buffer).2.out) :
    ∃ rest, readFrom b0 r = .val (b, lenOf b, none, rest) := by
  rw [writeTo_out _ _ rfl] at hr
  simp only [Writer.buffer, List.nil_append] at hr
  obtain ⟨f1, f2, f3⟩ := header_fields b b.data
  have hd := encode_declared hb b.data
  obtain ⟨r2, h1, h2⟩ := readFrom_data b0 hr (by simp) f1 (by rw [hd]; omega) (by rw [hd]; simp)
  rw [hd, Int.toNat_natCast] at h1 h2
  rw [List.drop_of_length_le (by simp)] at h1
  rw [h1.read_nil] at h2
  rw [f2, f3, toInt_n hb] at h2
  have : slice (header b ++ b.data) 10 (10 + b.data.length) = b.data := by
    unfold slice
    rw [List.drop_left' (by simp), List.take_of_length_le (by simp)]
  rw [this] at h2
  refine ⟨[], ?_⟩
  rw [h2]
  simp [lenOf]

/-- **C05**, adopting a buffer that starts with the serialised bytes, whatever follows. -/
theorem C05_withBytes (b : BB) (hb : WF b) (extra : Bytes) :
    withBytes ((writeTo b Writer.buffer).2.out ++ extra) = .val (.ok b) := by
  rw [writeTo_out _ _ rfl]
  simp only [Writer.buffer, List.nil_append]
  exact withBytes_encoded hb extra

/-- **C05**, failing writer: with room for only `k` bytes exactly the first `k` bytes of the
serialisation come out and `k` is reported together with the writer's error. -/
theorem C05_failing_writer (b : BB) (k : Nat) (e : Err) (pre : Bytes)
    (hk : k < lenOf b) :
    writeTo b ⟨pre, some k, e⟩ =
      ((k, some e), ⟨pre ++ (writeTo b Writer.buffer).2.out.take k, some 0, e⟩) := by
  rw [writeTo_out b Writer.buffer rfl]
  simp only [Writer.buffer, List.nil_append]
  have hh : (header b).length = 10 := header_length b
  unfold writeTo
  simp only
  rw [show (version :: b.w :: le64 (BitVec.ofInt 64 b.n)) = header b from rfl]
  by_cases h10 : 10 ≤ k
  · have e1 : Writer.write ⟨pre, some k, e⟩ (header b) =
        (((header b).length, none), ⟨pre ++ header b, some (k - (header b).length), e⟩) := by
      simp only [Writer.write]; rw [if_pos (by omega)]
    have e2 : Writer.write ⟨pre ++ header b, some (k - (header b).length), e⟩ b.data =
        ((k - (header b).length, some e),
          ⟨pre ++ header b ++ b.data.take (k - (header b).length), some 0, e⟩) := by
      simp only [Writer.write]; rw [if_neg (by unfold lenOf at hk; omega)]
    rw [e1]
    simp only
    rw [e2]
    simp only
    rw [List.append_assoc, List.take_append, List.take_of_length_le (by omega : (header b).length ≤ k), hh]
    congr 2; omega
  · have e1 : Writer.write ⟨pre, some k, e⟩ (header b) =
        ((k, some e), ⟨pre ++ (header b).take k, some 0, e⟩) := by
      simp only [Writer.write]; rw [if_neg (by omega)]
    rw [e1]
    simp only
    rw [List.take_append_of_le_length (by omega)]

example : Delivers true (chunkReader [[1#8], [3#8, 5#8, 0#8, 0#8], [0#8, 0#8, 0#8, 0#8, 0#8, 0x0f#8], [0x80#8]])
    (writeTo bbEx Writer.buffer).2.out := by
  have := chunkReader_delivers true [[1#8], [3#8, 5#8, 0#8, 0#8], [0#8, 0#8, 0#8, 0#8, 0#8, 0x0f#8], [0x80#8]]
    (by decide)
  have e : (writeTo bbEx Writer.buffer).2.out = [[1#8], [3#8, 5#8, 0#8, 0#8], [0#8, 0#8, 0#8, 0#8, 0#8, 0x0f#8], [0x80#8]].flatten := by
    decide
  rw [e]; exact this

/-- **C06**, version: a stream of at least 10 bytes whose first byte is not 1. -/
theorem C06_version (b0 : BB) (p : Bool) (r : Reader) (d : Bytes) (hr : Delivers p r d)
    (hl : 10 ≤ d.length) (hv : d.getD 0 0 ≠ 1#8) :
    ∃ rest, readFrom b0 r = .val (b0, 10, some .incompatibleVersion, rest) :=
  readFrom_version b0 hr hl hv

/-- **C06**, truncation in the header. -/
theorem C06_truncated_header (b0 : BB) (p : Bool) (r : Reader) (d : Bytes) (hr : Delivers p r d)
    (hl : d.length < 10) :
    ∃ rest, readFrom b0 r = .val (b0, d.length, some .unexpectedEOF, rest) :=
  readFrom_shortHeader b0 hr hl

/-- **C06**, truncation in the data: any proper prefix (at least the header long) of a serialised
bucket. -/
theorem C06_truncated_data (b : BB) (hb : WF b) (b0 : BB) (p : Bool) (r : Reader) (k : Nat)
    (h10 : 10 ≤ k) (hk : k < lenOf b)
    (hr : Delivers p r ((writeTo b Writer.buffer).2.out.take k)) :
    ∃ b' rest, readFrom b0 r = .val (b', k, some .unexpectedEOF, rest) := by
  rw [writeTo_out _ _ rfl] at hr
  simp only [Writer.buffer, List.nil_append] at hr
  have hh : (header b).length = 10 := header_length b
  rw [List.take_append, List.take_of_length_le (by omega : (header b).length ≤ k)] at hr
  obtain ⟨f1, _, _⟩ := header_fields b (b.data.take (k - (header b).length))
  have hd := encode_declared hb (b.data.take (k - (header b).length))
  have hlen : (header b ++ b.data.take (k - (header b).length)).length = k := by
    unfold lenOf at hk
    simp; omega
  have := readFrom_shortData b0 hr (by omega) f1 (by rw [hd]; omega) (by
    rw [hd, hlen]; unfold lenOf at hk; omega)
  rw [hlen] at this
  exact this

/-- **C06**, extra bytes after the data, for readers that signal EOF in a read of its own (bytes.Reader,
files, ...). Partial: see `C06_trailing_with_eof_accepted` for the readers excluded. -/
theorem C06_trailing_partial (b : BB) (hb : WF b) (b0 : BB) (r : Reader) (extra : Bytes)
    (hx : extra ≠ []) (hr : Delivers true r ((writeTo b Writer.buffer).2.out ++ extra)) :
    ∃ b' n rest, readFrom b0 r = .val (b', n, some .shortBuffer, rest) := by
  rw [writeTo_out _ _ rfl] at hr
  simp only [Writer.buffer, List.nil_append, List.append_assoc] at hr
  obtain ⟨f1, f2, f3⟩ := header_fields b (b.data ++ extra)
  have hd := encode_declared hb (b.data ++ extra)
  obtain ⟨r2, h1, h2⟩ := readFrom_data b0 hr (by simp) f1 (by rw [hd]; omega) (by rw [hd]; simp; omega)
  rw [hd, Int.toNat_natCast] at h1
  have e : List.drop (10 + b.data.length) (header b ++ (b.data ++ extra)) = extra := by
    rw [← List.append_assoc, List.drop_left' (by simp)]
  rw [e] at h1
  obtain ⟨c, d', r', _, _, _, hc⟩ := h1.read_some (n := 10) (by omega) hx
  rcases hc with ⟨hrd, _⟩ | ⟨hp, _⟩
  · rw [hrd] at h2
    simp only [ne_eq, reduceCtorEq, not_false_eq_true, if_true] at h2
    exact ⟨_, _, _, h2⟩
  · exact absurd hp (by simp)

/-- **C06**, exact acceptance condition for plain readers: ReadFrom succeeds only on a complete stream of
the right version and exactly the declared length. -/
theorem C06_success_iff (b0 : BB) (r : Reader) (d : Bytes) (hr : Delivers true r d)
    (h0 : 10 ≤ d.length → 0 ≤ declared d) :
    (∃ b' n rest, readFrom b0 r = .val (b', n, none, rest)) ↔
      (10 ≤ d.length ∧ d.getD 0 0 = 1#8 ∧ (d.length : Int) = 10 + declared d) := by
  constructor
  · rintro ⟨b', n, rest, h⟩
    by_cases hl : 10 ≤ d.length
    · by_cases hv : d.getD 0 0 = 1#8
      · refine ⟨hl, hv, ?_⟩
        by_cases hs : (d.length : Int) < 10 + declared d
        · obtain ⟨b1, r1, e⟩ := readFrom_shortData b0 hr hl hv (h0 hl) hs
          rw [e] at h; injection h with h; injection h with _ h; injection h with _ h
          injection h with h; simp at h
        · by_cases hg : (10 + declared d) < (d.length : Int)
          · obtain ⟨r2, h1, h2⟩ := readFrom_data b0 hr hl hv (h0 hl) (by omega)
            obtain ⟨c, d', r', _, _, _, hc⟩ := h1.read_some (n := 10) (by omega) (by
              intro hnil
              have := congrArg List.length hnil
              rw [List.length_drop, List.length_nil] at this
              have := h0 hl
              omega)
            rcases hc with ⟨hrd, _⟩ | ⟨hp, _⟩
            · rw [hrd] at h2
              simp only [ne_eq, reduceCtorEq, not_false_eq_true, if_true] at h2
              rw [h2] at h; injection h with h; injection h with _ h; injection h with _ h
              injection h with h; simp at h
            · simp at hp
          · omega
      · obtain ⟨r1, e⟩ := readFrom_version b0 hr hl hv
        rw [e] at h; injection h with h; injection h with _ h; injection h with _ h
        injection h with h; simp at h
    · obtain ⟨r1, e⟩ := readFrom_shortHeader b0 hr (by omega)
      rw [e] at h; injection h with h; injection h with _ h; injection h with _ h
      injection h with h; simp at h
  · rintro ⟨hl, hv, hlen⟩
    obtain ⟨r2, h1, h2⟩ := readFrom_data b0 hr hl hv (h0 hl) (by omega)
    have := h0 hl
    rw [List.drop_of_length_le (by omega)] at h1
    rw [h1.read_nil] at h2
    simp only [ne_eq, not_true_eq_false, if_false] at h2
    exact ⟨_, _, _, h2⟩

/-- **C06 fails** for readers that return the last bytes together with io.EOF (which io.Reader permits):
the extra byte is accepted silently. -/
theorem C06_trailing_with_eof_accepted :
    ∃ (r : Reader) (b : BB), Delivers false r ((writeTo bbEx Writer.buffer).2.out ++ [7#8]) ∧
      readFrom bbEx r = .val (b, 13, none, []) := by
  refine ⟨[⟨(writeTo bbEx Writer.buffer).2.out, none⟩, ⟨[7#8], some .eof⟩], bbEx,
    .cons (by decide) (.last _), ?_⟩
  have hr : Delivers false [⟨(writeTo bbEx Writer.buffer).2.out, none⟩, ⟨[7#8], some .eof⟩]
    ((writeTo bbEx Writer.buffer).2.out ++ [7#8]) := .cons (by decide) (.last _)
  have e1 : readFull [⟨(writeTo bbEx Writer.buffer).2.out, none⟩, ⟨[7#8], some .eof⟩] hdrLen [] =
      (((writeTo bbEx Writer.buffer).2.out.take 10, none),
        [⟨[0x0f#8, 0x80#8], none⟩, ⟨[7#8], some .eof⟩]) := by
    rw [readFull, dif_neg (by decide)]
    split
    · rename_i d r' heq
      have : Reader.read [⟨(writeTo bbEx Writer.buffer).2.out, none⟩, ⟨[7#8], some .eof⟩]
        (hdrLen - ([] : Bytes).length) = (((writeTo bbEx Writer.buffer).2.out.take 10, none),
        [⟨[0x0f#8, 0x80#8], none⟩, ⟨[7#8], some .eof⟩]) := by decide
      rw [this] at heq
      simp only [Prod.mk.injEq, and_true] at heq
      obtain ⟨rfl, rfl⟩ := heq
      rw [readFull, dif_pos (by decide)]
      rfl
    · rename_i heq
      have : Reader.read [⟨(writeTo bbEx Writer.buffer).2.out, none⟩, ⟨[7#8], some .eof⟩]
        (hdrLen - ([] : Bytes).length) = (((writeTo bbEx Writer.buffer).2.out.take 10, none),
        [⟨[0x0f#8, 0x80#8], none⟩, ⟨[7#8], some .eof⟩]) := by decide
      rw [this] at heq
      simp at heq
  have e2 : readFull [⟨[0x0f#8, 0x80#8], none⟩, ⟨[7#8], some .eof⟩] 2 [] =
      (([0x0f#8, 0x80#8], none), [⟨[7#8], some .eof⟩]) := by
    rw [readFull]
    simp [Reader.read]
    rw [readFull]
    simp
  unfold readFrom
  rw [e1]
  have e3 : (length (leU64 (slice ((writeTo bbEx Writer.buffer).2.out.take 10) 2 hdrLen)).toInt
      (((writeTo bbEx Writer.buffer).2.out.take 10).getD 1 0)) = 2 := by decide
  simp only [e3]
  rw [if_neg (by decide), if_neg (by decide), show (2 : Int).toNat = 2 from rfl, e2]
  decide

/-- **C07 fails** (1): a 10-byte buffer on which WithBytes panics (declared count -16). -/
theorem C07_withBytes_can_panic :
    withBytes [1#8, 1#8, 0xf0#8, 0xff#8, 0xff#8, 0xff#8, 0xff#8, 0xff#8, 0xff#8, 0xff#8] = .panic := by
  decide

/-- **C07 fails** (2): a 10-byte buffer (declared count 2^61, width 8) that WithBytes accepts although the
first bucket cannot be read. -/
theorem C07_withBytes_accepts_unreadable :
    ∃ b, withBytes [1#8, 8#8, 0#8, 0#8, 0#8, 0#8, 0#8, 0#8, 0#8, 0x20#8] = .val (.ok b) ∧
      count b = 2 ^ 61 ∧ get b 0 = .panic :=
  ⟨⟨[], 2 ^ 61, 8#8⟩, by decide, by decide, by decide⟩

/-- **C07 fails** (3): ReadFrom panics on the same header. -/
theorem C07_readFrom_can_panic (b0 : BB) (p : Bool) (r : Reader)
    (hr : Delivers p r [1#8, 1#8, 0xf0#8, 0xff#8, 0xff#8, 0xff#8, 0xff#8, 0xff#8, 0xff#8, 0xff#8]) :
    readFrom b0 r = .panic :=
  readFrom_negative b0 hr (by decide) (by decide) (by decide)

/-- **C07 fails** (4): ReadFrom accepts a width above 8 (here 9), which New refuses by panicking. -/
theorem C07_readFrom_accepts_wide (b0 : BB) (r : Reader)
    (hr : Delivers true r [1#8, 9#8, 0#8, 0#8, 0#8, 0#8, 0#8, 0#8, 0#8, 0#8]) :
    (∃ b n rest, readFrom b0 r = .val (b, n, none, rest)) ∧ new 0 9#8 = .panic :=
  ⟨(C06_success_iff b0 r _ hr (fun _ => by decide)).mpr (by decide), by decide⟩

/-- **C07**, the part that holds: if the declared count is non-negative and its bit size fits a 64-bit
int, and the width is not zero, WithBytes does not panic and an accepted bucket has width at most 8 and
every bucket readable. Missing for the full claim: buffers declaring a negative or overflowing count, or
width zero with a positive count (see the theorems above). -/
theorem C07_withBytes_partial (buf : Bytes)
    (hn : 0 ≤ (leU64 (slice buf 2 10)).toInt)
    (hfit : (leU64 (slice buf 2 10)).toInt * ((buf.getD 1 0).toNat : Int) + 7 < 2 ^ 63)
    (hw : buf.getD 1 0 ≠ 0#8) :
    (∃ e, withBytes buf = .val (.error e)) ∨
    (∃ b, withBytes buf = .val (.ok b) ∧ (width b).toNat ≤ 8 ∧ WF b ∧
      ∀ i : Nat, (i : Int) < count b → ∃ x, get b (i : Int) = .val x) := by
  unfold withBytes
  by_cases h1 : buf.length < hdrLen
  · left; exact ⟨_, by rw [if_pos h1]⟩
  rw [if_neg h1]
  by_cases h2 : buf.getD 0 0 ≠ version
  · left; exact ⟨_, by rw [if_pos h2]⟩
  rw [if_neg h2]
  simp only
  by_cases h3 : buf.getD 1 0 > 8#8
  · left; exact ⟨_, by rw [if_pos h3]⟩
  rw [if_neg h3, show (slice buf 2 hdrLen) = slice buf 2 10 from rfl, length_nat hn hfit]
  by_cases h4 : (buf.length : Int) < wrap64 ((hdrLen : Int) +
      (((leU64 (slice buf 2 10)).toInt.toNat * (buf.getD 1 0).toNat + 7) / 8 : Nat))
  · left; exact ⟨_, by rw [if_pos h4]⟩
  rw [if_neg h4]
  right
  have hw0 : 0 < (buf.getD 1 0).toNat := by
    rcases Nat.eq_zero_or_pos (buf.getD 1 0).toNat with h | h
    · exact absurd (BitVec.eq_of_toNat_eq (by simpa using h)) hw
    · exact h
  have hwrap : wrap64 ((hdrLen : Int) +
      (((leU64 (slice buf 2 10)).toInt.toNat * (buf.getD 1 0).toNat + 7) / 8 : Nat))
      = 10 + (((leU64 (slice buf 2 10)).toInt.toNat * (buf.getD 1 0).toNat + 7) / 8 : Nat) := by
    obtain ⟨m, hm⟩ := Int.eq_ofNat_of_zero_le hn
    rw [hm] at hfit ⊢
    have hp : (m : Int) * ((buf.getD 1 0).toNat : Int) = ((m * (buf.getD 1 0).toNat : Nat) : Int) := by
      push_cast; rfl
    rw [hp] at hfit
    simp only [Int.toNat_natCast]
    generalize m * (buf.getD 1 0).toNat = z at *
    unfold hdrLen
    rw [wrap64_id (by omega) (by omega)]; omega
  rw [hwrap] at h4 ⊢
  have hge : ¬ (10 + ((((leU64 (slice buf 2 10)).toInt.toNat * (buf.getD 1 0).toNat + 7) / 8 : Nat) : Int)
    < (hdrLen : Int)) := by unfold hdrLen; omega
  rw [if_neg hge]
  have hwf : WF ⟨slice buf hdrLen (hdrLen + ((((leU64 (slice buf 2 10)).toInt.toNat *
      (buf.getD 1 0).toNat + 7) / 8 : Nat) : Int).toNat), (leU64 (slice buf 2 10)).toInt, buf.getD 1 0⟩ := by
    refine ⟨hw0, le8_of_not_gt h3, hn, hfit, ?_⟩
    simp only
    rw [slice_length _ _ _ (by unfold hdrLen; omega), Int.toNat_natCast]; omega
  refine ⟨_, rfl, le8_of_not_gt h3, hwf, ?_⟩
  intro i hi
  unfold count at hi
  exact ⟨_, get_eq hwf (by simp only at hi ⊢; omega)⟩

example : (0 : Int) ≤ (leU64 (slice (writeTo bbEx Writer.buffer).2.out 2 10)).toInt ∧
    (leU64 (slice (writeTo bbEx Writer.buffer).2.out 2 10)).toInt *
      (((writeTo bbEx Writer.buffer).2.out.getD 1 0).toNat : Int) + 7 < 2 ^ 63 ∧
    (writeTo bbEx Writer.buffer).2.out.getD 1 0 ≠ 0#8 := by decide

/-- **C08.** A bucket opened from the caller's buffer by WithBytes: after a write through it the buffer,
re-opened, yields the updated bucket; bytes outside the data area are untouched and the length stays. -/
theorem C08_shared_buffer (b : BB) (hb : WF b) (extra : Bytes) (op : CounterOp)
    (hop : op.inRange b.n.toNat) :
    ∃ b', applyOp b op = .val b' ∧
      withBytes (storeBack ((writeTo b Writer.buffer).2.out ++ extra) b') = .val (.ok b') ∧
      (storeBack ((writeTo b Writer.buffer).2.out ++ extra) b').length
        = ((writeTo b Writer.buffer).2.out ++ extra).length ∧
      ∀ i, i < 10 ∨ 10 + b.data.length ≤ i →
        (storeBack ((writeTo b Writer.buffer).2.out ++ extra) b')[i]?
          = ((writeTo b Writer.buffer).2.out ++ extra)[i]? := by
  obtain ⟨b', e, hn, hw, h'⟩ := holds_op (holds_self hb) op hop
  have hlen : b'.data.length = b.data.length := by rw [h'.wf.len, hb.len, hn, hw]
  have hfit : hdrLen + b'.data.length ≤ ((writeTo b Writer.buffer).2.out ++ extra).length := by
    rw [writeTo_out _ _ rfl]; simp [Writer.buffer, hdrLen]; omega
  refine ⟨b', e, ?_, splice_length _ _ _ hfit, ?_⟩
  · have : storeBack ((writeTo b Writer.buffer).2.out ++ extra) b' = header b' ++ b'.data ++ extra := by
      unfold storeBack splice
      rw [writeTo_out _ _ rfl]
      simp only [Writer.buffer, List.nil_append]
      have hh : header b' = header b := by unfold header; rw [hn, hw]
      rw [List.append_assoc (header b), List.take_left' (by simp [hdrLen]), ← List.append_assoc (header b),
        List.drop_left' (by simp [hdrLen, hlen]), hh]
    rw [this]
    exact withBytes_encoded h'.wf extra
  · intro i hi
    unfold storeBack
    rw [splice_getElem? _ _ _ hfit]
    unfold hdrLen
    by_cases h10 : i < 10
    · rw [if_pos h10]
    · rw [if_neg h10, if_neg (by omega)]

example : (CounterOp.set 4 6#8).inRange bbEx.n.toNat := (by decide : 4 < 5)

end Starbow.Props
