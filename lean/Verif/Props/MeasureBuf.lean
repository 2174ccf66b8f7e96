import Verif.Props.Stat64Buf
import Verif.Props.Hll
import Verif.Proof.Record
import Verif.Props.WithBytes
/-
Property C77: what the writers and readers of a measure do with the bytes they are given.
-/
namespace Starbow.Props
open Starbow Starbow.Collation

/-- the writer of a measure that takes numbers; `Count`, which looks at no value, too -/
def numberWriter (m : Measure) (buf : Bytes) (init : Bool) (v : F64) : Wrote :=
  if m = .count then countWriter buf else contWriterFn m buf init v

theorem leU64_take (b : Bytes) : leU64 (b.take 8) = leU64 b := by
  apply BitVec.eq_of_getLsbD_eq
  intro k hk
  rw [leU64_bit _ k hk, leU64_bit _ k hk]
  congr 1
  rw [List.getD_eq_getElem?_getD, List.getD_eq_getElem?_getD, List.getElem?_take_of_lt (by omega)]

theorem splice_front (b : Bytes) (x : U64) (h : 8 ≤ b.length) : splice b 0 (le64 x) = le64 x ++ b.drop 8 ∧ splice (b.take 8) 0 (le64 x) = le64 x := by
  unfold splice
  constructor
  · simp
  · simp

/-- **C77**, numbers: the writer of Count, Sum, Mean, Variance, Max and Min, given at least `Size()` bytes, returns no error, changes the first
`Size()` bytes only, and in a way that depends on these only. -/
theorem C77_writer (m : Measure) (hm : m = .count ∨ m.continuousInput = true) (buf : Bytes) (h : m.size ≤ buf.length) (init : Bool) (v : F64) :
    ∃ r, (r.length : Int) = m.size ∧ numberWriter m (buf.take m.size.toNat) init v = (r, .val none) ∧
      numberWriter m buf init v = (r ++ buf.drop m.size.toNat, .val none) := by
  have put : 8 ≤ buf.length → ∃ r : Bytes, (r.length : Int) = 8 ∧ putFloat (buf.take 8) v = (r, .val none) ∧
      putFloat buf v = (r ++ buf.drop 8, .val none) := by
    intro h8
    have hl : (buf.take 8).length = 8 := by rw [List.length_take]; omega
    refine ⟨le64 (F64.toBits v), by simp, ?_, ?_⟩
    · unfold putFloat; rw [if_neg (by omega), (splice_front buf _ h8).2]
    · unfold putFloat; rw [if_neg (by omega), (splice_front buf _ h8).1]
  have keep : 8 ≤ buf.length → ∃ r : Bytes, (r.length : Int) = 8 ∧ (buf.take 8, (.val none : Out (Option Err))) = (r, .val none) ∧
      (buf, (.val none : Out (Option Err))) = (r ++ buf.drop 8, .val none) := by
    intro h8
    exact ⟨buf.take 8, by rw [List.length_take]; omega, rfl, by rw [List.take_append_drop]⟩
  have stat : 32 ≤ buf.length → ∃ r : Bytes, (r.length : Int) = 32 ∧ statWriter (buf.take 32) v = (r, .val none) ∧
      statWriter buf v = (r ++ buf.drop 32, .val none) := by
    intro h32
    obtain ⟨r, h1, h2, h3⟩ := C70_local buf h32 (.update v)
    refine ⟨r, by omega, ?_, ?_⟩
    · unfold statWriter; rw [show Stat64.update (buf.take 32) v = .val r from h2]
    · unfold statWriter; rw [show Stat64.update buf v = .val (r ++ buf.drop 32) from h3]
  cases m with
  | count =>
    have h8 : 8 ≤ buf.length := by have : (8 : Int) ≤ buf.length := h; omega
    have hl : (buf.take 8).length = 8 := by rw [List.length_take]; omega
    refine ⟨le64 (leU64 buf + 1), by simp [Measure.size], ?_, ?_⟩
    · show countWriter (buf.take 8) = _
      unfold countWriter; rw [if_neg (by omega), leU64_take, (splice_front buf _ h8).2]
    · show countWriter buf = _
      unfold countWriter; rw [if_neg (by omega), (splice_front buf _ h8).1]; rfl
  | sum => exact stat (by have : (32 : Int) ≤ buf.length := h; omega)
  | mean => exact stat (by have : (32 : Int) ≤ buf.length := h; omega)
  | variance => exact stat (by have : (32 : Int) ≤ buf.length := h; omega)
  | max =>
    have h8 : 8 ≤ buf.length := by have : (8 : Int) ≤ buf.length := h; omega
    have hl : (buf.take 8).length = 8 := by rw [List.length_take]; omega
    show ∃ r : Bytes, (r.length : Int) = 8 ∧ maxWriter (buf.take 8) init v = _ ∧ maxWriter buf init v = (r ++ buf.drop 8, _)
    unfold maxWriter
    rw [leU64_take, if_neg (by omega : ¬ (buf.take 8).length < 8), if_neg (by omega : ¬ buf.length < 8)]
    cases init
    · simp only [Bool.false_eq_true, if_false]
      split
      · exact keep h8
      · exact put h8
    · simp only [if_true]
      exact put h8
  | min =>
    have h8 : 8 ≤ buf.length := by have : (8 : Int) ≤ buf.length := h; omega
    have hl : (buf.take 8).length = 8 := by rw [List.length_take]; omega
    show ∃ r : Bytes, (r.length : Int) = 8 ∧ minWriter (buf.take 8) init v = _ ∧ minWriter buf init v = (r ++ buf.drop 8, _)
    unfold minWriter
    rw [leU64_take, if_neg (by omega : ¬ (buf.take 8).length < 8), if_neg (by omega : ¬ buf.length < 8)]
    cases init
    · simp only [Bool.false_eq_true, if_false]
      split
      · exact keep h8
      · exact put h8
    · simp only [if_true]
      exact put h8
  | cardinality p => rcases hm with hm | hm <;> simp [Measure.continuousInput] at hm

/-- **C77**, numbers, readers: given at least `Size()` bytes they return a value, which depends on these bytes only. -/
theorem C77_reader (lib : Lib) (m : Measure) (hm : m = .count ∨ m.continuousInput = true) (buf : Bytes) (h : m.size ≤ buf.length) :
    ∃ x, readerFn lib m buf = .val (.ok x) ∧ readerFn lib m (buf.take m.size.toNat) = .val (.ok x) := by
  have stat : 32 ≤ buf.length → ∀ f : Bytes → Out F64, (∃ x, f buf = .val x) → f buf = f (buf.take 32) →
      ∃ x, (do return .ok (← f buf) : Out (Except Err F64)) = .val (.ok x) ∧ (do return .ok (← f (buf.take 32)) : Out (Except Err F64)) = .val (.ok x) := by
    rintro h32 f ⟨x, hx⟩ he
    rw [← he, hx]
    exact ⟨x, rfl, rfl⟩
  have word : 8 ≤ buf.length → ∀ g : U64 → F64, ∃ x, (if buf.length < 8 then .panic else .val (.ok (g (leU64 buf))) : Out (Except Err F64)) = .val (.ok x) ∧
      (if (buf.take 8).length < 8 then .panic else .val (.ok (g (leU64 (buf.take 8)))) : Out (Except Err F64)) = .val (.ok x) := by
    intro h8 g
    have hl : (buf.take 8).length = 8 := by rw [List.length_take]; omega
    rw [if_neg (by omega), if_neg (by omega), leU64_take]
    exact ⟨_, rfl, rfl⟩
  cases m with
  | count => exact word (by have : (8 : Int) ≤ buf.length := h; omega) F64.ofU64
  | sum =>
    have h32 : 32 ≤ buf.length := by have : (32 : Int) ≤ buf.length := h; omega
    exact stat h32 Stat64.sum ⟨_, (accessors buf h32).2.1⟩ (C70_reads buf h32).2.1
  | mean =>
    have h32 : 32 ≤ buf.length := by have : (32 : Int) ≤ buf.length := h; omega
    exact stat h32 Stat64.mean ⟨_, (accessors buf h32).2.2.1⟩ (C70_reads buf h32).2.2.1
  | variance =>
    have h32 : 32 ≤ buf.length := by have : (32 : Int) ≤ buf.length := h; omega
    exact stat h32 Stat64.variance ⟨_, (accessors buf h32).2.2.2⟩ (C70_reads buf h32).2.2.2
  | max => exact word (by have : (8 : Int) ≤ buf.length := h; omega) F64.ofBits
  | min => exact word (by have : (8 : Int) ≤ buf.length := h; omega) F64.ofBits
  | cardinality p => rcases hm with hm | hm <;> simp [Measure.continuousInput] at hm

/-- **C77**, too few bytes: the writers and readers of Count, Max and Min panic on fewer than eight bytes, without having changed any. -/
theorem C77_short (lib : Lib) (m : Measure) (hm : m = .count ∨ m = .max ∨ m = .min) (buf : Bytes) (h : buf.length < m.size) (init : Bool) (v : F64) :
    numberWriter m buf init v = (buf, .panic) ∧ readerFn lib m buf = .panic := by
  rcases hm with rfl | rfl | rfl
  · have h8 : buf.length < 8 := by have : (buf.length : Int) < 8 := h; omega
    exact ⟨if_pos h8, if_pos h8⟩
  · have h8 : buf.length < 8 := by have : (buf.length : Int) < 8 := h; omega
    refine ⟨?_, if_pos h8⟩
    show maxWriter buf init v = _
    unfold maxWriter putFloat
    rw [if_pos h8, if_pos h8]
    cases init <;> rfl
  · have h8 : buf.length < 8 := by have : (buf.length : Int) < 8 := h; omega
    refine ⟨?_, if_pos h8⟩
    show minWriter buf init v = _
    unfold minWriter putFloat
    rw [if_pos h8, if_pos h8]
    cases init <;> rfl

/-! ### cardinality -/

/-- the bytes `WriteTo` gives for a counter -/
private theorem enc_eq (c : Hll.Counter) : (Hll.writeTo c Writer.buffer).2.out = enc c := rfl

private theorem storeBack_rest {c c' : Hll.Counter} (hc : Hll.WF c) (hc' : Hll.WF c') (hp : c'.p = c.p) (rest : Bytes) :
    cardStoreBack (enc c ++ rest) c' = enc c' ++ rest := by
  have hlen : c'.bits.data.length = c.bits.data.length := by
    rw [hc'.bits.len, hc.bits.len, hc'.n, hc.n, hc'.w, hc.w, hp]
  have hh : Bitbucket.header c'.bits = Bitbucket.header c.bits := by
    unfold Bitbucket.header; rw [hc'.n, hc.n, hc'.w, hc.w, hp]
  have e1 : ∀ c : Hll.Counter, enc c = [1#8, c.p] ++ (Bitbucket.header c.bits ++ c.bits.data) := by
    intro c
    unfold enc
    rw [(hll_out c).1, Bitbucket.writeTo_out _ _ rfl]
    rfl
  rw [e1 c, e1 c']
  unfold cardStoreBack Bitbucket.storeBack splice
  rw [List.append_assoc [1#8, c.p], List.take_left' (by rfl), List.drop_left' (by rfl), List.append_assoc (Bitbucket.header c.bits)]
  rw [List.take_left' (by simp [Bitbucket.hdrLen]), hh, hp, ← List.append_assoc (Bitbucket.header c.bits),
    List.drop_left' (by simp [Bitbucket.hdrLen, hlen])]
  simp

/-- **C77**, cardinality: on a new record of at least `Size()` bytes the writer puts a counter of one value into the first `Size()` bytes, whatever
was there, and on a record that begins with a counter it adds to it; the bytes behind stay. The reader counts what the counter counts. -/
theorem C77_cardinality (lib : Lib) (p : Int) (h4 : 4 ≤ p) (h18 : p ≤ 18) (v : Bytes) :
    (∀ buf : Bytes, (Measure.cardinality p).size ≤ buf.length →
      ∃ c0 c, Hll.new (precision p) = .val c0 ∧ Hll.add c0 v = .val c ∧
        cardWriter p buf true v = ((Hll.writeTo c Writer.buffer).2.out ++ buf.drop (Measure.cardinality p).size.toNat, .val none)) ∧
    (∀ (c : Hll.Counter) (rest : Bytes), Hll.WF c → ∃ c', Hll.add c v = .val c' ∧
      cardWriter p ((Hll.writeTo c Writer.buffer).2.out ++ rest) false v = ((Hll.writeTo c' Writer.buffer).2.out ++ rest, .val none)) ∧
    (∀ (c : Hll.Counter) (rest : Bytes) (n : Int), Hll.WF c → Hll.count lib.log c = .val n →
      readerFn lib (.cardinality p) ((Hll.writeTo c Writer.buffer).2.out ++ rest) = .val (.ok (F64.ofInt n))) := by
  have hp := card_precision h4 h18
  refine ⟨?_, ?_, ?_⟩
  · intro buf hb
    obtain ⟨c0, e0, w0, p0⟩ := hll_new_wf (p := precision p) (by omega) (by omega)
    obtain ⟨c, e, w, hpc⟩ := add_wf w0 v
    refine ⟨c0, c, e0, e, ?_⟩
    have hl : ((enc c).length : Int) = (Measure.cardinality p).size := by rw [enc_length w, hpc, p0]; rfl
    unfold cardWriter
    rw [if_pos rfl, e0, Out.bind_val, e]
    simp only
    rw [(C13_write c w).1, enc_eq]
    unfold copyTo
    rw [List.take_of_length_le (by omega), show (enc c).length = (Measure.cardinality p).size.toNat by omega]
  · intro c rest hc
    obtain ⟨c', e, w, hpc⟩ := add_wf hc v
    refine ⟨c', e, ?_⟩
    unfold cardWriter
    rw [if_neg (by simp), C13_withBytes c hc rest]
    simp only
    rw [e]
    simp only
    rw [enc_eq, enc_eq, storeBack_rest hc w hpc]
  · intro c rest n hc hn
    show (do
      match ← Hll.withBytes ((Hll.writeTo c Writer.buffer).2.out ++ rest) with
      | .error e => return .error e
      | .ok s => return .ok (F64.ofInt (← Hll.count lib.log s)) : Out (Except Err F64)) = _
    rw [C13_withBytes c hc rest]
    simp only [Out.bind_val]
    rw [hn]
    rfl

/-- **C77 fails** for cardinality on too few bytes: on a new record of two to `Size()`-1 bytes the writer reports success although the counter is
cut off, and every later write to that record fails. -/
theorem C77_cardinality_short_refuted (p : Int) (h4 : 4 ≤ p) (h18 : p ≤ 18) (v w : Bytes) (buf : Bytes) (h2 : 2 ≤ buf.length)
    (hs : buf.length < (Measure.cardinality p).size) :
    ∃ buf', cardWriter p buf true v = (buf', .val none) ∧ cardWriter p buf' false w = (buf', .val (some .shortBuffer)) := by
  have hp := card_precision h4 h18
  obtain ⟨c0, e0, w0, p0⟩ := hll_new_wf (p := precision p) (by omega) (by omega)
  obtain ⟨c, e, hw, hpc⟩ := add_wf w0 v
  have hl : ((enc c).length : Int) = (Measure.cardinality p).size := by rw [enc_length hw, hpc, p0]; rfl
  refine ⟨(enc c).take buf.length, ?_, ?_⟩
  · unfold cardWriter
    rw [if_pos rfl, e0, Out.bind_val, e]
    simp only
    rw [(C13_write c hw).1, enc_eq]
    unfold copyTo
    rw [List.drop_of_length_le (by omega), List.append_nil]
  · have hL := (C13_write c hw).2.1
    rw [enc_eq] at hL
    have := C76_prefix.2 c hw buf.length h2 (by omega)
    rw [enc_eq] at this
    unfold cardWriter
    rw [if_neg (by simp), this]

example : (2 : Nat) ≤ (List.replicate 20 0#8 : Bytes).length ∧ ((List.replicate 20 0#8 : Bytes).length : Int) < (Measure.cardinality 10).size := by decide

example : Measure.max.size ≤ ((List.replicate 11 0xff#8 : Bytes).length : Int) ∧ Measure.variance.size ≤ ((List.replicate 32 0#8 : Bytes).length : Int) ∧
    ((List.replicate 7 0#8 : Bytes).length : Int) < Measure.min.size := by decide

end Starbow.Props
