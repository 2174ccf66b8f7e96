import Verif.Proof.Bloom
import Verif.Proof.Wrapped
import Verif.Spec.History
/-
Property theorems C09, C10, C11 and the bloom part of C16.
-/
namespace Starbow.Props
open Starbow.Spec Starbow.Bloom

/-- Running a history against the model. -/
def runBloom (b : Filter) : AddHist → Out Filter
  | [] => .val b
  | some v :: h => do
    let b' ← add b v
    runBloom b' h
  | none :: h => runBloom (reset b) h

theorem newBits_wf (m : Nat) (k : Byte) (hm : 1 ≤ m) (hf : m + 7 < 2 ^ 63) :
    ∃ b, newBits (m : Int) k = .val b ∧ WF b ∧ b.m = m ∧ b.k = k ∧
      b.bits.data = List.replicate ((m + 7) / 8) 0#8 := by
  have e : (1#8).toNat = 1 := rfl
  obtain ⟨bb, e1, hn, hw, h⟩ := Bitbucket.new_holds (n := (m : Int)) (w := 1#8) (by omega) (by decide)
    (by decide) (by rw [e]; omega)
  have hd : bb.data = List.replicate ((m + 7) / 8) 0#8 := by
    have : Bitbucket.new (m : Int) 1#8 = .val ⟨List.replicate ((m + 7) / 8) 0#8, m, 1#8⟩ := by
      have hl := Bitbucket.length_nat (n := (m : Int)) (w := 1#8) (by omega) (by rw [e]; omega)
      rw [e, Int.toNat_natCast, Nat.mul_one] at hl
      unfold Bitbucket.new Bitbucket.makeBytes
      rw [if_neg (by decide), hl, if_neg (by omega)]
      rfl
    rw [this] at e1
    have e1 := Out.val.inj e1
    rw [← e1]
  refine ⟨⟨bb, m, k⟩, ?_, ⟨h.wf, hw, hn, by simp only; omega⟩, rfl, rfl, hd⟩
  unfold newBits
  rw [e1]
  rfl

/-- what a history leaves: the union of the positions of the live values -/
theorem runBloom_eq (h : AddHist) : ∀ {b : Filter} (acc : List Bytes), WF b →
    b.bits.data = (acc.flatMap (posOf b)).foldl setBit (List.replicate b.bits.data.length 0#8) →
    runBloom b h = .val { b with bits := { b.bits with data :=
      (((h.foldl liveStep acc).flatMap
        (posOf b)).foldl setBit (List.replicate b.bits.data.length 0#8)) } } := by
  induction h with
  | nil =>
    intro b acc hb hd
    simp only [runBloom, List.foldl_nil]
    rw [← hd]
  | cons o h ih =>
    intro b acc hb hd
    cases o with
    | some v =>
      rw [runBloom, add_eq hb v, Out.bind_val]
      have hl : ((posOf b v).foldl setBit b.bits.data).length = b.bits.data.length := foldl_setBit_length _ _
      rw [ih (b := { b with bits := { b.bits with data := (posOf b v).foldl setBit b.bits.data } })
        (acc ++ [v]) (hb.withData _ hl) ?_]
      · simp only [hl, List.foldl_cons]
        rfl
      · simp only [hl, List.flatMap_append, List.foldl_append, List.flatMap_cons, List.flatMap_nil,
          List.append_nil]
        conv => lhs; rw [hd]
        rfl
    | none =>
      have hl : (Bitbucket.reset b.bits).data.length = b.bits.data.length := by simp [Bitbucket.reset]
      have hr : reset b = { b with bits := { b.bits with data := (b.bits.data.map fun _ => 0#8) } } := rfl
      rw [runBloom, hr, ih (b := { b with bits := { b.bits with data := (b.bits.data.map fun _ => 0#8) } })
        [] (hb.withData _ (by simp)) (by simp [List.map_const'])]
      simp only [List.length_map, List.foldl_cons]
      rfl

theorem live_eq (h : AddHist) : live h = h.foldl liveStep [] := rfl

/-- state of a fresh filter after a history -/
theorem runBloom_fresh (m : Nat) (k : Byte) (hm : 1 ≤ m) (hf : m + 7 < 2 ^ 63) (h : AddHist) :
    ∃ b0, newBits (m : Int) k = .val b0 ∧ WF b0 ∧ b0.k = k ∧
      runBloom b0 h = .val { b0 with bits := { b0.bits with data :=
        (((live h).flatMap (posOf b0)).foldl setBit (List.replicate b0.bits.data.length 0#8)) } } := by
  obtain ⟨b0, e0, hwf, _, hk, hd⟩ := newBits_wf m k hm hf
  refine ⟨b0, e0, hwf, hk, ?_⟩
  rw [live_eq]
  exact runBloom_eq h [] hwf (by simp only [List.flatMap_nil, List.foldl_nil]; rw [hd]; simp)

/-- **C09.** For every filter with `m ≥ 1` bits and any `k`, any history of Add and Reset calls runs
without panicking, `Has` never panics, and it is true for every value added since creation or the last
Reset. Hence a `false` answer means the value was not added. -/
theorem C09_no_false_negatives (m : Nat) (k : Byte) (hm : 1 ≤ m) (hf : m + 7 < 2 ^ 63) (h : AddHist) :
    ∃ b0 b, newBits (m : Int) k = .val b0 ∧ runBloom b0 h = .val b ∧
      (∀ v, ∃ r, has b v = .val r) ∧
      (∀ v, v ∈ live h → has b v = .val true) ∧
      (∀ v, has b v = .val false → v ∉ live h) := by
  obtain ⟨b0, e0, hwf, _, e1⟩ := runBloom_fresh m k hm hf h
  have hwf' := hwf.withData (((live h).flatMap (posOf b0)).foldl setBit
    (List.replicate b0.bits.data.length 0#8)) (by rw [foldl_setBit_length]; simp)
  have hlive : ∀ v, v ∈ live h → has { b0 with bits := { b0.bits with data :=
      (((live h).flatMap (posOf b0)).foldl setBit (List.replicate b0.bits.data.length 0#8)) } } v
      = .val true := by
    intro v hv
    rw [has_eq hwf' v]
    refine congrArg Out.val (List.all_eq_true.mpr ?_)
    intro q hq
    have hq' : q ∈ posOf b0 v := hq
    have hb : ∀ x ∈ (live h).flatMap (posOf b0), x < 8 * (List.replicate b0.bits.data.length 0#8).length := by
      intro x hx
      obtain ⟨w, _, hw⟩ := List.mem_flatMap.mp hx
      simpa using posOf_bound hwf w x hw
    simp only
    rw [foldl_setBit_bit _ _ _ hb (by simpa using posOf_bound hwf v q hq')]
    rw [decide_eq_true (List.mem_flatMap.mpr ⟨v, hv, hq'⟩)]
    rfl
  refine ⟨b0, _, e0, e1, ?_, hlive, ?_⟩
  · intro v; exact ⟨_, has_eq hwf' v⟩
  · intro v hf hv
    rw [hlive v hv] at hf
    have hf := Out.val.inj hf
    simp at hf

/-- **C10**, set semantics: two histories whose live values are the same as sets leave exactly the same
filter (whatever the order, repetitions and Resets). -/
theorem C10_set_semantics (m : Nat) (k : Byte) (hm : 1 ≤ m) (hf : m + 7 < 2 ^ 63) (h h' : AddHist)
    (hset : ∀ v, v ∈ live h ↔ v ∈ live h') (b0 b b' : Filter) (h0 : newBits (m : Int) k = .val b0)
    (h1 : runBloom b0 h = .val b) (h2 : runBloom b0 h' = .val b') : b = b' := by
  obtain ⟨b1, e0, hwf, _, e1⟩ := runBloom_fresh m k hm hf h
  obtain ⟨b2, e0', _, _, e2⟩ := runBloom_fresh m k hm hf h'
  rw [h0] at e0 e0'; have e0 := Out.val.inj e0; have e0' := Out.val.inj e0'; subst e0; subst e0'
  rw [h1] at e1; rw [h2] at e2
  have e1 := Out.val.inj e1; have e2 := Out.val.inj e2
  rw [e1, e2]
  have : ((live h).flatMap (posOf b0)).foldl setBit (List.replicate b0.bits.data.length 0#8)
      = ((live h').flatMap (posOf b0)).foldl setBit (List.replicate b0.bits.data.length 0#8) := by
    have hb : ∀ hh : AddHist, ∀ x ∈ (live hh).flatMap (posOf b0),
        x < 8 * (List.replicate b0.bits.data.length 0#8).length := by
      intro hh x hx
      obtain ⟨w, _, hw⟩ := List.mem_flatMap.mp hx
      simpa using posOf_bound hwf w x hw
    apply bytes_ext
    · rw [foldl_setBit_length, foldl_setBit_length]
    · intro j hj
      rw [foldl_setBit_length] at hj
      rw [foldl_setBit_bit _ _ _ (hb h) hj, foldl_setBit_bit _ _ _ (hb h') hj]
      have hdec : decide (j ∈ (live h).flatMap (posOf b0)) = decide (j ∈ (live h').flatMap (posOf b0)) :=
        decide_eq_decide.mpr (by simp only [List.mem_flatMap, hset])
      rw [hdec]
  rw [this]

theorem foldl_live_mem (more : List Bytes) : ∀ (acc : List Bytes) (w : Bytes), w ∈ acc →
    w ∈ (more.map some).foldl liveStep acc := by
  induction more with
  | nil => intro acc w hw; exact hw
  | cons x more ih => intro acc w hw; exact ih _ w (by simp [liveStep, hw])

/-- **C10**, monotone: a positive answer stays positive when more values are added. -/
theorem C10_monotone (m : Nat) (k : Byte) (hm : 1 ≤ m) (hf : m + 7 < 2 ^ 63) (h : AddHist)
    (more : List Bytes) (v : Bytes) (b0 b b' : Filter) (h0 : newBits (m : Int) k = .val b0)
    (h1 : runBloom b0 h = .val b) (h2 : runBloom b0 (h ++ more.map some) = .val b')
    (hv : has b v = .val true) : has b' v = .val true := by
  obtain ⟨b1, e0, hwf, _, e1⟩ := runBloom_fresh m k hm hf h
  obtain ⟨b2, e0', _, _, e2⟩ := runBloom_fresh m k hm hf (h ++ more.map some)
  rw [h0] at e0 e0'; have e0 := Out.val.inj e0; have e0' := Out.val.inj e0'; subst e0; subst e0'
  rw [h1] at e1; rw [h2] at e2
  have e1 := Out.val.inj e1; have e2 := Out.val.inj e2
  have hsub : ∀ w, w ∈ live h → w ∈ live (h ++ more.map some) := by
    intro w hw
    rw [live_eq] at hw ⊢
    rw [List.foldl_append]
    exact foldl_live_mem more _ w hw
  have hb : ∀ hh : AddHist, ∀ x ∈ (live hh).flatMap (posOf b0),
      x < 8 * (List.replicate b0.bits.data.length 0#8).length := by
    intro hh x hx
    obtain ⟨w, _, hw⟩ := List.mem_flatMap.mp hx
    simpa using posOf_bound hwf w x hw
  have hwf1 := hwf.withData (((live h).flatMap (posOf b0)).foldl setBit
    (List.replicate b0.bits.data.length 0#8)) (by rw [foldl_setBit_length]; simp)
  have hwf2 := hwf.withData (((live (h ++ more.map some)).flatMap (posOf b0)).foldl setBit
    (List.replicate b0.bits.data.length 0#8)) (by rw [foldl_setBit_length]; simp)
  rw [e1, has_eq hwf1] at hv
  rw [e2, has_eq hwf2]
  have hv := Out.val.inj hv
  refine congrArg Out.val ?_
  rw [List.all_eq_true] at hv ⊢
  intro q hq
  have hq1 : q ∈ posOf b0 v := hq
  have h3 := hv q hq
  have hqb : q < 8 * (List.replicate b0.bits.data.length 0#8).length := by
    simpa using posOf_bound hwf v q hq1
  simp only at h3 ⊢
  rw [foldl_setBit_bit _ _ _ (hb _) hqb] at h3 ⊢
  simp only [Bool.or_eq_true, decide_eq_true_eq] at h3 ⊢
  rcases h3 with h3 | h3
  · left
    obtain ⟨w, hw1, hw2⟩ := List.mem_flatMap.mp h3
    exact List.mem_flatMap.mpr ⟨w, hsub w hw1, hw2⟩
  · right; exact h3

/-- **C10**, empty: with `k ≥ 1` a filter that is fresh or has just been Reset answers false for
everything. -/
theorem C10_empty (m : Nat) (k : Byte) (hk : k ≠ 0#8) (hm : 1 ≤ m) (hf : m + 7 < 2 ^ 63) (h : AddHist)
    (hh : h = [] ∨ ∃ h', h = h' ++ [none]) (v : Bytes) (b0 b : Filter)
    (h0 : newBits (m : Int) k = .val b0) (h1 : runBloom b0 h = .val b) : has b v = .val false := by
  obtain ⟨b1, e0, hwf, hk', e1⟩ := runBloom_fresh m k hm hf h
  rw [h0] at e0; have e0 := Out.val.inj e0; subst e0
  rw [h1] at e1; have e1 := Out.val.inj e1
  have hl : live h = [] := by
    rw [live_eq]
    rcases hh with rfl | ⟨h', rfl⟩
    · rfl
    · rw [List.foldl_append]; rfl
  rw [hl] at e1
  rw [e1, has_eq (hwf.withData _ (by simp))]
  refine congrArg Out.val ?_
  simp only [List.flatMap_nil, List.foldl_nil]
  have hkn : 0 < k.toNat := by
    rcases Nat.eq_zero_or_pos k.toNat with h | h
    · exact absurd (BitVec.eq_of_toNat_eq (by simpa using h)) hk
    · exact h
  unfold posOf
  simp only
  rw [hk']
  obtain ⟨c, hc⟩ : ∃ c, k.toNat = c + 1 := ⟨k.toNat - 1, by omega⟩
  rw [hc, positions, List.all_cons, Bitbucket.bitAt_replicate, Bool.false_and]

/-- hypotheses of C09/C10 are met: a 100-bit filter with 3 hash functions -/
example : (1 ≤ 100 ∧ 100 + 7 < 2 ^ 63) ∧ live [some (asc "a"), none, some (asc "b"), some (asc "c"), some (asc "b")]
    = [asc "b", asc "c", asc "b"] := by decide

/-- the bytes of a serialised filter -/
theorem bloom_out (b : Filter) :
    (writeTo b Writer.buffer).2.out = [1#8, b.k] ++ (Bitbucket.writeTo b.bits Writer.buffer).2.out ∧
    (writeTo b Writer.buffer).1 = (2 + (Bitbucket.writeTo b.bits Writer.buffer).1.1,
      (Bitbucket.writeTo b.bits Writer.buffer).1.2) := by
  unfold writeTo
  simp only [Writer.write, Writer.buffer]
  rw [Bitbucket.writeTo_out _ _ rfl, Bitbucket.writeTo_out _ _ rfl]
  simp [version]

/-- **C11**, writing: `Len()` bytes, reported. -/
theorem C11_write (b : Filter) (hb : WF b) :
    (writeTo b Writer.buffer).1 = (lenOf b, none) ∧ (writeTo b Writer.buffer).2.out.length = lenOf b := by
  obtain ⟨h1, h2⟩ := bloom_out b
  obtain ⟨h3, h4, _⟩ := C05_write b.bits hb.bits
  rw [h1, h2]
  constructor
  · rw [h3]; rfl
  · rw [List.length_append, h4]; rfl

/-- **C11**, reading back through any reader gives the same filter (hence the same answers). -/
theorem C11_readFrom (b : Filter) (hb : WF b) (b0 : Filter) (p : Bool) (r : Reader)
    (hr : Delivers p r (writeTo b Writer.buffer).2.out) :
    ∃ rest, readFrom b0 r = .val (b, lenOf b, none, rest) := by
  obtain ⟨h1, _⟩ := bloom_out b
  rw [h1] at hr
  obtain ⟨r1, e1, d1⟩ := hdr2_ok hr (by simp)
  obtain ⟨t1, t2⟩ := Bitbucket.out_cons b.bits 0 [1#8, b.k] rfl
  rw [t2] at d1
  rw [t1] at e1
  have hfit := b.bits
  -- the bucket reader stops at EOF
  obtain ⟨rest, e2⟩ := C05_readFrom b.bits hb.bits ⟨[], 0, 0#8⟩ p r1 d1
  have hrest : rest.read 2 = (([], some .eof), []) := by
    have hd := Bitbucket.encode_declared hb.bits b.bits.data
    rw [Bitbucket.writeTo_out _ _ rfl] at d1
    simp only [Writer.buffer, List.nil_append] at d1
    obtain ⟨f1, f2, f3⟩ := Bitbucket.header_fields b.bits b.bits.data
    obtain ⟨r2, g1, g2⟩ := Bitbucket.readFrom_data ⟨[], 0, 0#8⟩ d1 (by simp) f1 (by rw [hd]; omega)
      (by rw [hd]; simp)
    rw [hd, Int.toNat_natCast, List.drop_of_length_le (by simp)] at g1
    rw [g1.read_nil] at g2
    rw [g2] at e2
    have e2 := Out.val.inj e2
    simp only [Prod.mk.injEq] at e2
    rw [← e2.2.2.2]
    rfl
  refine ⟨[], ?_⟩
  unfold readFrom
  rw [show Bloom.hdrLen = 2 from rfl, e1]
  simp only
  rw [if_neg (by simp [version]), e2]
  simp only [Out.bind_val]
  rw [hrest]
  have hm : Bitbucket.count b.bits = b.m := hb.n
  simp only [List.length_nil, Nat.add_zero, ne_eq, not_true_eq_false, if_false, Out.pure_eq]
  rw [hm]
  rfl

/-- **C11**, adopting a buffer. -/
theorem C11_withBytes (b : Filter) (hb : WF b) (extra : Bytes) :
    withBytes ((writeTo b Writer.buffer).2.out ++ extra) = .val (.ok b) := by
  obtain ⟨h1, _⟩ := bloom_out b
  rw [h1]
  unfold withBytes
  rw [if_neg (by simp), if_neg (by simp [version]), if_neg (by simp)]
  have : ([1#8, b.k] ++ (Bitbucket.writeTo b.bits Writer.buffer).2.out ++ extra).drop 2
      = (Bitbucket.writeTo b.bits Writer.buffer).2.out ++ extra := rfl
  rw [this, C05_withBytes b.bits hb.bits extra]
  simp only [Out.bind_val, Out.pure_eq]
  rw [show Bitbucket.count b.bits = b.m from hb.n]
  rfl

/-- **C11**, same answers: the filter read back answers every query like the original. -/
theorem C11_same_answers (b : Filter) (hb : WF b) (b0 : Filter) (p : Bool) (r : Reader)
    (hr : Delivers p r (writeTo b Writer.buffer).2.out) (b' : Filter) (n : Nat) (e : Option Err)
    (rest : Reader) (h : readFrom b0 r = .val (b', n, e, rest)) (v : Bytes) : has b' v = has b v := by
  obtain ⟨rest', h'⟩ := C11_readFrom b hb b0 p r hr
  rw [h'] at h
  have h := Out.val.inj h
  simp only [Prod.mk.injEq] at h
  rw [h.1]

/-- **C11**, damaged streams: wrong version. -/
theorem C11_version (b0 : Filter) (p : Bool) (r : Reader) (d : Bytes) (hr : Delivers p r d)
    (hl : 2 ≤ d.length) (hv : d.getD 0 0 ≠ 1#8) :
    ∃ rest, readFrom b0 r = .val (b0, 2, some .incompatibleVersion, rest) := by
  obtain ⟨r1, e1, _⟩ := hdr2_ok hr hl
  refine ⟨r1, ?_⟩
  unfold readFrom
  rw [show Bloom.hdrLen = 2 from rfl, e1]
  simp only
  have : (d.take 2).getD 0 0 = d.getD 0 0 := by
    rw [List.getD_eq_getElem?_getD, List.getD_eq_getElem?_getD, List.getElem?_take_of_lt (by omega)]
  rw [this, if_pos (by exact hv), List.length_take, Nat.min_eq_left hl]

/-- **C11**, damaged streams: every proper prefix is refused. -/
theorem C11_truncated (b : Filter) (hb : WF b) (b0 : Filter) (p : Bool) (r : Reader) (k : Nat)
    (hk : k < lenOf b) (hr : Delivers p r ((writeTo b Writer.buffer).2.out.take k)) :
    ∃ b' rest, readFrom b0 r = .val (b', k, some .unexpectedEOF, rest) := by
  obtain ⟨h1, _⟩ := bloom_out b
  rw [h1] at hr
  have hbl := (C05_write b.bits hb.bits).2.1
  unfold lenOf at hk
  unfold Bloom.hdrLen at hk
  by_cases h2 : k < 2
  · have hl : (([1#8, b.k] ++ (Bitbucket.writeTo b.bits Writer.buffer).2.out).take k).length = k := by
      rw [List.length_take, List.length_append]; simp only [List.length_cons, List.length_nil]; omega
    obtain ⟨r1, e, e1, he⟩ := hdr2_short hr (by omega)
    refine ⟨b0, r1, ?_⟩
    unfold readFrom
    rw [show Bloom.hdrLen = 2 from rfl, e1]
    simp only
    rw [he, hl]
  · have ht : ([1#8, b.k] ++ (Bitbucket.writeTo b.bits Writer.buffer).2.out).take k
        = [1#8, b.k] ++ (Bitbucket.writeTo b.bits Writer.buffer).2.out.take (k - 2) := by
      rw [List.take_append, List.take_of_length_le (by simp; omega)]; rfl
    rw [ht] at hr
    obtain ⟨r1, e1, d1⟩ := hdr2_ok hr (by simp)
    rw [show List.drop 2 = List.drop [1#8, b.k].length from rfl, List.drop_left] at d1
    rw [show List.take 2 = List.take [1#8, b.k].length from rfl, List.take_left] at e1
    obtain ⟨bb, rest, e2⟩ := Bitbucket.readFrom_truncated b.bits hb.bits ⟨[], 0, 0#8⟩ p r1 (k - 2)
      (by omega) d1
    refine ⟨{ b0 with k := b.k, bits := bb }, rest, ?_⟩
    unfold readFrom
    rw [show Bloom.hdrLen = 2 from rfl, e1]
    simp only
    rw [if_neg (by simp [version]), e2]
    simp only [Out.bind_val, Out.pure_eq]
    have : [1#8, b.k].length + (k - 2) = k := by simp; omega
    rw [this]
    rfl

/-- **C11**, damaged streams: trailing data, for readers with a separate EOF (as for C06). -/
theorem C11_trailing_partial (b : Filter) (hb : WF b) (b0 : Filter) (r : Reader) (extra : Bytes)
    (hx : extra ≠ []) (hr : Delivers true r ((writeTo b Writer.buffer).2.out ++ extra)) :
    ∃ b' n rest, readFrom b0 r = .val (b', n, some .shortBuffer, rest) := by
  obtain ⟨h1, _⟩ := bloom_out b
  rw [h1, List.append_assoc] at hr
  obtain ⟨r1, e1, d1⟩ := hdr2_ok hr (by simp)
  rw [show List.drop 2 = List.drop [1#8, b.k].length from rfl, List.drop_left] at d1
  rw [show List.take 2 = List.take [1#8, b.k].length from rfl, List.take_left] at e1
  obtain ⟨bb, n, rest, e2⟩ := C06_trailing_partial b.bits hb.bits ⟨[], 0, 0#8⟩ r1 extra hx d1
  refine ⟨{ b0 with k := b.k, bits := bb }, 2 + n, rest, ?_⟩
  unfold readFrom
  rw [show Bloom.hdrLen = 2 from rfl, e1]
  simp only
  rw [if_neg (by simp [version]), e2]
  rfl

/-- a concrete well-formed filter, reached by adding "a" to a 10-bit filter with k = 2 -/
def bloomEx : Filter := ⟨⟨[0x00#8, 0x00#8], 10, 1#8⟩, 10, 2#8⟩
example : newBits 10 2#8 = .val bloomEx := by decide
theorem bloomEx_wf : WF bloomEx := ⟨⟨by decide, by decide, by decide, by decide, by decide⟩, rfl, rfl, by decide⟩

/-- **C16 fails** for bloom (1): WithBytes panics on an empty buffer and on a one-byte buffer. -/
theorem C16_bloom_withBytes_can_panic : withBytes [] = .panic ∧ withBytes [1#8] = .panic := by decide

/-- **C16 fails** for bloom (2): a buffer declaring zero bits is accepted and Add / Has panic on it. -/
theorem C16_bloom_zero_bits_add_panics :
    ∃ b, withBytes ([1#8, 1#8] ++ [1#8, 1#8, 0#8, 0#8, 0#8, 0#8, 0#8, 0#8, 0#8, 0#8]) = .val (.ok b) ∧
      (∀ v, add b v = .panic) ∧ (∀ v, has b v = .panic) := by
  refine ⟨⟨⟨[], 0, 1#8⟩, 0, 1#8⟩, by decide, ?_, ?_⟩
  · intro v; rfl
  · intro v; rfl

/-- **C16**, bloom, the part that holds: a buffer of at least 2 bytes whose bucket header declares width 1
and a positive count of bits that fits: WithBytes does not panic, and on an accepted filter Add and Has
do not panic for any value. -/
theorem C16_bloom_partial (buf : Bytes) (h2 : 2 ≤ buf.length)
    (hn : 0 < (leU64 (slice (buf.drop 2) 2 10)).toInt)
    (hfit : (leU64 (slice (buf.drop 2) 2 10)).toInt + 7 < 2 ^ 63)
    (hw : (buf.drop 2).getD 1 0 = 1#8) :
    (∃ e, withBytes buf = .val (.error e)) ∨
    (∃ b, withBytes buf = .val (.ok b) ∧ (∀ v, ∃ b', add b v = .val b') ∧ ∀ v, ∃ r, has b v = .val r) := by
  unfold withBytes
  rw [if_neg (by omega)]
  by_cases hv : buf.getD 0 0 ≠ version
  · left; exact ⟨_, by rw [if_pos hv]⟩
  rw [if_neg hv, if_neg (by omega)]
  have e1 : (1#8).toNat = 1 := rfl
  rcases C07_withBytes_partial (buf.drop 2) (by omega) (by rw [hw, e1]; omega) (by rw [hw]; decide) with
    ⟨e, he⟩ | ⟨bb, he, _, hwf, _⟩
  · left; exact ⟨e, by rw [he]; rfl⟩
  · right
    have hbb : bb.n = (leU64 (slice (buf.drop 2) 2 10)).toInt ∧ bb.w = (buf.drop 2).getD 1 0 := by
      unfold Bitbucket.withBytes at he
      simp only at he
      split at he; · simp at he
      split at he; · simp at he
      split at he; · simp at he
      split at he; · simp at he
      split at he; · simp at he
      have he := Except.ok.inj (Out.val.inj he)
      subst he
      exact ⟨rfl, rfl⟩
    have hF : WF ⟨bb, Bitbucket.count bb, buf.getD 1 0⟩ :=
      ⟨hwf, hbb.2.trans hw, rfl, by unfold Bitbucket.count; simp only; rw [hbb.1]; omega⟩
    refine ⟨⟨bb, Bitbucket.count bb, buf.getD 1 0⟩, by rw [he]; rfl, ?_, ?_⟩
    · intro v; exact ⟨_, add_eq hF v⟩
    · intro v; exact ⟨_, has_eq hF v⟩

example : 2 ≤ (writeTo bloomEx Writer.buffer).2.out.length ∧
    0 < (leU64 (slice ((writeTo bloomEx Writer.buffer).2.out.drop 2) 2 10)).toInt ∧
    (leU64 (slice ((writeTo bloomEx Writer.buffer).2.out.drop 2) 2 10)).toInt + 7 < 2 ^ 63 ∧
    ((writeTo bloomEx Writer.buffer).2.out.drop 2).getD 1 0 = 1#8 := by decide

end Starbow.Props
