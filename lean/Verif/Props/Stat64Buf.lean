import Verif.Props.Stat64
/-
Property C70: what a stat64 summary does with its buffer.
-/
namespace Starbow.Props
open Starbow.Spec Starbow.Stat64

/-- the buffer after a call, or the panic -/
def performStat (b : Bytes) : Call → Out Bytes
  | .update v => Stat64.update b v
  | .updateMulti vs => Stat64.updateMulti b vs
  | .reset => .val (Stat64.reset b)

theorem slice_front (b : Bytes) {i j n : Nat} (h : j ≤ n) : slice (b.take n) i j = slice b i j := by
  apply List.ext_getElem?
  intro x
  rw [slice_getElem?, slice_getElem?]
  split
  · rw [List.getElem?_take_of_lt (by omega)]
  · rfl

theorem load_take (b : Bytes) : load (b.take 32) = load b := by
  unfold load
  rw [slice_front _ (by omega), slice_front _ (by omega), slice_front _ (by omega), slice_front _ (by omega)]

theorem store_rest (b : Bytes) (h : 32 ≤ b.length) (a : Acc F64) :
    store b a = store (b.take 32) a ++ b.drop 32 := by
  have h' : 32 ≤ (b.take 32).length := by rw [List.length_take]; omega
  rw [store_eq _ _ h, store_eq _ _ h']
  simp

/-- **C70**: Update, UpdateMulti and Reset of a summary in a buffer of 32 bytes or more change the first 32 bytes only, and in a way that
depends on these only. -/
theorem C70_local (b : Bytes) (h : 32 ≤ b.length) (c : Call) :
    ∃ r, r.length = 32 ∧ performStat (b.take 32) c = .val r ∧ performStat b c = .val (r ++ b.drop 32) := by
  have hl : (b.take 32).length = 32 := by rw [List.length_take]; omega
  cases c with
  | update v =>
    refine ⟨store (b.take 32) (observe (load b) v), by rw [store_length _ _ (by omega), hl], ?_, ?_⟩
    · show update _ _ = _; unfold update; rw [if_neg (by rw [size]; omega), load_take]
    · show update _ _ = _; unfold update; rw [if_neg (by rw [size]; omega), store_rest _ h]
  | updateMulti vs =>
    refine ⟨store (b.take 32) (vs.foldl observe (load b)), by rw [store_length _ _ (by omega), hl], ?_, ?_⟩
    · show updateMulti _ _ = _; unfold updateMulti; rw [if_neg (by rw [size]; omega), load_take]
    · show updateMulti _ _ = _; unfold updateMulti; rw [if_neg (by rw [size]; omega), store_rest _ h]
  | reset =>
    refine ⟨List.replicate 32 0#8, by simp, ?_, ?_⟩
    · unfold performStat reset; rw [hl, size, List.drop_eq_nil_of_le (by omega)]; simp
    · unfold performStat reset; rw [size, Nat.min_eq_left h]

/-- **C70**, the accessors: they read the first 32 bytes only. -/
theorem C70_reads (b : Bytes) (h : 32 ≤ b.length) :
    Stat64.count b = Stat64.count (b.take 32) ∧ Stat64.sum b = Stat64.sum (b.take 32) ∧ Stat64.mean b = Stat64.mean (b.take 32) ∧
      Stat64.variance b = Stat64.variance (b.take 32) := by
  obtain ⟨h1, h2, h3, h4⟩ := accessors b h
  obtain ⟨g1, g2, g3, g4⟩ := accessors (b.take 32) (by rw [List.length_take]; omega)
  rw [h1, h2, h3, h4, g1, g2, g3, g4, load_take]
  exact ⟨rfl, rfl, rfl, rfl⟩

/-- the first eight bytes, as the number of observations -/
def saysMany (b : Bytes) : Prop := 2 ≤ (leU64 (b.take 8)).toNat

/-- **C70**, buffers that are too short (and have no spare capacity): Update and UpdateMulti panic if there are not 32 bytes; Reset never does; Count, Sum and Mean panic if
the buffer ends before the number they return; Variance needs 8 bytes, and 32 if these count two observations or more. -/
theorem C70_short (b : Bytes) :
    (∀ v, Stat64.update b v = .panic ↔ b.length < 32) ∧ (∀ vs, Stat64.updateMulti b vs = .panic ↔ b.length < 32) ∧
    performStat b .reset = .val (List.replicate (min 32 b.length) 0#8 ++ b.drop 32) ∧
    (Stat64.count b = .panic ↔ b.length < 8) ∧ (Stat64.sum b = .panic ↔ b.length < 16) ∧ (Stat64.mean b = .panic ↔ b.length < 24) ∧
    (Stat64.variance b = .panic ↔ b.length < 8 ∨ (saysMany b ∧ b.length < 32)) := by
  refine ⟨fun v => ?_, fun vs => ?_, rfl, ?_, ?_, ?_, ?_⟩
  · unfold Stat64.update; rw [size]; split <;> simp <;> omega
  · unfold Stat64.updateMulti; rw [size]; split <;> simp <;> omega
  · unfold Stat64.count; split <;> simp <;> omega
  · unfold Stat64.sum; split <;> simp <;> omega
  · unfold Stat64.mean; split <;> simp <;> omega
  · have e : slice b 0 8 = b.take 8 := by unfold slice; simp
    unfold Stat64.variance saysMany
    rw [e, size]
    split
    · simp; omega
    · next h8 =>
      split
      · simp; omega
      · split <;> simp <;> omega

/-- instance: in a buffer of 34 bytes the last two stay; and one of 23 bytes has a sum but no mean -/
example : (∃ r, r.length = 32 ∧ performStat (List.replicate 32 0#8 ++ [1#8, 2#8]) (.update (F64.ofNat 5)) = .val (r ++ [1#8, 2#8])) ∧
    Stat64.sum (List.replicate 23 0#8) ≠ .panic ∧ Stat64.mean (List.replicate 23 0#8) = .panic := by
  refine ⟨?_, ?_, ?_⟩
  · obtain ⟨r, h1, _, h2⟩ := C70_local (List.replicate 32 0#8 ++ [1#8, 2#8]) (by simp) (.update (F64.ofNat 5))
    exact ⟨r, h1, h2⟩
  · rw [Ne, (C70_short _).2.2.2.2.1]; simp
  · rw [(C70_short _).2.2.2.2.2.1]; simp

end Starbow.Props
