import Verif.Spec.Io
/- Helper lemmas about scripted readers and writers. -/
namespace Starbow
open Spec

/-- reading up to `n` bytes from a reader that still has some -/
theorem Spec.Delivers.read_some {p : Bool} {r : Reader} {d : Bytes} (h : Delivers p r d) {n : Nat}
    (hn : 0 < n) (hd : d ≠ []) :
    ∃ c d' r', d = c ++ d' ∧ c ≠ [] ∧ c.length ≤ n ∧
      ((r.read n = ((c, none), r') ∧ Delivers p r' d') ∨
       (p = false ∧ r.read n = ((c, some .eof), r') ∧ d' = [] ∧ r' = [])) := by
  cases h with
  | nil => exact absurd rfl hd
  | @cons _ r d c hc h =>
    unfold Reader.read
    simp only
    split
    · exact ⟨c, d, r, rfl, hc, by assumption, .inl ⟨rfl, h⟩⟩
    · rename_i hlt
      refine ⟨c.take n, c.drop n ++ d, ⟨c.drop n, none⟩ :: r, ?_, ?_, ?_, .inl ⟨rfl, ?_⟩⟩
      · rw [← List.append_assoc, List.take_append_drop]
      · intro h0
        have := congrArg List.length h0
        rw [List.length_take, List.length_nil] at this; omega
      · rw [List.length_take]; omega
      · refine .cons ?_ h
        intro h0
        have := congrArg List.length h0
        rw [List.length_drop, List.length_nil] at this; omega
  | last =>
    unfold Reader.read
    simp only
    split
    · exact ⟨d, [], [], by simp, hd, by assumption, .inr (by simp)⟩
    · rename_i hlt
      refine ⟨d.take n, d.drop n, [⟨d.drop n, some .eof⟩], ?_, ?_, ?_, .inl ⟨rfl, .last _⟩⟩
      · rw [List.take_append_drop]
      · intro h0
        have := congrArg List.length h0
        rw [List.length_take, List.length_nil] at this; omega
      · rw [List.length_take]; omega

/-- reading from an exhausted reader -/
theorem Spec.Delivers.read_nil {p : Bool} {r : Reader} (h : Delivers p r []) (n : Nat) :
    r.read n = (([], some .eof), []) := by
  generalize hd : ([] : Bytes) = d at h
  cases h with
  | nil => rfl
  | cons hc h => simp at hd; exact absurd hd.1 hc
  | last => subst hd; simp [Reader.read]

/-- enough bytes: `io.ReadFull` returns exactly the next ones -/
theorem readFull_ok {p : Bool} (want : Nat) : ∀ (m : Nat) (acc d : Bytes) (r : Reader),
    want - acc.length = m → acc.length ≤ want → Delivers p r d → m ≤ d.length →
    ∃ r', readFull r want acc = ((acc ++ d.take m, none), r') ∧ Delivers p r' (d.drop m) := by
  intro m
  induction m using Nat.strongRecOn with
  | ind m ih =>
    intro acc d r hm hle hr hd
    rw [readFull]
    by_cases h0 : want ≤ acc.length
    · have : m = 0 := by omega
      subst this
      rw [dif_pos h0]
      exact ⟨r, by simp, by simpa using hr⟩
    · rw [dif_neg h0]
      have hdn : d ≠ [] := by
        intro h; subst h; simp at hd; omega
      obtain ⟨c, d', r', hcd, hc, hcl, hcase⟩ := hr.read_some (n := want - acc.length) (by omega) hdn
      have hclen : 0 < c.length := List.length_pos_iff.mpr hc
      rcases hcase with ⟨hrd, hdl⟩ | ⟨_, hrd, hd', hr'⟩
      · split
        · rename_i d0 r0 heq
          rw [hrd] at heq
          simp only [Prod.mk.injEq, and_true] at heq
          obtain ⟨rfl, rfl⟩ := heq
          obtain ⟨r'', h1, h2⟩ := ih (m - c.length) (by omega) (acc ++ c) d' r'
            (by simp; omega) (by simp; omega) hdl (by subst hcd; simp at hd; omega)
          refine ⟨r'', ?_, ?_⟩
          · rw [h1]; subst hcd; congr 2
            rw [List.append_assoc, List.take_append, List.take_of_length_le (by omega : c.length ≤ m)]
          · subst hcd
            rw [List.drop_append, List.drop_of_length_le (by omega : c.length ≤ m)]
            simpa using h2
        · rename_i heq; rw [hrd] at heq; simp at heq
      · split
        · rename_i heq; rw [hrd] at heq; simp at heq
        · rename_i d0 e0 r0 heq
          rw [hrd] at heq
          simp only [Prod.mk.injEq] at heq
          obtain ⟨⟨rfl, he⟩, rfl⟩ := heq
          subst hd'; subst hr'
          simp only [List.append_nil] at hcd
          subst hcd
          have hw : want ≤ (acc ++ d).length := by simp; omega
          simp only
          rw [if_pos hw]
          refine ⟨[], ?_, ?_⟩
          · rw [List.take_of_length_le (by omega)]
          · rw [List.drop_of_length_le (by omega)]; exact .nil p

/-- not enough bytes: `io.ReadFull` fails with EOF (nothing read) or ErrUnexpectedEOF -/
theorem readFull_short {p : Bool} (want : Nat) : ∀ (m : Nat) (acc d : Bytes) (r : Reader),
    want - acc.length = m → acc.length ≤ want → Delivers p r d → d.length < m →
    ∃ r', readFull r want acc =
      ((acc ++ d, some (if acc ++ d = [] then .eof else .unexpectedEOF)), r') := by
  intro m
  induction m using Nat.strongRecOn with
  | ind m ih =>
    intro acc d r hm hle hr hd
    rw [readFull, dif_neg (by omega)]
    by_cases hdn : d = []
    · subst hdn
      have hrd := hr.read_nil (want - acc.length)
      split
      · rename_i heq; rw [hrd] at heq; simp at heq
      · rename_i d0 e0 r0 heq
        rw [hrd] at heq
        simp only [Prod.mk.injEq, Option.some.injEq] at heq
        obtain ⟨⟨rfl, rfl⟩, rfl⟩ := heq
        simp only [List.append_nil]
        rw [if_neg (by omega)]
        by_cases ha : acc = []
        · subst ha; exact ⟨[], by simp⟩
        · have : 0 < acc.length := List.length_pos_iff.mpr ha
          exact ⟨[], by simp [ha, this]⟩
    · obtain ⟨c, d', r', hcd, hc, hcl, hcase⟩ := hr.read_some (n := want - acc.length) (by omega) hdn
      have hclen : 0 < c.length := List.length_pos_iff.mpr hc
      rcases hcase with ⟨hrd, hdl⟩ | ⟨_, hrd, hd', hr'⟩
      · split
        · rename_i d0 r0 heq
          rw [hrd] at heq
          simp only [Prod.mk.injEq, and_true] at heq
          obtain ⟨rfl, rfl⟩ := heq
          obtain ⟨r'', h1⟩ := ih (m - c.length) (by omega) (acc ++ c) d' r'
            (by simp; omega) (by simp; omega) hdl (by subst hcd; simp at hd; omega)
          exact ⟨r'', by rw [h1]; subst hcd; simp⟩
        · rename_i heq; rw [hrd] at heq; simp at heq
      · split
        · rename_i heq; rw [hrd] at heq; simp at heq
        · rename_i d0 e0 r0 heq
          rw [hrd] at heq
          simp only [Prod.mk.injEq, Option.some.injEq] at heq
          obtain ⟨⟨rfl, rfl⟩, rfl⟩ := heq
          subst hd'; subst hr'
          simp only [List.append_nil] at hcd
          subst hcd
          have hw : ¬ want ≤ (acc ++ d).length := by simp; omega
          simp only
          rw [if_neg hw]
          have : 0 < (acc ++ d).length := by simp; omega
          refine ⟨[], ?_⟩
          rw [if_pos ⟨this, by simp⟩, if_neg (by intro h; rw [h] at this; simp at this)]

theorem bytesReader_delivers (p : Bool) (d : Bytes) : Delivers p (bytesReader d) d := by
  unfold bytesReader
  split
  · subst d; exact .nil p
  · rename_i h
    have := Delivers.cons (p := p) h (.nil p)
    simpa using this

theorem chunkReader_delivers (p : Bool) (cs : List Bytes) (h : ∀ c ∈ cs, c ≠ []) :
    Delivers p (chunkReader cs) cs.flatten := by
  induction cs with
  | nil => exact .nil p
  | cons c cs ih =>
    exact .cons (h c (by simp)) (ih fun x hx => h x (by simp [hx]))

end Starbow
