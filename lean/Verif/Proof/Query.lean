import Verif.Model.Query
import Verif.Spec.Query
/-
Lemmas about the regular expression matcher and the three expressions of the query parser.
-/
namespace Starbow.Query
open Starbow.Collation Starbow.Spec

theorem ws_iff (b : Byte) : ws b = true ↔ Space b := by
  unfold ws Space
  simp only [Bool.or_eq_true, beq_iff_eq]
  grind

/-! ### repetition -/

/-- the first result over the ways `p*` can match -/
def firstStar {β : Type} (p : Byte → Bool) (f : Bytes → List β) (s : Bytes) : Option β := ((starRun p s).flatMap f).head?

theorem firstStar_nil {β : Type} (p : Byte → Bool) (f : Bytes → List β) : firstStar p f [] = (f []).head? := by
  simp [firstStar, starRun]

theorem firstStar_cons {β : Type} (p : Byte → Bool) (f : Bytes → List β) (b : Byte) (s : Bytes) :
    firstStar p f (b :: s) = if p b then (firstStar p f s).or (f (b :: s)).head? else (f (b :: s)).head? := by
  unfold firstStar
  rw [starRun]
  split
  · rw [List.flatMap_append, List.head?_append]; simp
  · simp

theorem mem_starRun {p : Byte → Bool} {r s : Bytes} : r ∈ starRun p s ↔ ∃ v, s = v ++ r ∧ ∀ b ∈ v, p b = true := by
  induction s with
  | nil =>
    rw [starRun, List.mem_singleton]
    constructor
    · rintro rfl; exact ⟨[], rfl, by simp⟩
    · rintro ⟨v, h, _⟩
      exact (List.append_eq_nil_iff.1 h.symm).2
  | cons b s ih =>
    rw [starRun]
    split
    · next hb =>
      rw [List.mem_append, ih, List.mem_singleton]
      constructor
      · rintro (⟨v, rfl, hv⟩ | rfl)
        · exact ⟨b :: v, rfl, by simpa [hb] using hv⟩
        · exact ⟨[], rfl, by simp⟩
      · rintro ⟨v, h, hv⟩
        cases v with
        | nil => exact .inr h.symm
        | cons c v =>
          simp only [List.cons_append, List.cons.injEq] at h
          exact .inl ⟨v, h.2, fun b hb => hv b (by simp [hb])⟩
    · next hb =>
      rw [List.mem_singleton]
      constructor
      · rintro rfl; exact ⟨[], rfl, by simp⟩
      · rintro ⟨v, h, hv⟩
        cases v with
        | nil => exact h.symm
        | cons c v =>
          simp only [List.cons_append, List.cons.injEq] at h
          have := hv c (by simp)
          rw [← h.1] at this
          exact absurd this hb

theorem firstStar_none {β : Type} {p : Byte → Bool} {f : Bytes → List β} {s : Bytes}
    (h : ∀ v t, s = v ++ t → (∀ b ∈ v, p b = true) → f t = []) : firstStar p f s = none := by
  unfold firstStar
  rw [List.head?_eq_none_iff, List.flatMap_eq_nil_iff]
  intro t ht
  obtain ⟨v, hv, hp⟩ := mem_starRun.1 ht
  exact h v t hv hp

/-- if the continuation succeeds after `u` and after no longer match, that is the result -/
theorem firstStar_hit {β : Type} {p : Byte → Bool} {f : Bytes → List β} {u t : Bytes} {x : β} (hu : ∀ b ∈ u, p b = true)
    (hx : (f t).head? = some x) (hno : ∀ v t', t = v ++ t' → v ≠ [] → (∀ b ∈ v, p b = true) → f t' = []) :
    firstStar p f (u ++ t) = some x := by
  have base : firstStar p f t = some x := by
    cases t with
    | nil => rw [firstStar_nil, hx]
    | cons b t =>
      rw [firstStar_cons]
      split
      · next hb =>
        rw [firstStar_none, hx]
        · rfl
        · intro v t' e hv
          exact hno (b :: v) t' (by rw [e]; rfl) (by simp) (by simpa [hb] using hv)
      · exact hx
  induction u with
  | nil => exact base
  | cons b u ih =>
    rw [List.cons_append, firstStar_cons, if_pos (hu b (by simp)), ih fun b hb => hu b (by simp [hb])]
    rfl

/-- if there is a result, it comes from the longest match after which the continuation succeeds -/
theorem firstStar_some {β : Type} {p : Byte → Bool} {f : Bytes → List β} {s : Bytes} {x : β} (h : firstStar p f s = some x) :
    ∃ v t, s = v ++ t ∧ (∀ b ∈ v, p b = true) ∧ (f t).head? = some x ∧
      ∀ v' t', s = v' ++ t' → (∀ b ∈ v', p b = true) → f t' ≠ [] → v'.length ≤ v.length := by
  induction s generalizing x with
  | nil =>
    rw [firstStar_nil] at h
    refine ⟨[], [], rfl, by simp, h, ?_⟩
    intro v' t' e _ _
    rw [(List.append_eq_nil_iff.1 e.symm).1]
    simp
  | cons b s ih =>
    rw [firstStar_cons] at h
    split at h
    · next hb =>
      cases hs : firstStar p f s with
      | some y =>
        rw [hs] at h
        simp only [Option.some_or, Option.some.injEq] at h
        subst h
        obtain ⟨v, t, e, hv, ht, hmax⟩ := ih hs
        refine ⟨b :: v, t, by rw [e]; rfl, by simpa [hb] using hv, ht, ?_⟩
        intro v' t' e' hv' hf
        cases v' with
        | nil => simp
        | cons c v' =>
          simp only [List.cons_append, List.cons.injEq] at e'
          have := hmax v' t' e'.2 (fun b hb => hv' b (by simp [hb])) hf
          simp only [List.length_cons]; omega
      | none =>
        rw [hs] at h
        simp only [Option.none_or] at h
        refine ⟨[], b :: s, rfl, by simp, h, ?_⟩
        intro v' t' e' hv' hf
        cases v' with
        | nil => simp
        | cons c v' =>
          simp only [List.cons_append, List.cons.injEq] at e'
          exfalso
          unfold firstStar at hs
          rw [List.head?_eq_none_iff, List.flatMap_eq_nil_iff] at hs
          exact hf (hs t' (mem_starRun.2 ⟨v', e'.2, fun b hb => hv' b (by simp [hb])⟩))
    · next hb =>
      refine ⟨[], b :: s, rfl, by simp, h, ?_⟩
      intro v' t' e' hv' hf
      cases v' with
      | nil => simp
      | cons c v' =>
        simp only [List.cons_append, List.cons.injEq] at e'
        have := hv' c (by simp)
        rw [← e'.1] at this
        exact absurd this hb

/-! ### what matches, as a set -/

theorem mem_cls {p : Byte → Bool} {s : Bytes} {x : Bytes × List Bytes} :
    x ∈ (Re.cls p).run s ↔ ∃ b t, s = b :: t ∧ p b = true ∧ x = (t, []) := by
  cases s with
  | nil => simp [Re.run]
  | cons b s =>
    rw [Re.run]
    split
    · next hb =>
      rw [List.mem_singleton]
      constructor
      · rintro rfl; exact ⟨b, s, rfl, hb, rfl⟩
      · rintro ⟨_, _, e, _, rfl⟩
        simp only [List.cons.injEq] at e
        rw [e.2]
    · next hb =>
      constructor
      · simp
      · rintro ⟨_, _, e, h, rfl⟩
        simp only [List.cons.injEq] at e
        rw [← e.1] at h
        exact absurd h hb

theorem mem_seq {a b : Re} {s : Bytes} {x : Bytes × List Bytes} :
    x ∈ (Re.seq a b).run s ↔ ∃ y ∈ a.run s, ∃ z ∈ b.run y.1, x = (z.1, y.2 ++ z.2) := by
  rw [Re.run]
  simp only [List.mem_flatMap, List.mem_map]
  constructor
  · rintro ⟨y, hy, z, hz, rfl⟩; exact ⟨y, hy, z, hz, rfl⟩
  · rintro ⟨y, hy, z, hz, rfl⟩; exact ⟨y, hy, z, hz, rfl⟩

theorem mem_star {p : Byte → Bool} {s : Bytes} {x : Bytes × List Bytes} :
    x ∈ (Re.star p).run s ↔ ∃ v t, s = v ++ t ∧ (∀ b ∈ v, p b = true) ∧ x = (t, []) := by
  rw [Re.run]
  simp only [List.mem_map, mem_starRun]
  constructor
  · rintro ⟨t, ⟨v, e, hv⟩, rfl⟩; exact ⟨v, t, e, hv, rfl⟩
  · rintro ⟨v, t, e, hv, rfl⟩; exact ⟨t, ⟨v, e, hv⟩, rfl⟩

theorem mem_plus {p : Byte → Bool} {s : Bytes} {x : Bytes × List Bytes} :
    x ∈ (plus p).run s ↔ ∃ v t, s = v ++ t ∧ v ≠ [] ∧ (∀ b ∈ v, p b = true) ∧ x = (t, []) := by
  unfold plus
  rw [mem_seq]
  simp only [mem_cls, mem_star]
  constructor
  · rintro ⟨_, ⟨b, t, rfl, hb, rfl⟩, z, ⟨v, t', e, hv, rfl⟩, rfl⟩
    simp only at e
    subst e
    exact ⟨b :: v, t', rfl, by simp, by simpa [hb] using hv, rfl⟩
  · rintro ⟨v, t, rfl, hne, hv, rfl⟩
    cases v with
    | nil => exact absurd rfl hne
    | cons b v =>
      exact ⟨(v ++ t, []), ⟨b, v ++ t, rfl, hv b (by simp), rfl⟩, (t, []), ⟨v, t, rfl, fun b hb => hv b (by simp [hb]), rfl⟩, rfl⟩

theorem take_sub_length {α : Type} (v t : List α) : (v ++ t).take ((v ++ t).length - t.length) = v := by
  rw [List.length_append, Nat.add_sub_cancel]
  simp

theorem mem_groupPlus {p : Byte → Bool} {s : Bytes} {x : Bytes × List Bytes} :
    x ∈ (Re.group (plus p)).run s ↔ ∃ v t, s = v ++ t ∧ v ≠ [] ∧ (∀ b ∈ v, p b = true) ∧ x = (t, [v]) := by
  rw [Re.run]
  simp only [List.mem_map, mem_plus]
  constructor
  · rintro ⟨_, ⟨v, t, rfl, hne, hv, rfl⟩, rfl⟩
    refine ⟨v, t, rfl, hne, hv, ?_⟩
    simp only [take_sub_length]
  · rintro ⟨v, t, rfl, hne, hv, rfl⟩
    refine ⟨(t, []), ⟨v, t, rfl, hne, hv, rfl⟩, ?_⟩
    simp only [take_sub_length]

theorem mem_eol {s : Bytes} {x : Bytes × List Bytes} : x ∈ Re.eol.run s ↔ s = [] ∧ x = ([], []) := by
  rw [Re.run]
  split <;> simp_all

theorem mem_lit {c : Byte} {s : Bytes} {x : Bytes × List Bytes} : x ∈ (lit c).run s ↔ ∃ t, s = c :: t ∧ x = (t, []) := by
  unfold lit
  rw [mem_cls]
  constructor
  · rintro ⟨b, t, e, hb, rfl⟩
    simp only [beq_iff_eq] at hb
    subst hb
    exact ⟨t, e, rfl⟩
  · rintro ⟨t, e, rfl⟩; exact ⟨c, t, e, by simp, rfl⟩

theorem mem_letter {c : Byte} {s : Bytes} {x : Bytes × List Bytes} :
    x ∈ (letter c).run s ↔ ∃ a t, s = a ++ t ∧ LetterOf c a ∧ x = (t, []) := by
  unfold letter
  split
  · next hc =>
    subst hc
    rw [Re.run, List.mem_append, mem_cls, mem_seq]
    simp only [mem_lit]
    constructor
    · rintro (⟨b, t, rfl, hb, rfl⟩ | ⟨_, ⟨t, rfl, rfl⟩, _, ⟨t', e, rfl⟩, rfl⟩)
      · simp only [Bool.or_eq_true, beq_iff_eq] at hb
        rcases hb with rfl | rfl
        · exact ⟨[0x73], t, rfl, .inl rfl, rfl⟩
        · exact ⟨[0x53], t, rfl, .inr (.inl rfl), rfl⟩
      · simp only at e
        subst e
        exact ⟨[0xc5, 0xbf], t', rfl, .inr (.inr ⟨rfl, rfl⟩), rfl⟩
    · rintro ⟨a, t, rfl, ha, rfl⟩
      rcases ha with rfl | rfl | ⟨_, rfl⟩
      · exact .inl ⟨0x73, t, rfl, by simp, rfl⟩
      · exact .inl ⟨0x53, t, rfl, by simp, rfl⟩
      · exact .inr ⟨(0xbf :: t, []), ⟨0xbf :: t, rfl, rfl⟩, (t, []), ⟨t, rfl, rfl⟩, rfl⟩
  · next hc =>
    rw [mem_cls]
    constructor
    · rintro ⟨b, t, rfl, hb, rfl⟩
      simp only [Bool.or_eq_true, beq_iff_eq] at hb
      rcases hb with rfl | rfl
      · exact ⟨[b], t, rfl, .inl rfl, rfl⟩
      · exact ⟨[c - 0x20], t, rfl, .inr (.inl rfl), rfl⟩
    · rintro ⟨a, t, rfl, ha, rfl⟩
      rcases ha with rfl | rfl | ⟨h, _⟩
      · exact ⟨c, t, rfl, by simp, rfl⟩
      · exact ⟨c - 0x20, t, rfl, by simp, rfl⟩
      · exact absurd h hc

theorem mem_word {w : Bytes} {r : Re} {s : Bytes} {x : Bytes × List Bytes} :
    x ∈ (word w r).run s ↔ ∃ a t, s = a ++ t ∧ Keyword w a ∧ x ∈ r.run t := by
  induction w generalizing s x with
  | nil =>
    rw [word]
    constructor
    · intro h; exact ⟨[], s, rfl, .nil, h⟩
    · rintro ⟨a, t, rfl, h, hx⟩
      cases h
      exact hx
  | cons c w ih =>
    rw [word, mem_seq]
    simp only [mem_letter]
    constructor
    · rintro ⟨_, ⟨a, t, rfl, ha, rfl⟩, z, hz, rfl⟩
      obtain ⟨a', t', e, hk, hz'⟩ := ih.1 hz
      simp only at e
      subst e
      exact ⟨a ++ a', t', by simp, .cons ha hk, by simpa using hz'⟩
    · rintro ⟨_, t, rfl, h, hx⟩
      cases h with
      | @cons _ _ a s' ha hk =>
        refine ⟨(s' ++ t, []), ⟨a, s' ++ t, by simp, ha, rfl⟩, x, ih.2 ⟨s', t, rfl, hk, hx⟩, by simp⟩

/-! ### the first match -/

theorem run_seq_star (p : Byte → Bool) (r : Re) (s : Bytes) : ((Re.seq (.star p) r).run s).head? = firstStar p r.run s := by
  rw [Re.run, Re.run, List.flatMap_map]
  simp [firstStar]

theorem run_seq_plus (p : Byte → Bool) (r : Re) (b : Byte) (t : Bytes) (hb : p b = true) :
    ((Re.seq (plus p) r).run (b :: t)).head? = firstStar p r.run t := by
  rw [Re.run, plus, Re.run, Re.run, if_pos hb]
  simp [firstStar, List.flatMap_map, Re.run]

theorem run_seq_groupPlus (p : Byte → Bool) (r : Re) (b : Byte) (t : Bytes) (hb : p b = true) :
    ((Re.seq (.group (plus p)) r).run (b :: t)).head? =
      firstStar p (fun rest => (r.run rest).map fun y => (y.1, (b :: t).take ((b :: t).length - rest.length) :: y.2)) t := by
  rw [Re.run, Re.run, plus, Re.run, Re.run, if_pos hb]
  simp [firstStar, List.flatMap_map, Re.run]

theorem run_seq_lit (c : Byte) (r : Re) (t : Bytes) : (Re.seq (lit c) r).run (c :: t) = r.run t := by
  rw [Re.run, lit, Re.run, if_pos (by simp)]
  simp

theorem run_seq_lit_ne {c b : Byte} (r : Re) (t : Bytes) (h : b ≠ c) : (Re.seq (lit c) r).run (b :: t) = [] := by
  rw [Re.run, lit, Re.run, if_neg (by simpa using h)]
  simp

/-- the letters of a keyword: lower case letters -/
def LowerWord (w : Bytes) : Prop := ∀ c ∈ w, 0x61 ≤ c ∧ c ≤ 0x7a

theorem lower_cases {b c : Byte} (hc : 0x61 ≤ c ∧ c ≤ 0x7a) (h : lower b = c) : b = c ∨ b = c - 0x20 := by
  unfold lower at h
  split at h
  · right; bv_omega
  · left; exact h

theorem lower_of_letter {c : Byte} (hc : 0x61 ≤ c ∧ c ≤ 0x7a) : lower c = c ∧ lower (c - 0x20) = c := by
  unfold lower
  constructor
  · rw [if_neg]; bv_omega
  · rw [if_pos]
    · bv_omega
    · constructor <;> bv_omega

theorem run_letter {c b : Byte} (hc : 0x61 ≤ c ∧ c ≤ 0x7a) (h : lower b = c) (r : Re) (t : Bytes) :
    (Re.seq (letter c) r).run (b :: t) = r.run t := by
  have hb := lower_cases hc h
  rw [Re.run]
  unfold letter
  split
  · next h73 =>
    subst h73
    have : b = 0x73 ∨ b = 0x53 := hb
    have hne : b ≠ 0xc5 := by rintro rfl; revert this; decide
    rw [Re.run, Re.run, if_pos (by simpa using this), run_seq_lit_ne _ _ hne]
    simp
  · rw [Re.run, if_pos (by simpa using hb)]
    simp

theorem run_word {w kw : Bytes} (hw : LowerWord w) (h : Spells w kw) (r : Re) (t : Bytes) : (word w r).run (kw ++ t) = r.run t := by
  induction w generalizing kw with
  | nil =>
    unfold Spells at h
    rw [List.map_eq_nil_iff] at h
    subst h
    rfl
  | cons c w ih =>
    cases kw with
    | nil => simp [Spells] at h
    | cons b kw =>
      unfold Spells at h
      simp only [List.map_cons, List.cons.injEq] at h
      rw [word, List.cons_append, run_letter (hw c (by simp)) h.1]
      exact ih (fun c hc => hw c (by simp [hc])) h.2

theorem keyword_spells {w kw : Bytes} (hw : LowerWord w) (h : Spells w kw) : Keyword w kw := by
  induction w generalizing kw with
  | nil =>
    unfold Spells at h
    rw [List.map_eq_nil_iff] at h
    subst h
    exact .nil
  | cons c w ih =>
    cases kw with
    | nil => simp [Spells] at h
    | cons b kw =>
      unfold Spells at h
      simp only [List.map_cons, List.cons.injEq] at h
      refine .cons (a := [b]) ?_ (ih (fun c hc => hw c (by simp [hc])) h.2)
      rcases lower_cases (hw c (by simp)) h.1 with rfl | rfl
      · exact .inl rfl
      · exact .inr (.inl rfl)

theorem spells_keyword {w kw : Bytes} (hw : LowerWord w) (hs : 0x73 ∉ w) (h : Keyword w kw) : Spells w kw := by
  induction h with
  | nil => rfl
  | @cons c w a s ha hk ih =>
    have hc := lower_of_letter (hw c (by simp))
    unfold Spells
    rw [List.map_append, ih (fun c hc => hw c (by simp [hc])) (fun h => hs (List.mem_cons_of_mem _ h))]
    rcases ha with rfl | rfl | ⟨rfl, _⟩
    · simp [hc.1]
    · rw [List.map_singleton, hc.2]; rfl
    · simp at hs

theorem where_lower : LowerWord (asc "where") := by
  intro c hc
  have : ∀ c ∈ asc "where", 0x61 ≤ c ∧ c ≤ 0x7a := by decide +kernel
  exact this c hc

theorem select_lower : LowerWord (asc "select") := by
  intro c hc
  have : ∀ c ∈ asc "select", 0x61 ≤ c ∧ c ≤ 0x7a := by decide +kernel
  exact this c hc

theorem where_spells {kw : Bytes} : Keyword (asc "where") kw ↔ Spells (asc "where") kw :=
  ⟨spells_keyword where_lower (by decide +kernel), keyword_spells where_lower⟩

end Starbow.Query
