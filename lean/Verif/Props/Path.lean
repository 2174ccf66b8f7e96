import Verif.Props.Server
/-
Property C44: which paths the server redirects to their cleaned form.
-/
namespace Starbow.Props
open Starbow Starbow.Server

/-- a bad element begins here: `//`, `/./` or `/../`, or `/.` or `/..` at the end -/
def BadHead (t : Bytes) : Prop :=
  asc "//" <+: t ∨ asc "/./" <+: t ∨ asc "/../" <+: t ∨ t = asc "/." ∨ t = asc "/.."

/-- the path with these elements -/
def pathOf (es : List Bytes) : Bytes := es.flatMap fun e => 0x2f :: e

private theorem sl : asc "//" = [0x2f, 0x2f] ∧ asc "/./" = [0x2f, 0x2e, 0x2f] ∧ asc "/../" = [0x2f, 0x2e, 0x2e, 0x2f] ∧
    asc "/." = [0x2f, 0x2e] ∧ asc "/.." = [0x2f, 0x2e, 0x2e] ∧ asc "." = [0x2e] ∧ asc ".." = [0x2e, 0x2e] := by decide +kernel

theorem badHead_slash {t : Bytes} (h : BadHead t) : ∃ s, t = 0x2f :: s := by
  obtain ⟨s1, s2, s3, s4, s5, _⟩ := sl
  unfold BadHead at h
  rw [s1, s2, s3, s4, s5] at h
  rcases h with ⟨x, rfl⟩ | ⟨x, rfl⟩ | ⟨x, rfl⟩ | rfl | rfl <;> exact ⟨_, rfl⟩

private theorem badHead_aux (S D : Byte) (hSD : S ≠ D) {e r : Bytes} (he : S ∉ e) (hr : r = [] ∨ ∃ s, r = S :: s) :
    ([S, S] <+: S :: e ++ r ∨ [S, D, S] <+: S :: e ++ r ∨ [S, D, D, S] <+: S :: e ++ r ∨ S :: e ++ r = [S, D] ∨ S :: e ++ r = [S, D, D]) ↔
      (e = [] ∧ r ≠ []) ∨ e = [D] ∨ e = [D, D] := by
  rcases e with _ | ⟨a, _ | ⟨b, _ | ⟨c, e⟩⟩⟩
  · rcases hr with rfl | ⟨s, rfl⟩
    · simp [List.prefix_iff_eq_append]
    · simp [List.cons_prefix_cons]
  · simp only [List.mem_cons, List.not_mem_nil, or_false] at he
    rcases hr with rfl | ⟨s, rfl⟩
    · simp [List.cons_prefix_cons, he]
    · simp only [List.cons_append, List.nil_append, List.cons_prefix_cons, he, hSD, Ne.symm hSD, List.nil_prefix, and_true, and_false,
        false_and, true_and, false_or, or_false, List.cons.injEq, reduceCtorEq]
      exact eq_comm
  · simp only [List.mem_cons, List.not_mem_nil, or_false, not_or] at he
    rcases hr with rfl | ⟨s, rfl⟩
    · simp [List.cons_prefix_cons, he]
    · simp only [List.cons_append, List.nil_append, List.cons_prefix_cons, he.1, he.2, hSD, Ne.symm hSD, List.nil_prefix, and_true,
        and_false, false_and, true_and, false_or, or_false, List.cons.injEq, reduceCtorEq]
      constructor <;> rintro ⟨h1, h2⟩ <;> exact ⟨h1.symm, h2.symm⟩
  · simp only [List.mem_cons, not_or] at he
    simp [List.cons_prefix_cons, he]

/-- after a slash and an element without slashes come the end or another element -/
theorem badHead_elem {e r : Bytes} (he : 0x2f ∉ e) (hr : r = [] ∨ ∃ s, r = 0x2f :: s) :
    BadHead (0x2f :: e ++ r) ↔ (e = [] ∧ r ≠ []) ∨ e = asc "." ∨ e = asc ".." := by
  obtain ⟨s1, s2, s3, s4, s5, s6, s7⟩ := sl
  unfold BadHead
  rw [s1, s2, s3, s4, s5, s6, s7]
  exact badHead_aux 0x2f 0x2e (by decide) he hr

/-- a suffix of `e ++ r` that begins with a slash is a suffix of `r` if `e` has no slashes -/
theorem suffix_slash {e r t : Bytes} (he : 0x2f ∉ e) (ht : (0x2f :: t) <:+ (e ++ r)) : (0x2f :: t) <:+ r := by
  induction e with
  | nil => exact ht
  | cons a e ih =>
    simp only [List.mem_cons, not_or] at he
    rw [List.cons_append, List.suffix_cons_iff] at ht
    rcases ht with h | h
    · exact absurd (List.cons.inj h).1 he.1
    · exact ih he.2 h

theorem pathOf_shape (es : List Bytes) : pathOf es = [] ∨ ∃ s, pathOf es = 0x2f :: s := by
  cases es with
  | nil => exact .inl rfl
  | cons e es => exact .inr ⟨_, rfl⟩

theorem bad_iff : ∀ (es : List Bytes), (∀ e ∈ es, 0x2f ∉ e) →
    ((∃ t, t <:+ pathOf es ∧ BadHead t) ↔ (∃ e ∈ es.dropLast, e = []) ∨ ∃ e ∈ es, e = asc "." ∨ e = asc "..")
  | [], _ => by
    constructor
    · rintro ⟨t, ht, hb⟩
      obtain ⟨s, rfl⟩ := badHead_slash hb
      simp [pathOf] at ht
    · rintro (⟨e, he, _⟩ | ⟨e, he, _⟩) <;> simp at he
  | e :: es, hes => by
    have he : 0x2f ∉ e := hes e (by simp)
    have ih := bad_iff es (fun x hx => hes x (by simp [hx]))
    have hp : pathOf (e :: es) = 0x2f :: e ++ pathOf es := rfl
    have hne : pathOf es ≠ [] ↔ es ≠ [] := by cases es <;> simp [pathOf]
    have step : (∃ t, t <:+ pathOf (e :: es) ∧ BadHead t) ↔ BadHead (0x2f :: e ++ pathOf es) ∨ ∃ t, t <:+ pathOf es ∧ BadHead t := by
      rw [hp]
      constructor
      · rintro ⟨t, ht, hb⟩
        rw [List.cons_append, List.suffix_cons_iff] at ht
        rcases ht with h | h
        · exact .inl (by rw [List.cons_append, ← h]; exact hb)
        · obtain ⟨s, rfl⟩ := badHead_slash hb
          exact .inr ⟨_, suffix_slash he h, hb⟩
      · rintro (h | ⟨t, ht, hb⟩)
        · exact ⟨_, List.suffix_refl _, h⟩
        · exact ⟨t, ht.trans (List.suffix_append _ _), hb⟩
    rw [step, badHead_elem he (pathOf_shape es), ih, hne]
    constructor
    · rintro ((⟨h1, h2⟩ | h | h) | ⟨x, hx, h⟩ | ⟨x, hx, h⟩)
      · refine .inl ⟨e, ?_, h1⟩
        rw [List.dropLast_cons_of_ne_nil h2]
        exact List.mem_cons_self ..
      · exact .inr ⟨e, by simp, .inl h⟩
      · exact .inr ⟨e, by simp, .inr h⟩
      · refine .inl ⟨x, ?_, h⟩
        rw [List.dropLast_cons_of_ne_nil (by rintro rfl; simp at hx)]
        exact List.mem_cons_of_mem _ hx
      · exact .inr ⟨x, by simp [hx], h⟩
    · rintro (⟨x, hx, h⟩ | ⟨x, hx, h⟩)
      · by_cases hn : es = []
        · subst hn; simp at hx
        · rw [List.dropLast_cons_of_ne_nil hn, List.mem_cons] at hx
          rcases hx with rfl | hx
          · exact .inl (.inl ⟨h, hn⟩)
          · exact .inr (.inl ⟨x, hx, h⟩)
      · rw [List.mem_cons] at hx
        rcases hx with rfl | hx
        · exact .inl (.inr h)
        · exact .inr (.inr ⟨x, hx, h⟩)

theorem elements_ne (s : Bytes) : elements s ≠ [] := by
  cases s with
  | nil => simp [elements]
  | cons b s =>
    rw [elements]
    split
    · simp
    · split <;> simp

theorem elements_spec (s : Bytes) : pathOf (elements s) = 0x2f :: s ∧ ∀ e ∈ elements s, 0x2f ∉ e := by
  induction s with
  | nil => simp [elements, pathOf]
  | cons b s ih =>
    rw [elements]
    split
    · next hb =>
      subst hb
      refine ⟨?_, ?_⟩
      · show 0x2f :: ([] ++ pathOf (elements s)) = _
        rw [ih.1]; rfl
      · intro e he
        rw [List.mem_cons] at he
        rcases he with rfl | he
        · simp
        · exact ih.2 e he
    · next hb =>
      split
      · next h => exact absurd h (elements_ne s)
      · next e es h =>
        rw [h] at ih
        have h1 : 0x2f :: (e ++ pathOf es) = 0x2f :: s := ih.1
        refine ⟨?_, ?_⟩
        · show 0x2f :: (b :: e ++ pathOf es) = _
          rw [List.cons_append, (List.cons.inj h1).2]
        · intro x hx
          rw [List.mem_cons] at hx
          rcases hx with rfl | hx
          · have := ih.2 e (by simp)
            simp only [List.mem_cons, not_or]
            exact ⟨Ne.symm hb, this⟩
          · exact ih.2 x (by simp [hx])

/-- **C44**, redirects: the path is served as it is exactly if it begins with a slash and contains no `//`, `/./` or `/../` and does not end
in `/.` or `/..` (with `C44_other`, every other path is redirected, unless the method is CONNECT). -/
theorem C44_clean (p : Bytes) : cleanPath p = true ↔
    asc "/" <+: p ∧ ¬ asc "//" <:+: p ∧ ¬ asc "/./" <:+: p ∧ ¬ asc "/../" <:+: p ∧ ¬ asc "/." <:+ p ∧ ¬ asc "/.." <:+ p := by
  have hbad : (¬ asc "//" <:+: p ∧ ¬ asc "/./" <:+: p ∧ ¬ asc "/../" <:+: p ∧ ¬ asc "/." <:+ p ∧ ¬ asc "/.." <:+ p) ↔
      ¬ ∃ t, t <:+ p ∧ BadHead t := by
    constructor
    · rintro ⟨h1, h2, h3, h4, h5⟩ ⟨t, ht, h | h | h | rfl | rfl⟩
      · exact h1 (h.isInfix.trans ht.isInfix)
      · exact h2 (h.isInfix.trans ht.isInfix)
      · exact h3 (h.isInfix.trans ht.isInfix)
      · exact h4 ht
      · exact h5 ht
    · intro h
      have inf : ∀ x : Bytes, (∀ t, x <+: t → BadHead t) → ¬ x <:+: p := by
        rintro x hx ⟨a, b, hab⟩
        refine h ⟨x ++ b, ⟨a, by rw [← hab, List.append_assoc]⟩, hx _ (List.prefix_append _ _)⟩
      exact ⟨inf _ fun t ht => .inl ht, inf _ fun t ht => .inr (.inl ht), inf _ fun t ht => .inr (.inr (.inl ht)),
        fun ht => h ⟨_, ht, .inr (.inr (.inr (.inl rfl)))⟩, fun ht => h ⟨_, ht, .inr (.inr (.inr (.inr rfl)))⟩⟩
  rw [hbad, show asc "/" = [0x2f] by decide +kernel]
  rcases p with _ | ⟨b, s⟩
  · have : cleanPath [] = false := by decide +kernel
    rw [this]; simp
  · by_cases hb : b = 0x2f
    · subst hb
      obtain ⟨h1, h2⟩ := elements_spec s
      rw [← h1, bad_iff _ h2, h1]
      have hel : elements (0x2f :: s) = [] :: elements s := by rw [elements, if_pos rfl]
      unfold cleanPath
      rw [hel]
      rcases hes : elements s with _ | ⟨e, es⟩
      · exact absurd hes (elements_ne s)
      · simp only [Bool.and_eq_true, List.all_eq_true, decide_eq_true_eq, List.cons_prefix_cons, List.nil_prefix, true_and, not_or,
          not_exists, not_and]
    · have hf : cleanPath (b :: s) = false := by
        unfold cleanPath
        rw [elements, if_neg hb]
        rcases hes : elements s with _ | ⟨e, es⟩
        · exact absurd hes (elements_ne s)
        · rfl
      rw [hf]
      simp only [Bool.false_eq_true, List.cons_prefix_cons, false_iff, not_and]
      exact fun h => absurd h.1.symm hb

end Starbow.Props
