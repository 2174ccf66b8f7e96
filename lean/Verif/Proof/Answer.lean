import Verif.Spec.Answer
/-
An answer can be read in one way only.
-/
namespace Starbow.Proof
open Starbow Starbow.Spec

theorem cut_unique {c : Byte} {a b x y : Bytes} (ha : c ∉ a) (hb : c ∉ b) (h : a ++ c :: x = b ++ c :: y) : a = b ∧ x = y := by
  induction a generalizing b with
  | nil =>
    cases b with
    | nil => simpa using h
    | cons z b =>
      simp only [List.nil_append, List.cons_append, List.cons.injEq] at h
      exact absurd (by rw [h.1]; simp) hb
  | cons w a ih =>
    cases b with
    | nil =>
      simp only [List.nil_append, List.cons_append, List.cons.injEq] at h
      exact absurd (by rw [h.1]; simp) ha
    | cons z b =>
      simp only [List.cons_append, List.cons.injEq] at h
      obtain ⟨h1, h2⟩ := ih (fun hm => ha (by simp [hm])) (fun hm => hb (by simp [hm])) h.2
      exact ⟨by rw [h.1, h1], h2⟩

theorem cut_differ {c d : Byte} (hcd : c ≠ d) {a b x y : Bytes} (ha : d ∉ a) (hb : c ∉ b) (h : a ++ c :: x = b ++ d :: y) : False := by
  induction a generalizing b with
  | nil =>
    cases b with
    | nil => simp only [List.nil_append, List.cons.injEq] at h; exact hcd h.1
    | cons z b =>
      simp only [List.nil_append, List.cons_append, List.cons.injEq] at h
      exact hb (by rw [h.1]; simp)
  | cons w a ih =>
    cases b with
    | nil =>
      simp only [List.nil_append, List.cons_append, List.cons.injEq] at h
      exact ha (by rw [h.1]; simp)
    | cons z b =>
      simp only [List.cons_append, List.cons.injEq] at h
      exact ih (fun hm => ha (by simp [hm])) (fun hm => hb (by simp [hm])) h.2

theorem last_unique {c : Byte} {a b x y : Bytes} (hx : c ∉ x) (hy : c ∉ y) (h : a ++ c :: x = b ++ c :: y) : a = b ∧ x = y := by
  have h' := congrArg List.reverse h
  simp only [List.reverse_append, List.reverse_cons, List.append_assoc, List.singleton_append] at h'
  obtain ⟨h1, h2⟩ := cut_unique (by simpa using hx) (by simpa using hy) h'
  exact ⟨List.reverse_inj.1 h2, List.reverse_inj.1 h1⟩

theorem text_criterion (f v : Bytes) : (AnswerLine.criterion f v).text = f ++ 0x3d :: v := by
  rw [AnswerLine.text, show asc "=" = [0x3d] by decide +kernel]; simp

theorem text_result (m f v : Bytes) : (AnswerLine.result m f v).text = m ++ 0x28 :: (f ++ 0x29 :: (0x3d :: v)) := by
  rw [AnswerLine.text, show asc "(" = [0x28] by decide +kernel, show asc ")=" = [0x29, 0x3d] by decide +kernel]; simp

theorem text_unique {l l' : AnswerLine} (h : l.Plain) (h' : l'.Plain) (e : l.text = l'.text) : l = l' := by
  cases l with
  | criterion f v =>
    cases l' with
    | criterion f' v' =>
      rw [text_criterion, text_criterion] at e
      obtain ⟨rfl, rfl⟩ := cut_unique (fun hm => (h.1 _ hm).1 rfl) (fun hm => (h'.1 _ hm).1 rfl) e
      rfl
    | result m' f' v' =>
      rw [text_criterion, text_result] at e
      exact (cut_differ (by decide) (fun hm => (h.1 _ hm).2.1 rfl) (fun hm => (h'.1 _ hm).1 rfl) e).elim
  | result m f v =>
    cases l' with
    | criterion f' v' =>
      rw [text_criterion, text_result] at e
      exact (cut_differ (by decide) (fun hm => (h.1 _ hm).1 rfl) (fun hm => (h'.1 _ hm).2.1 rfl) e).elim
    | result m' f' v' =>
      rw [text_result, text_result] at e
      obtain ⟨e1, e2⟩ := cut_unique (fun hm => (h.1 _ hm).2.1 rfl) (fun hm => (h'.1 _ hm).2.1 rfl) e
      have hv : (0x29 : Byte) ∉ 0x3d :: v := by
        simp only [List.mem_cons, not_or]; exact ⟨by decide, h.2.2.2⟩
      have hv' : (0x29 : Byte) ∉ 0x3d :: v' := by
        simp only [List.mem_cons, not_or]; exact ⟨by decide, h'.2.2.2⟩
      obtain ⟨e3, e4⟩ := last_unique hv hv' e2
      simp only [List.cons.injEq, true_and] at e4
      rw [e1, e3, e4]

theorem text_no_newline {l : AnswerLine} (h : l.Plain) : 0x0a ∉ l.text := by
  cases l with
  | criterion f v =>
    rw [text_criterion]
    simp only [List.mem_append, List.mem_cons, not_or]
    exact ⟨fun hm => (h.1 _ hm).2.2 rfl, by decide, h.2⟩
  | result m f v =>
    rw [text_result]
    simp only [List.mem_append, List.mem_cons, not_or]
    exact ⟨fun hm => (h.1 _ hm).2.2 rfl, by decide, h.2.1, by decide, by decide, h.2.2.1⟩

/-- an answer can be read in one way only -/
theorem reads_unique {body : Bytes} {ls ls' : List AnswerLine} (h : Reads body ls) (h' : Reads body ls') : ls = ls' := by
  obtain ⟨hp, e⟩ := h
  obtain ⟨hp', e'⟩ := h'
  rw [e] at e'
  clear e
  rw [show asc "\n" = [0x0a] by decide +kernel] at e'
  induction ls generalizing ls' with
  | nil =>
    cases ls' with
    | nil => rfl
    | cons l' ls' => simp at e'
  | cons l ls ih =>
    cases ls' with
    | nil => simp at e'
    | cons l' ls' =>
      simp only [List.flatMap_cons, List.append_assoc, List.singleton_append] at e'
      obtain ⟨h1, h2⟩ := cut_unique (text_no_newline (hp l (by simp))) (text_no_newline (hp' l' (by simp))) e'
      rw [text_unique (hp l (by simp)) (hp' l' (by simp)) h1, ih (fun l hl => hp l (by simp [hl])) (fun l hl => hp' l (by simp [hl])) h2]

end Starbow.Proof
