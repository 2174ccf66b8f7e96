import Verif.Proof.QueryShape
/-
What the parser captures comes from the text.
-/
namespace Starbow.Query
open Starbow Starbow.Collation Starbow.Spec

theorem run_bytes (r : Re) : ∀ (s : Bytes) (x : Bytes × List Bytes), x ∈ r.run s →
    (∀ b ∈ x.1, b ∈ s) ∧ ∀ c ∈ x.2, ∀ b ∈ c, b ∈ s := by
  induction r with
  | cls p =>
    intro s x hx
    cases s with
    | nil => simp [Re.run] at hx
    | cons a s =>
      rw [Re.run] at hx
      split at hx
      · simp only [List.mem_singleton] at hx
        subst hx
        exact ⟨fun b hb => List.mem_cons_of_mem _ hb, by simp⟩
      · simp at hx
  | seq a b iha ihb =>
    intro s x hx
    obtain ⟨y, hy, z, hz, rfl⟩ := mem_seq.1 hx
    obtain ⟨h1, h2⟩ := iha _ _ hy
    obtain ⟨h3, h4⟩ := ihb _ _ hz
    refine ⟨fun b hb => h1 _ (h3 _ hb), fun c hc b hb => ?_⟩
    rcases List.mem_append.1 hc with hc | hc
    · exact h2 c hc b hb
    · exact h1 _ (h4 c hc b hb)
  | alt a b iha ihb =>
    intro s x hx
    rw [Re.run] at hx
    rcases List.mem_append.1 hx with hx | hx
    · exact iha _ _ hx
    · exact ihb _ _ hx
  | star p =>
    intro s x hx
    obtain ⟨v, t, rfl, _, rfl⟩ := mem_star.1 hx
    exact ⟨fun b hb => by simp only [List.mem_append]; exact .inr hb, by simp⟩
  | group a iha =>
    intro s x hx
    rw [Re.run] at hx
    obtain ⟨y, hy, rfl⟩ := List.mem_map.1 hx
    obtain ⟨h1, h2⟩ := iha _ _ hy
    refine ⟨h1, fun c hc b hb => ?_⟩
    rcases List.mem_cons.1 hc with rfl | hc
    · exact List.mem_of_mem_take hb
    · exact h2 c hc b hb
  | eol =>
    intro s x hx
    obtain ⟨rfl, rfl⟩ := mem_eol.1 hx
    simp

theorem findAll_bytes {r : Re} {s : Bytes} {c : List Bytes} (h : c ∈ findAll r s) : ∀ w ∈ c, ∀ b ∈ w, b ∈ s := by
  induction s using findAll.induct r with
  | case1 s rest caps hh hl ih =>
    rw [findAll_hit hh hl] at h
    obtain ⟨h1, h2⟩ := run_bytes r s _ (List.mem_of_head? hh)
    rcases List.mem_cons.1 h with rfl | h
    · exact h2
    · exact fun w hw b hb => h1 _ (ih h w hw b hb)
  | case2 s rest caps hh hl =>
    rw [findAll.eq_def, hh] at h
    simp only at h
    rw [if_neg hl] at h
    simp at h
  | case3 hh => rw [findAll.eq_def, hh] at h; simp at h
  | case4 b t hh ih =>
    rw [findAll_skip (List.head?_eq_none_iff.1 hh)] at h
    exact fun w hw b hb => List.mem_cons_of_mem _ (ih h w hw b hb)

theorem collect_fields (l : List (List Bytes)) : ∀ (fs out : List FM), collect l fs = some out →
    ∀ e ∈ out, (∃ e' ∈ fs, e'.f = e.f) ∨ ∃ m, [m, e.f] ∈ l := by
  induction l with
  | nil =>
    intro fs out h e he
    rw [collect] at h
    simp only [Option.some.injEq] at h
    exact .inl ⟨e, h ▸ he, rfl⟩
  | cons c l ih =>
    intro fs out h e he
    unfold collect at h
    split at h
    · next m f =>
      rcases ih _ _ h e he with ⟨e', he', hf⟩ | ⟨m', hm'⟩
      · have : e'.f ∈ (addField fs f m).map FM.f := List.mem_map_of_mem he'
        rw [addField_names] at this
        split at this
        · obtain ⟨e2, he2, h2⟩ := List.mem_map.1 this
          exact .inl ⟨e2, he2, h2.trans hf⟩
        · rcases List.mem_append.1 this with h2 | h2
          · obtain ⟨e2, he2, h2⟩ := List.mem_map.1 h2
            exact .inl ⟨e2, he2, h2.trans hf⟩
          · simp only [List.mem_singleton] at h2
            exact .inr ⟨m, by rw [← hf, h2]; simp⟩
      · exact .inr ⟨m', List.mem_cons_of_mem _ hm'⟩
    · simp at h

/-- names and values in a parsed query -/
theorem parsed_names {ord : List FM → List FM} (hord : ∀ l, (ord l).Perm l) {s : Bytes} {q : Query} (h : roughParse ord s = .ok q) :
    (∀ fm ∈ q.fieldMeasures, 0x0a ∉ fm.f) ∧
    ∀ c ∈ q.criteria, c.f ≠ [] ∧ (∀ b ∈ c.f, ¬ Space b) ∧ c.v ≠ [] ∧ 0x27 ∉ c.v ∧ 0x0a ∉ c.v := by
  unfold roughParse at h
  split at h
  · next sel wh hsub =>
    have hn : 0x0a ∉ sel ∧ 0x0a ∉ wh := by
      unfold submatch at hsub
      rw [Option.map_eq_some_iff] at hsub
      obtain ⟨x, hx, ex⟩ := hsub
      obtain ⟨a1, a2, a3, a4, a5, a6, a7, a8, a9, e, h1, h2, h3, h4, h5, h6, h7, h8, h9, e'⟩ := mem_query.1 (List.mem_of_head? hx)
      rw [e'] at ex
      simp only [List.cons.injEq, and_true] at ex
      exact ⟨ex.1 ▸ h4.2, ex.2 ▸ h8.2⟩
    split at h
    · simp at h
    · next fields hf =>
      obtain ⟨cs, e, hcs⟩ := criteria_some (findAll whereRe wh) fun c hc => by
        obtain ⟨f, v, rfl, _⟩ := where_caps hc
        exact ⟨f, v, rfl⟩
      rw [e] at h
      simp only [Except.ok.injEq] at h
      subst h
      refine ⟨fun fm hfm hb => ?_, fun c hc => ?_⟩
      · rcases collect_fields _ _ _ hf fm ((hord fields).mem_iff.1 hfm) with ⟨_, h, _⟩ | ⟨m, hm⟩
        · simp at h
        · exact hn.1 (findAll_bytes hm fm.f (by simp) _ hb)
      · obtain ⟨f, v, e2, h1, h2, h3, h4⟩ := where_caps (hcs c hc)
        simp only [List.cons.injEq, and_true] at e2
        rw [e2.1, e2.2]
        refine ⟨h1, h2, h3, h4, fun hb => hn.2 (findAll_bytes (hcs c hc) c.v (by simp) _ (e2.2 ▸ hb))⟩
  · simp at h

end Starbow.Query
