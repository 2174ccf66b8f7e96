import Verif.Proof.QueryText
/-
Where a query text is split, and what `RoughParse` makes of it.
-/
namespace Starbow.Query
open Starbow.Collation Starbow.Spec

/-! ### texts that do not mention `where` -/

theorem mentions_nonspace {a k : Bytes} (hk : ∀ b ∈ k, ¬ Space b) (h : MentionsWhere (a ++ k)) : MentionsWhere a := by
  obtain ⟨p, x, w, y, q, e, hx, hy, hw⟩ := h
  have e' : a ++ k = (p ++ x :: w) ++ y :: q := by rw [e]; simp
  rw [List.append_eq_append_iff] at e'
  rcases e' with ⟨c, _, e2⟩ | ⟨c, e1, e2⟩
  · exact absurd hy (hk y (by rw [e2]; simp))
  · cases c with
    | nil =>
      rw [List.nil_append] at e2
      exact absurd hy (hk y (by rw [← e2]; simp))
    | cons d c =>
      rw [List.cons_append] at e2
      simp only [List.cons.injEq] at e2
      exact ⟨p, x, w, y, c, by rw [e1, e2.1]; simp, hx, hy, hw⟩

theorem mem_where {w : Bytes} (hw : Spells (asc "where") w) {b : Byte} (hb : b ∈ w) : lower b ∈ asc "where" := by
  unfold Spells at hw
  rw [← hw]
  exact List.mem_map_of_mem hb

theorem mentions_split {a b : Bytes} {q : Byte} (hq : ¬ Space q) (hq' : lower q ∉ asc "where") (h : MentionsWhere (a ++ q :: b)) :
    MentionsWhere a ∨ MentionsWhere b := by
  obtain ⟨p, x, w, y, r, e, hx, hy, hw⟩ := h
  rw [List.append_eq_append_iff] at e
  rcases e with ⟨c, e1, e2⟩ | ⟨c, e1, e2⟩
  · cases c with
    | nil =>
      rw [List.nil_append] at e2
      simp only [List.cons.injEq] at e2
      rw [e2.1] at hq
      exact absurd hx hq
    | cons d c =>
      rw [List.cons_append] at e2
      simp only [List.cons.injEq] at e2
      exact .inr ⟨c, x, w, y, r, e2.2, hx, hy, hw⟩
  · have e3 : (x :: w ++ [y]) ++ r = c ++ q :: b := by rw [← e2]; simp
    left
    rw [List.append_eq_append_iff] at e3
    rcases e3 with ⟨d, e4, e5⟩ | ⟨d, e4, e5⟩
    · exact ⟨p, x, w, y, d, by rw [e1, e4]; simp, hx, hy, hw⟩
    · cases d with
      | nil =>
        rw [List.append_nil] at e4
        exact ⟨p, x, w, y, [], by rw [e1, ← e4]; simp, hx, hy, hw⟩
      | cons d' d =>
        rw [List.cons_append] at e5
        simp only [List.cons.injEq] at e5
        exfalso
        have : q ∈ x :: w ++ [y] := by rw [e4, e5.1]; simp
        simp only [List.cons_append, List.mem_cons, List.mem_append, List.not_mem_nil, or_false] at this
        rcases this with h | h | h
        · rw [h] at hq; exact hq hx
        · exact hq' (mem_where hw h)
        · rw [h] at hq; exact hq hy

theorem mentions_quote {a b : Bytes} (h : MentionsWhere (a ++ 0x27 :: b)) : MentionsWhere a ∨ MentionsWhere b :=
  mentions_split (by decide) (by decide +kernel) h

theorem mentions_eq {a b : Bytes} (h : MentionsWhere (a ++ 0x3d :: b)) : MentionsWhere a ∨ MentionsWhere b :=
  mentions_split (by decide) (by decide +kernel) h

theorem space_not_where {b : Byte} (h : Space b) : lower b ∉ asc "where" := by
  rcases h with rfl | rfl | rfl | rfl | rfl <;> decide +kernel

theorem spells_ne {w : Bytes} (hw : Spells (asc "where") w) : w ≠ [] := by
  rintro rfl
  exact absurd hw (by unfold Spells; decide +kernel)

theorem mentions_spaces {u : Bytes} (hu : ∀ b ∈ u, Space b) : ¬ MentionsWhere u := by
  rintro ⟨p, x, w, y, r, e, hx, hy, hw⟩
  cases hw' : w with
  | nil => exact spells_ne hw hw'
  | cons b w' =>
    have hb : b ∈ w := by rw [hw']; simp
    exact space_not_where (hu b (by rw [e]; simp [hb])) (mem_where hw hb)

theorem mentions_nil : ¬ MentionsWhere [] := mentions_spaces (by simp)

theorem mentions_crits {pre : Bytes} (hpre : ¬ MentionsWhere pre) (c : FV) (hc : PlainCrit c) (cs : List (Bytes × FV))
    (hcs : ∀ p ∈ cs, CritSep p.1 ∧ PlainCrit p.2) (u : Bytes) (hu : ∀ b ∈ u, Space b) :
    ¬ MentionsWhere (pre ++ (critText c ++ cs.flatMap (fun p => p.1 ++ critText p.2) ++ u)) := by
  induction cs generalizing pre c with
  | nil =>
    have e0 : pre ++ (critText c ++ ([] : List (Bytes × FV)).flatMap (fun p => p.1 ++ critText p.2) ++ u) =
        (pre ++ c.f) ++ 0x3d :: ([] ++ 0x27 :: (c.v ++ 0x27 :: u)) := by
      unfold critText
      rw [show asc "='" = [0x3d, 0x27] by decide +kernel, show asc "'" = [0x27] by decide +kernel]
      simp
    rw [e0]
    intro h
    rcases mentions_eq h with h | h
    · exact hpre (mentions_nonspace (fun b hb => (hc.f_plain b hb).1) h)
    · rcases mentions_quote h with h | h
      · exact mentions_nil h
      · rcases mentions_quote h with h | h
        · exact hc.v_where h
        · exact mentions_spaces hu h
  | cons p cs ih =>
    obtain ⟨hp1, hp2⟩ := hcs p (by simp)
    have e0 : pre ++ (critText c ++ (p :: cs).flatMap (fun p => p.1 ++ critText p.2) ++ u) =
        (pre ++ c.f) ++ 0x3d :: ([] ++ 0x27 :: (c.v ++ 0x27 :: (p.1 ++ (critText p.2 ++ cs.flatMap (fun p => p.1 ++ critText p.2) ++ u)))) := by
      conv => lhs; arg 2; arg 1; arg 1; unfold critText
      rw [show asc "='" = [0x3d, 0x27] by decide +kernel, show asc "'" = [0x27] by decide +kernel]
      simp
    rw [e0]
    intro h
    rcases mentions_eq h with h | h
    · exact hpre (mentions_nonspace (fun b hb => (hc.f_plain b hb).1) h)
    · rcases mentions_quote h with h | h
      · exact mentions_nil h
      · rcases mentions_quote h with h | h
        · exact hc.v_where h
        · exact ih hp1.no_where p.2 hp2 (fun p hp => hcs p (by simp [hp])) h

/-! ### the split -/

/-- the part of the expression after the second group's start: `\s*$` -/
theorem mem_tail {s : Bytes} {x : Bytes × List Bytes} : x ∈ (Re.seq (.star ws) .eol).run s ↔ (∀ b ∈ s, Space b) ∧ x = ([], []) := by
  rw [mem_seq]
  simp only [mem_star, mem_eol]
  constructor
  · rintro ⟨_, ⟨v, t, rfl, hv, rfl⟩, _, ⟨e, rfl⟩, rfl⟩
    simp only at e
    subst e
    exact ⟨fun b hb => (ws_iff b).1 (hv b (by simpa using hb)), rfl⟩
  · rintro ⟨h, rfl⟩
    exact ⟨([], []), ⟨s, [], by simp, fun b hb => (ws_iff b).2 (h b hb), rfl⟩, ([], []), ⟨rfl, rfl⟩, rfl⟩

theorem dot_iff (s : Bytes) : (∀ b ∈ s, dot b = true) ↔ 0x0a ∉ s := by
  unfold dot
  constructor
  · intro h hm
    have := h _ hm
    revert this; decide
  · intro h b hb
    simp only [bne_iff_ne, ne_eq]
    rintro rfl
    exact h hb

theorem gap_iff (s : Bytes) : (s ≠ [] ∧ ∀ b ∈ s, ws b = true) ↔ Gap s := by
  unfold Gap
  simp only [ws_iff]

/-- `(.+)\s*$` -/
def yRe : Re := .seq (.group (plus dot)) (.seq (.star ws) .eol)

theorem mem_y {s : Bytes} {x : Bytes × List Bytes} :
    x ∈ yRe.run s ↔ ∃ y trail, s = y ++ trail ∧ y ≠ [] ∧ 0x0a ∉ y ∧ (∀ b ∈ trail, Space b) ∧ x = ([], [y]) := by
  rw [yRe, mem_seq]
  simp only [mem_groupPlus, mem_tail]
  constructor
  · rintro ⟨_, ⟨v, t, rfl, hne, hv, rfl⟩, _, ⟨ht, rfl⟩, rfl⟩
    exact ⟨v, t, rfl, hne, (dot_iff v).1 hv, ht, rfl⟩
  · rintro ⟨v, t, rfl, hne, hv, ht, rfl⟩
    exact ⟨(t, [v]), ⟨v, t, rfl, hne, (dot_iff v).2 hv, rfl⟩, ([], []), ⟨ht, rfl⟩, rfl⟩

/-- `\s+where\s+(.+)\s*$` -/
def whRe : Re := .seq (plus ws) (word (asc "where") (.seq (plus ws) yRe))

theorem mem_wh {s : Bytes} {x : Bytes × List Bytes} :
    x ∈ whRe.run s ↔ ∃ gap2 wh gap3 y trail, s = gap2 ++ (wh ++ (gap3 ++ (y ++ trail))) ∧ Gap gap2 ∧ Keyword (asc "where") wh ∧ Gap gap3 ∧
      y ≠ [] ∧ 0x0a ∉ y ∧ (∀ b ∈ trail, Space b) ∧ x = ([], [y]) := by
  rw [whRe, mem_seq]
  simp only [mem_plus, mem_word]
  constructor
  · rintro ⟨_, ⟨g2, t, rfl, hne, hg2, rfl⟩, z, ⟨wh, t2, e, hk, hz⟩, rfl⟩
    simp only at e
    subst e
    rw [mem_seq] at hz
    obtain ⟨_, h1, z, hz, rfl⟩ := hz
    obtain ⟨g3, t3, rfl, hne3, hg3, rfl⟩ := mem_plus.1 h1
    obtain ⟨y, trail, e, hy, hyn, htr, rfl⟩ := mem_y.1 hz
    simp only at e
    subst e
    exact ⟨g2, wh, g3, y, trail, rfl, (gap_iff g2).1 ⟨hne, hg2⟩, hk, (gap_iff g3).1 ⟨hne3, hg3⟩, hy, hyn, htr, rfl⟩
  · rintro ⟨g2, wh, g3, y, trail, rfl, hg2, hk, hg3, hy, hyn, htr, rfl⟩
    refine ⟨(_, []), ⟨g2, _, rfl, ((gap_iff g2).2 hg2).1, ((gap_iff g2).2 hg2).2, rfl⟩, ([], [y]), ⟨wh, _, rfl, hk, ?_⟩, rfl⟩
    rw [mem_seq]
    exact ⟨(_, []), mem_plus.2 ⟨g3, _, rfl, ((gap_iff g3).2 hg3).1, ((gap_iff g3).2 hg3).2, rfl⟩, ([], [y]),
      mem_y.2 ⟨y, trail, rfl, hy, hyn, htr, rfl⟩, rfl⟩

theorem queryRe_eq : queryRe = .seq (.star ws) (word (asc "select") (.seq (plus ws) (.seq (.group (plus dot)) whRe))) := rfl

/-- what the whole expression matches -/
theorem mem_query {s : Bytes} {x : Bytes × List Bytes} :
    x ∈ queryRe.run s ↔ ∃ lead sel gap1 x' gap2 wh gap3 y trail,
      s = lead ++ sel ++ gap1 ++ x' ++ gap2 ++ wh ++ gap3 ++ y ++ trail ∧
      (∀ b ∈ lead, Space b) ∧ Keyword (asc "select") sel ∧ Gap gap1 ∧ (x' ≠ [] ∧ 0x0a ∉ x') ∧ Gap gap2 ∧ Keyword (asc "where") wh ∧ Gap gap3 ∧
      (y ≠ [] ∧ 0x0a ∉ y) ∧ (∀ b ∈ trail, Space b) ∧ x = ([], [x', y]) := by
  rw [queryRe_eq, mem_seq]
  simp only [mem_star, mem_word]
  constructor
  · rintro ⟨_, ⟨lead, t, rfl, hlead, rfl⟩, z, ⟨sel, t2, e, hsel, hz⟩, rfl⟩
    simp only at e
    subst e
    rw [mem_seq] at hz
    obtain ⟨_, h1, z, hz, rfl⟩ := hz
    obtain ⟨g1, t3, rfl, hne1, hg1, rfl⟩ := mem_plus.1 h1
    rw [mem_seq] at hz
    obtain ⟨_, h2, z, hz, rfl⟩ := hz
    obtain ⟨x', t4, e, hnx, hx, rfl⟩ := mem_groupPlus.1 h2
    simp only at e
    subst e
    obtain ⟨g2, wh, g3, y, trail, e, hg2, hk, hg3, hy, hyn, htr, rfl⟩ := mem_wh.1 hz
    simp only at e
    subst e
    refine ⟨lead, sel, g1, x', g2, wh, g3, y, trail, by simp, fun b hb => (ws_iff b).1 (hlead b hb), hsel, (gap_iff g1).1 ⟨hne1, hg1⟩,
      ⟨hnx, (dot_iff x').1 hx⟩, hg2, hk, hg3, ⟨hy, hyn⟩, htr, rfl⟩
  · rintro ⟨lead, sel, g1, x', g2, wh, g3, y, trail, rfl, hlead, hsel, hg1, ⟨hnx, hx⟩, hg2, hk, hg3, ⟨hy, hyn⟩, htr, rfl⟩
    refine ⟨(sel ++ (g1 ++ (x' ++ (g2 ++ (wh ++ (g3 ++ (y ++ trail)))))), []), ⟨lead, _, by simp, fun b hb => (ws_iff b).2 (hlead b hb), rfl⟩,
      ([], [x', y]), ⟨sel, _, rfl, hsel, ?_⟩, rfl⟩
    rw [mem_seq]
    refine ⟨(_, []), mem_plus.2 ⟨g1, _, rfl, ((gap_iff g1).2 hg1).1, ((gap_iff g1).2 hg1).2, rfl⟩, ([], [x', y]), ?_, rfl⟩
    rw [mem_seq]
    exact ⟨(_, [x']), mem_groupPlus.2 ⟨x', _, rfl, hnx, (dot_iff x').2 hx, rfl⟩, ([], [y]),
      mem_wh.2 ⟨g2, wh, g3, y, trail, rfl, hg2, hk, hg3, hy, hyn, htr, rfl⟩, rfl⟩

/-- the text does not begin with white space -/
def StartsSolid (s : Bytes) : Prop := ∃ b t, s = b :: t ∧ ¬ Space b

theorem solid_blocked {s : Bytes} (h : StartsSolid s) : Blocked ws s := by
  obtain ⟨b, t, rfl, hb⟩ := h
  intro b' t' e
  simp only [List.cons.injEq] at e
  rw [← e.1]
  cases hw : ws b with
  | false => rfl
  | true => exact absurd ((ws_iff b).1 hw) hb

theorem solid_append {s : Bytes} (h : StartsSolid s) (t : Bytes) : StartsSolid (s ++ t) := by
  obtain ⟨b, r, rfl, hb⟩ := h
  exact ⟨b, r ++ t, rfl, hb⟩

theorem head_gap {g rest : Bytes} (hg : Gap g) (hs : StartsSolid rest) {r : Re} {x : Bytes × List Bytes} (hx : (r.run rest).head? = some x) :
    ((Re.seq (plus ws) r).run (g ++ rest)).head? = some x := by
  obtain ⟨hne, hall⟩ := hg
  cases g with
  | nil => exact absurd rfl hne
  | cons b g =>
    rw [List.cons_append, run_seq_plus _ _ _ _ ((ws_iff b).2 (hall b (by simp)))]
    refine firstStar_hit (fun c hc => (ws_iff c).2 (hall c (by simp [hc]))) hx ?_
    intro v t' e hv hv'
    exact absurd (blocked_split (solid_blocked hs) e hv') hv

theorem head_spaces {g rest : Bytes} (hg : ∀ b ∈ g, Space b) (hs : StartsSolid rest) {r : Re} {x : Bytes × List Bytes}
    (hx : (r.run rest).head? = some x) : ((Re.seq (.star ws) r).run (g ++ rest)).head? = some x := by
  rw [run_seq_star]
  refine firstStar_hit (fun c hc => (ws_iff c).2 (hg c hc)) hx ?_
  intro v t' e hv hv'
  exact absurd (blocked_split (solid_blocked hs) e hv') hv

theorem spells_solid {c : Byte} {w kw : Bytes} (hw : LowerWord (c :: w)) (h : Spells (c :: w) kw) : StartsSolid kw := by
  cases kw with
  | nil => simp [Spells] at h
  | cons b kw =>
    unfold Spells at h
    simp only [List.map_cons, List.cons.injEq] at h
    refine ⟨b, kw, rfl, ?_⟩
    have hc := hw c (by simp)
    rw [← h.1] at hc
    intro hb
    rcases hb with rfl | rfl | rfl | rfl | rfl <;> revert hc <;> decide

/-- the longest group and what follows: if there is a match of `(p+)r`, the first one takes the longest possible group -/
theorem head_groupPlus {p : Byte → Bool} {r : Re} {s : Bytes} (hex : (Re.seq (.group (plus p)) r).run s ≠ []) :
    ∃ v t y, s = v ++ t ∧ v ≠ [] ∧ (∀ b ∈ v, p b = true) ∧ (r.run t).head? = some y ∧
      ((Re.seq (.group (plus p)) r).run s).head? = some (y.1, v :: y.2) ∧
      ∀ v' t', s = v' ++ t' → v' ≠ [] → (∀ b ∈ v', p b = true) → r.run t' ≠ [] → v'.length ≤ v.length := by
  obtain ⟨x, hx⟩ := List.exists_mem_of_ne_nil _ hex
  rw [mem_seq] at hx
  obtain ⟨y, hy, z, hz, rfl⟩ := hx
  obtain ⟨v0, t0, rfl, hne0, hv0, rfl⟩ := mem_groupPlus.1 hy
  cases v0 with
  | nil => exact absurd rfl hne0
  | cons b v0 =>
    have hb := hv0 b (by simp)
    have key := run_seq_groupPlus p r b (v0 ++ t0) hb
    rw [List.cons_append]
    cases hh : ((Re.seq (.group (plus p)) r).run (b :: (v0 ++ t0))).head? with
    | none =>
      rw [List.head?_eq_none_iff] at hh
      rw [List.cons_append] at hex
      exact absurd hh hex
    | some res =>
      rw [hh] at key
      obtain ⟨v, t, e, hv, ht, hmax⟩ := firstStar_some key.symm
      rw [List.head?_map] at ht
      cases hy : (r.run t).head? with
      | none => rw [hy] at ht; simp at ht
      | some y =>
        rw [hy] at ht
        simp only [Option.map_some, Option.some.injEq] at ht
        have etake : (b :: (v0 ++ t0)).take ((b :: (v0 ++ t0)).length - t.length) = b :: v := by
          rw [e]
          exact take_sub_length (b :: v) t
        rw [etake] at ht
        refine ⟨b :: v, t, y, by rw [e]; rfl, by simp, by simpa [hb] using hv, hy, by rw [ht], ?_⟩
        intro v' t' e' hne' hv' hr
        cases v' with
        | nil => simp
        | cons c v' =>
          simp only [List.cons_append, List.cons.injEq] at e'
          have := hmax v' t' e'.2 (fun b hb => hv' b (by simp [hb])) (by
            intro h
            rw [List.map_eq_nil_iff] at h
            exact hr h)
          simp only [List.length_cons]; omega

/-- the second group: everything up to trailing white space, of which it may take some -/
theorem head_y {Y trail : Bytes} (hY : 0x0a ∉ Y) (hend : ∃ a q, Y = a ++ [q] ∧ ¬ Space q) (htr : ∀ b ∈ trail, Space b) :
    ∃ u, (∀ b ∈ u, Space b) ∧ (yRe.run (Y ++ trail)).head? = some ([], [Y ++ u]) := by
  obtain ⟨a, q, hY', hq⟩ := hend
  have hne : Y ≠ [] := by rw [hY']; simp
  have hmem : (([], [Y]) : Bytes × List Bytes) ∈ yRe.run (Y ++ trail) := mem_y.2 ⟨Y, trail, rfl, hne, hY, htr, rfl⟩
  obtain ⟨v, t, y, e, hvne, hv, ht, hres, hmax⟩ := head_groupPlus (p := dot) (r := .seq (.star ws) .eol) (s := Y ++ trail)
    (by intro h; rw [yRe, h] at hmem; simp at hmem)
  obtain ⟨hsp, rfl⟩ := mem_tail.1 (List.mem_of_head? ht)
  rw [List.append_eq_append_iff] at e
  rcases e with ⟨u, e1, e2⟩ | ⟨u, e1, e2⟩
  · exact ⟨u, fun b hb => htr b (by rw [e2]; simp [hb]), by rw [yRe, hres, e1]⟩
  · have : u = [] := by
      rcases List.eq_nil_or_concat u with h | ⟨u', z, h⟩
      · exact h
      · exfalso
        rw [List.concat_eq_append] at h
        rw [h, hY', ← List.append_assoc] at e1
        have := (List.append_inj' e1 rfl).2
        simp only [List.cons.injEq, and_true] at this
        rw [this] at hq
        exact hq (hsp z (by rw [e2, h]; simp))
    subst this
    rw [List.append_nil] at e1
    exact ⟨[], by simp, by rw [yRe, hres, e1]; simp⟩

/-- how a text `select X where Y` is split, when `where` is not mentioned in or after `Y` or there is a newline before the `where`: at
that `where` -/
theorem head_query {lead sel gap1 X gap2 kw gap3 Y trail : Bytes}
    (hlead : ∀ b ∈ lead, Space b) (hsel : Spells (asc "select") sel) (hg1 : Gap gap1)
    (hX : 0x0a ∉ X) (hXs : StartsSolid X) (hg2 : Gap gap2) (hkw : Spells (asc "where") kw) (hg3 : Gap gap3)
    (hY : 0x0a ∉ Y) (hYs : StartsSolid Y) (hend : ∃ a q, Y = a ++ [q] ∧ ¬ Space q) (htr : ∀ b ∈ trail, Space b)
    (hno : ¬ MentionsWhere (gap3 ++ (Y ++ trail)) ∨ 0x0a ∈ gap2) :
    ∃ u u', (∀ b ∈ u, Space b) ∧ (∀ b ∈ u', Space b) ∧
      submatch queryRe (lead ++ (sel ++ (gap1 ++ (X ++ (gap2 ++ (kw ++ (gap3 ++ (Y ++ trail)))))))) = some [X ++ u, Y ++ u'] := by
  have hXne : X ≠ [] := by obtain ⟨b, t, rfl, _⟩ := hXs; simp
  have hYne : Y ≠ [] := by obtain ⟨b, t, rfl, _⟩ := hYs; simp
  obtain ⟨u', hu', hy⟩ := head_y hY hend htr
  have hwhex : whRe.run (gap2 ++ (kw ++ (gap3 ++ (Y ++ trail)))) ≠ [] := by
    intro h
    have : (([], [Y]) : Bytes × List Bytes) ∈ whRe.run (gap2 ++ (kw ++ (gap3 ++ (Y ++ trail)))) :=
      mem_wh.2 ⟨gap2, kw, gap3, Y, trail, rfl, hg2, where_spells.2 hkw, hg3, hYne, hY, htr, rfl⟩
    rw [h] at this; simp at this
  obtain ⟨v, t, y, e, hvne, hv, ht, hres, hmax⟩ := head_groupPlus (p := dot) (r := whRe)
    (s := X ++ (gap2 ++ (kw ++ (gap3 ++ (Y ++ trail))))) (by
      obtain ⟨z, hz⟩ := List.exists_mem_of_ne_nil _ hwhex
      exact List.ne_nil_of_mem (mem_seq.2 ⟨_, mem_groupPlus.2 ⟨X, _, rfl, hXne, (dot_iff X).2 hX, rfl⟩, z, hz, rfl⟩))
  have hlen := hmax X _ rfl hXne ((dot_iff X).2 hX) hwhex
  -- the longest group is X and some of the gap
  obtain ⟨u, hvu, e1⟩ : ∃ u, v = X ++ u ∧ gap2 ++ (kw ++ (gap3 ++ (Y ++ trail))) = u ++ t := by
    rw [List.append_eq_append_iff] at e
    rcases e with ⟨u, e1, e2⟩ | ⟨u, e1, e2⟩
    · exact ⟨u, e1, e2⟩
    · have : u = [] := by
        rw [e1, List.length_append] at hlen
        exact List.length_eq_zero_iff.1 (by omega)
      subst this
      exact ⟨[], by simpa using e1.symm, by simpa using e2.symm⟩
  obtain ⟨g2', wh', g3', y', tr', et, hg2', hwh', hg3', hy', _, htr', _⟩ := mem_wh.1 (List.mem_of_head? ht)
  obtain ⟨c, hc, e2⟩ : ∃ c, c ≠ [] ∧ gap2 = u ++ c ∧ t = c ++ (kw ++ (gap3 ++ (Y ++ trail))) := by
    rw [List.append_eq_append_iff] at e1
    rcases e1 with ⟨c, e1, e2⟩ | ⟨c, e1, e2⟩
    · exfalso
      -- the group would contain the keyword: then `where` is mentioned later
      obtain ⟨d, e3⟩ : ∃ d, gap3 ++ (Y ++ trail) = d ++ t := by
        rw [List.append_eq_append_iff] at e2
        rcases e2 with ⟨d, e3, e4⟩ | ⟨d, e3, e4⟩
        · exact ⟨d, e4⟩
        · cases d with
          | nil => exact ⟨[], by simpa using e4.symm⟩
          | cons z d =>
            exfalso
            obtain ⟨hne, hall⟩ := hg2'
            cases g2' with
            | nil => exact hne rfl
            | cons z' g2' =>
              rw [et] at e4
              simp only [List.cons_append, List.cons.injEq] at e4
              have hz : z ∈ kw := by rw [e3]; simp
              refine space_not_where (hall z' (by simp)) ?_
              rw [e4.1]
              exact mem_where hkw hz
      replace hno : ¬ MentionsWhere (gap3 ++ (Y ++ trail)) := by
        rcases hno with hno | hnl
        · exact hno
        · exfalso
          refine (dot_iff v).1 hv ?_
          rw [hvu, e1]
          exact List.mem_append_right _ (List.mem_append_left _ hnl)
      refine hno ?_
      rcases List.eq_nil_or_concat g2' with h | ⟨g, x, h⟩
      · exact absurd h hg2'.1
      · rw [List.concat_eq_append] at h
        obtain ⟨y1, g3'', h3⟩ := List.exists_cons_of_ne_nil hg3'.1
        refine ⟨d ++ g, x, wh', y1, g3'' ++ (y' ++ tr'), ?_, hg2'.2 x (by rw [h]; simp), hg3'.2 y1 (by rw [h3]; simp), where_spells.1 hwh'⟩
        rw [e3, et, h, h3]; simp
    · cases c with
      | nil =>
        exfalso
        rw [List.nil_append] at e2
        have hs := spells_solid (c := 0x77) (w := [0x68, 0x65, 0x72, 0x65]) (by
          have := where_lower
          rwa [show asc "where" = [0x77, 0x68, 0x65, 0x72, 0x65] by decide +kernel] at this) (by
          rwa [show asc "where" = [0x77, 0x68, 0x65, 0x72, 0x65] by decide +kernel] at hkw)
        obtain ⟨b, r, hb, hbs⟩ := hs
        obtain ⟨hne, hall⟩ := hg2'
        cases g2' with
        | nil => exact hne rfl
        | cons z' g2' =>
          rw [et, hb] at e2
          simp only [List.cons_append, List.cons.injEq] at e2
          rw [← e2.1] at hbs
          exact hbs (hall z' (by simp))
      | cons z c => exact ⟨z :: c, by simp, e1, e2⟩
  obtain ⟨e2, e3⟩ := e2
  have hcgap : Gap c := ⟨hc, fun b hb => hg2.2 b (by rw [e2]; simp [hb])⟩
  have hkws : StartsSolid kw := by
    have h5 : asc "where" = [0x77, 0x68, 0x65, 0x72, 0x65] := by decide +kernel
    exact spells_solid (c := 0x77) (w := [0x68, 0x65, 0x72, 0x65]) (h5 ▸ where_lower) (h5 ▸ hkw)
  have hsels : StartsSolid sel := by
    have h6 : asc "select" = [0x73, 0x65, 0x6c, 0x65, 0x63, 0x74] := by decide +kernel
    exact spells_solid (c := 0x73) (w := [0x65, 0x6c, 0x65, 0x63, 0x74]) (h6 ▸ select_lower) (h6 ▸ hsel)
  have hty : (whRe.run t).head? = some ([], [Y ++ u']) := by
    rw [e3, whRe]
    refine head_gap hcgap (solid_append hkws _) ?_
    rw [run_word where_lower hkw]
    exact head_gap hg3 (solid_append hYs _) hy
  rw [ht] at hty
  have := Option.some.inj hty
  subst this
  refine ⟨u, u', fun b hb => hg2.2 b (by rw [e2]; simp [hb]), hu', ?_⟩
  unfold submatch
  rw [queryRe_eq]
  rw [head_spaces hlead (solid_append hsels _) (x := ([], [X ++ u, Y ++ u']))]
  · rfl
  · rw [run_word select_lower hsel]
    refine head_gap hg1 (solid_append hXs _) ?_
    rw [hres, hvu]

/-! ### what the parser makes of the parts -/

theorem select_caps {s : Bytes} {c : List Bytes} (h : c ∈ findAll selectRe s) : ∃ m f, c = [m, f] := by
  induction s using findAll.induct selectRe with
  | case1 s rest caps hh hl ih =>
    rw [findAll_hit hh hl] at h
    rcases List.mem_cons.1 h with rfl | h
    · have := List.mem_of_head? hh
      rw [selectRe, mem_seq] at this
      obtain ⟨y, hy, z, hz, e⟩ := this
      obtain ⟨v, t, _, _, _, rfl⟩ := mem_groupPlus.1 hy
      rw [mem_seq] at hz
      obtain ⟨y, hy, z, hz, rfl⟩ := hz
      obtain ⟨_, _, rfl⟩ := mem_lit.1 hy
      rw [mem_seq] at hz
      obtain ⟨y, hy, z, hz, rfl⟩ := hz
      obtain ⟨v', _, _, _, _, rfl⟩ := mem_groupPlus.1 hy
      obtain ⟨_, _, rfl⟩ := mem_lit.1 hz
      simp only [Prod.mk.injEq] at e
      exact ⟨v, v', e.2⟩
    · exact ih h
  | case2 s rest caps hh hl =>
    rw [findAll.eq_def, hh] at h
    simp only at h
    rw [if_neg hl] at h
    simp at h
  | case3 hh => rw [findAll.eq_def, hh] at h; simp at h
  | case4 b t hh ih =>
    rw [findAll_skip (List.head?_eq_none_iff.1 hh)] at h
    exact ih h

theorem where_caps {s : Bytes} {c : List Bytes} (h : c ∈ findAll whereRe s) :
    ∃ f v, c = [f, v] ∧ f ≠ [] ∧ (∀ b ∈ f, ¬ Space b) ∧ v ≠ [] ∧ 0x27 ∉ v := by
  induction s using findAll.induct whereRe with
  | case1 s rest caps hh hl ih =>
    rw [findAll_hit hh hl] at h
    rcases List.mem_cons.1 h with rfl | h
    · have := List.mem_of_head? hh
      rw [whereRe, mem_seq] at this
      obtain ⟨y, hy, z, hz, e⟩ := this
      obtain ⟨v, t, _, hne, hv, rfl⟩ := mem_groupPlus.1 hy
      rw [mem_seq] at hz
      obtain ⟨y, hy, z, hz, rfl⟩ := hz
      obtain ⟨_, _, rfl⟩ := mem_lit.1 hy
      rw [mem_seq] at hz
      obtain ⟨y, hy, z, hz, rfl⟩ := hz
      obtain ⟨_, _, rfl⟩ := mem_lit.1 hy
      rw [mem_seq] at hz
      obtain ⟨y, hy, z, hz, rfl⟩ := hz
      obtain ⟨v', _, _, hne', hv', rfl⟩ := mem_groupPlus.1 hy
      obtain ⟨_, _, rfl⟩ := mem_lit.1 hz
      simp only [Prod.mk.injEq] at e
      refine ⟨v, v', e.2, hne, fun b hb => not_space (hv b hb), hne', ?_⟩
      intro hq
      have := hv' _ hq
      revert this; decide
    · exact ih h
  | case2 s rest caps hh hl =>
    rw [findAll.eq_def, hh] at h
    simp only at h
    rw [if_neg hl] at h
    simp at h
  | case3 hh => rw [findAll.eq_def, hh] at h; simp at h
  | case4 b t hh ih =>
    rw [findAll_skip (List.head?_eq_none_iff.1 hh)] at h
    exact ih h

theorem collect_some (l : List (List Bytes)) (h : ∀ c ∈ l, ∃ m f, c = [m, f]) (fields : List FM) : ∃ fs, collect l fields = some fs := by
  induction l generalizing fields with
  | nil => exact ⟨fields, rfl⟩
  | cons c l ih =>
    obtain ⟨m, f, rfl⟩ := h c (by simp)
    exact ih (fun c hc => h c (by simp [hc])) _

theorem criteria_some (l : List (List Bytes)) (h : ∀ c ∈ l, ∃ f v, c = [f, v]) :
    ∃ cs, criteria l = some cs ∧ ∀ c ∈ cs, [c.f, c.v] ∈ l := by
  induction l with
  | nil => exact ⟨[], rfl, by simp⟩
  | cons c l ih =>
    obtain ⟨f, v, rfl⟩ := h c (by simp)
    obtain ⟨cs, e, hcs⟩ := ih fun c hc => h c (by simp [hc])
    refine ⟨⟨f, v⟩ :: cs, by rw [criteria, e]; rfl, ?_⟩
    intro c hc
    rcases List.mem_cons.1 hc with rfl | hc
    · simp
    · exact List.mem_cons_of_mem _ (hcs c hc)

theorem criteria_map (cs : List FV) : criteria (cs.map fun c => [c.f, c.v]) = some cs := by
  induction cs with
  | nil => rfl
  | cons c cs ih => rw [List.map_cons, criteria, ih]; rfl

/-! ### grouping by field -/

theorem addField_names (fs : List FM) (f m : Bytes) :
    (addField fs f m).map FM.f = if f ∈ fs.map FM.f then fs.map FM.f else fs.map FM.f ++ [f] := by
  induction fs with
  | nil => simp [addField]
  | cons e es ih =>
    rw [addField]
    split
    · next h => rw [if_pos (by simp [h])]; simp [h]
    · next h =>
      rw [List.map_cons, ih]
      have : f ∈ (e :: es).map FM.f ↔ f ∈ es.map FM.f := by
        rw [List.map_cons, List.mem_cons]
        constructor
        · rintro (h' | h')
          · exact absurd h'.symm h
          · exact h'
        · exact .inr
      by_cases h' : f ∈ es.map FM.f
      · rw [if_pos h', if_pos (this.2 h')]; rfl
      · rw [if_neg h', if_neg fun h'' => h' (this.1 h'')]; rfl

theorem mem_addField (fs : List FM) (f m : Bytes) (hn : (fs.map FM.f).Nodup) (g : Bytes) (ms : List Bytes) :
    ⟨g, ms⟩ ∈ addField fs f m ↔ (g ≠ f ∧ ⟨g, ms⟩ ∈ fs) ∨ (g = f ∧ ((∃ ms0, ⟨f, ms0⟩ ∈ fs ∧ ms = ms0 ++ [m]) ∨ (f ∉ fs.map FM.f ∧ ms = [m]))) := by
  induction fs with
  | nil => simp [addField]
  | cons e es ih =>
    rw [List.map_cons, List.nodup_cons] at hn
    rw [addField]
    split
    · next h =>
      subst h
      have hno : ∀ ms, (⟨e.f, ms⟩ : FM) ∉ es := fun ms h => hn.1 (List.mem_map.2 ⟨_, h, rfl⟩)
      simp only [List.mem_cons, FM.mk.injEq, List.map_cons, true_or, not_true_eq_false, false_and, or_false]
      constructor
      · rintro (⟨rfl, rfl⟩ | h)
        · exact .inr ⟨rfl, e.m, .inl rfl, rfl⟩
        · by_cases hg : g = e.f
          · subst hg; exact absurd h (hno _)
          · exact .inl ⟨hg, .inr h⟩
      · rintro (⟨hg, h⟩ | ⟨rfl, ms0, h, rfl⟩)
        · rcases h with h | h
          · rw [← h] at hg; exact absurd rfl hg
          · exact .inr h
        · rcases h with h | h
          · rw [← h]; exact .inl ⟨rfl, rfl⟩
          · exact absurd h (hno _)
    · next h =>
      rw [List.mem_cons, ih hn.2]
      have hmem : f ∈ (e :: es).map FM.f ↔ f ∈ es.map FM.f := by
        rw [List.map_cons, List.mem_cons]
        constructor
        · rintro (h' | h')
          · exact absurd h'.symm h
          · exact h'
        · exact .inr
      rw [hmem]
      constructor
      · rintro (h' | ⟨h1, h2⟩ | ⟨rfl, ⟨ms0, h1, rfl⟩ | ⟨h1, rfl⟩⟩)
        · exact .inl ⟨by rintro rfl; rw [← h'] at h; exact h rfl, by rw [h']; simp⟩
        · exact .inl ⟨h1, by simp [h2]⟩
        · exact .inr ⟨rfl, .inl ⟨ms0, by simp [h1], rfl⟩⟩
        · exact .inr ⟨rfl, .inr ⟨h1, rfl⟩⟩
      · rintro (⟨h1, h2⟩ | ⟨rfl, ⟨ms0, h1, rfl⟩ | ⟨h1, rfl⟩⟩)
        · rcases List.mem_cons.1 h2 with h2 | h2
          · exact .inl h2
          · exact .inr (.inl ⟨h1, h2⟩)
        · rcases List.mem_cons.1 h1 with h1 | h1
          · rw [← h1] at h; exact absurd rfl h
          · exact .inr (.inr ⟨rfl, .inl ⟨ms0, h1, rfl⟩⟩)
        · exact .inr (.inr ⟨rfl, .inr ⟨h1, rfl⟩⟩)

theorem groups_add {ss : List Sel} {fs : List FM} (h : GroupsOf ss fs) (s : Sel) : GroupsOf (ss ++ [s]) (addField fs s.f s.m) := by
  obtain ⟨hn, hm⟩ := h
  have hin : ∀ f, f ∈ fs.map FM.f ↔ ss.filter (fun s => s.f = f) ≠ [] := by
    intro f
    rw [List.mem_map]
    constructor
    · rintro ⟨⟨g, ms⟩, hmem, rfl⟩
      obtain ⟨h1, h2⟩ := (hm g ms).1 hmem
      intro h3
      rw [h3] at h2
      exact h1 (by simpa using h2)
    · intro h1
      exact ⟨⟨f, _⟩, (hm f _).2 ⟨by simpa using h1, rfl⟩, rfl⟩
  constructor
  · rw [addField_names]
    split
    · exact hn
    · next h =>
      rw [List.nodup_append]
      refine ⟨hn, by simp, ?_⟩
      rintro a ha b hb rfl
      rw [List.mem_singleton] at hb
      rw [hb] at ha
      exact h ha
  · intro f ms
    rw [mem_addField _ _ _ hn, List.filter_append, List.map_append]
    by_cases hf : f = s.f
    · subst hf
      have e1 : [s].filter (fun s' => s'.f = s.f) = [s] := by simp
      rw [e1]
      simp only [ne_eq, not_true_eq_false, false_and, true_and, false_or, List.map_cons, List.map_nil]
      constructor
      · rintro (⟨ms0, h1, rfl⟩ | ⟨h1, rfl⟩)
        · rw [((hm _ _).1 h1).2]; simp
        · rw [hin] at h1
          rw [Decidable.not_not.1 h1]; simp
      · rintro ⟨_, rfl⟩
        by_cases h1 : ss.filter (fun s' => s'.f = s.f) = []
        · rw [h1]
          exact .inr ⟨fun h2 => (hin _).1 h2 h1, rfl⟩
        · exact .inl ⟨_, (hm _ _).2 ⟨by simpa using h1, rfl⟩, rfl⟩
    · have e1 : [s].filter (fun s' => s'.f = f) = [] := by
        simp only [List.filter_cons, List.filter_nil]
        rw [if_neg]
        simpa using fun h => hf h.symm
      rw [e1, hm f ms]
      simp [hf]

theorem collect_groups (ss : List Sel) (done : List Sel) (fs : List FM) (h : GroupsOf done fs) :
    ∃ fs', collect (ss.map fun s => [s.m, s.f]) fs = some fs' ∧ GroupsOf (done ++ ss) fs' := by
  induction ss generalizing done fs with
  | nil => exact ⟨fs, rfl, by simpa using h⟩
  | cons s ss ih =>
    obtain ⟨fs', e, hg⟩ := ih (done ++ [s]) _ (groups_add h s)
    exact ⟨fs', e, by simpa using hg⟩

theorem groups_perm {ss : List Sel} {fs fs' : List FM} (h : GroupsOf ss fs) (hp : fs'.Perm fs) : GroupsOf ss fs' :=
  ⟨(hp.map FM.f).nodup_iff.2 h.1, fun f ms => by rw [hp.mem_iff]; exact h.2 f ms⟩

end Starbow.Query
