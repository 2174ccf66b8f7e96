import Verif.Proof.QueryShape
/-
Property theorems C45, C46 and C47: the query parser. The order of the fields in the answer is left open by the code (map iteration): the
theorems hold for every order.
-/
namespace Starbow.Props
open Starbow.Collation Starbow.Spec Starbow.Query

/-! ### C45 -/

theorem sels_solid {s : Sel} (h : PlainName s.m) (t : Bytes) : StartsSolid (s.text ++ t) := by
  obtain ⟨hne, hp⟩ := h
  cases hm : s.m with
  | nil => exact absurd hm hne
  | cons b m =>
    refine ⟨b, m ++ asc "(" ++ s.f ++ asc ")" ++ t, by rw [Sel.text, hm]; simp, (hp b (by rw [hm]; simp)).1⟩

theorem sel_no_newline {s : Sel} (h : PlainName s.m ∧ PlainName s.f) : 0x0a ∉ s.text := by
  rw [Sel.text, show asc "(" = [0x28] by decide +kernel, show asc ")" = [0x29] by decide +kernel]
  intro hm
  simp only [List.append_assoc, List.mem_append, List.mem_singleton] at hm
  rcases hm with hm | hm | hm | hm
  · exact (h.1.2 _ hm).1 (by decide)
  · exact absurd hm (by decide)
  · exact (h.2.2 _ hm).1 (by decide)
  · exact absurd hm (by decide)

theorem crit_no_newline {c : FV} (h1 : ∀ b ∈ c.f, ¬ Space b) (h2 : 0x0a ∉ c.v) : 0x0a ∉ critText c := by
  rw [critText, show asc "='" = [0x3d, 0x27] by decide +kernel, show asc "'" = [0x27] by decide +kernel]
  intro hm
  simp only [List.append_assoc, List.mem_append, List.mem_cons, List.not_mem_nil, or_false] at hm
  rcases hm with hm | (hm | hm) | hm | hm
  · exact h1 _ hm (by decide)
  · exact absurd hm (by decide)
  · exact absurd hm (by decide)
  · exact h2 hm
  · exact absurd hm (by decide)

theorem crit_end (c : FV) : ∃ a, critText c = a ++ [0x27] := by
  rw [critText, show asc "'" = [0x27] by decide +kernel]
  exact ⟨_, rfl⟩

theorem crit_solid {c : FV} (h0 : c.f ≠ []) (h1 : ∀ b ∈ c.f, ¬ Space b) : StartsSolid (critText c) := by
  cases hf : c.f with
  | nil => exact absurd hf h0
  | cons b f => exact ⟨b, f ++ asc "='" ++ c.v ++ asc "'", by rw [critText, hf]; simp, h1 b (by rw [hf]; simp)⟩

/-- **C45**: a query text made of ordinary pieces — any number of selections `m(f)` and criteria `k='v'`, any mixture of case in the
keywords, any spacing — parses, and the result lists exactly the selections, grouped by field, and exactly the criteria, in order. -/
theorem C45_parse (ord : List FM → List FM) (hord : ∀ l, (ord l).Perm l) (q : QText) (hq : q.Ordinary) :
    ∃ out, roughParse ord q.text = .ok out ∧ out.criteria = q.criteria ∧ GroupsOf q.selections out.fieldMeasures := by
  obtain ⟨hlead, hkw1, hg1, hsel, hsels, hg2, hkw2, hg3, hcrit, hcrits, htr⟩ := hq
  -- the two groups
  have hX : (0x0a : Byte) ∉ q.sel.text ++ q.sels.flatMap (fun p => p.1 ++ p.2.text) := by
    intro hm
    rcases List.mem_append.1 hm with hm | hm
    · exact sel_no_newline hsel hm
    · obtain ⟨p, hp, hm⟩ := List.mem_flatMap.1 hm
      rcases List.mem_append.1 hm with hm | hm
      · exact ((hsels p hp).1.2 _ hm).2 rfl
      · exact sel_no_newline (hsels p hp).2 hm
  have hY : (0x0a : Byte) ∉ critText q.crit ++ q.crits.flatMap (fun p => p.1 ++ critText p.2) := by
    intro hm
    rcases List.mem_append.1 hm with hm | hm
    · exact crit_no_newline (fun b hb => (hcrit.f_plain b hb).1) (fun h => (hcrit.v_plain _ h).2 rfl) hm
    · obtain ⟨p, hp, hm⟩ := List.mem_flatMap.1 hm
      rcases List.mem_append.1 hm with hm | hm
      · exact ((hcrits p hp).1.plain _ hm).2 rfl
      · exact crit_no_newline (fun b hb => ((hcrits p hp).2.f_plain b hb).1) (fun h => ((hcrits p hp).2.v_plain _ h).2 rfl) hm
  have hend : ∃ a q', critText q.crit ++ q.crits.flatMap (fun p => p.1 ++ critText p.2) = a ++ [q'] ∧ ¬ Space q' := by
    rcases List.eq_nil_or_concat q.crits with h | ⟨ps, p, h⟩
    · obtain ⟨a, ha⟩ := crit_end q.crit
      exact ⟨a, 0x27, by rw [h, ha]; simp, by decide⟩
    · obtain ⟨a, ha⟩ := crit_end p.2
      rw [List.concat_eq_append] at h
      exact ⟨critText q.crit ++ ps.flatMap (fun p => p.1 ++ critText p.2) ++ (p.1 ++ a), 0x27, by rw [h, List.flatMap_append]; simp [ha], by decide⟩
  obtain ⟨u, u', hu, hu', hsub⟩ := head_query hlead hkw1 hg1 hX (sels_solid hsel.1 _) hg2 hkw2 hg3 hY
    (solid_append (crit_solid hcrit.f_ne fun b hb => (hcrit.f_plain b hb).1) _) hend htr
    (.inl (mentions_crits (mentions_spaces hg3.2) q.crit hcrit q.crits hcrits q.trail htr))
  have etext : q.text = q.lead ++ (q.kwSelect ++ (q.gap1 ++ ((q.sel.text ++ q.sels.flatMap (fun p => p.1 ++ p.2.text)) ++ (q.gap2 ++ (q.kwWhere ++
      (q.gap3 ++ ((critText q.crit ++ q.crits.flatMap (fun p => p.1 ++ critText p.2)) ++ q.trail))))))) := by
    unfold QText.text
    simp
  rw [etext]
  unfold roughParse
  rw [hsub]
  simp only
  rw [findAll_sels q.sel hsel q.sels hsels u hu, findAll_crits q.crit hcrit q.crits hcrits u' hu', criteria_map]
  obtain ⟨fs, e, hg⟩ := collect_groups q.selections [] [] ⟨by simp, by
    intro f ms
    simp⟩
  rw [show (q.sel :: q.sels.map Prod.snd).map (fun s => [s.m, s.f]) = q.selections.map (fun s => [s.m, s.f]) from rfl, e]
  exact ⟨_, rfl, rfl, groups_perm hg (hord fs)⟩

/-- an ordinary query in mixed case with two fields, a value with spaces, an equals sign and the word where inside -/
def oddQuery : QText :=
  { lead := asc " ", kwSelect := asc "SeLecT", gap1 := asc "  ", sel := ⟨asc "count", asc "*"⟩,
    sels := [(asc ", ", ⟨asc "max", asc "height"⟩), (asc ",", ⟨asc "min", asc "height"⟩)],
    gap2 := [0x09, 0x0a], kwWhere := asc "WHERE", gap3 := asc " ", crit := ⟨asc "name", asc "a=b (where) c"⟩,
    crits := [(asc " and ", ⟨asc "country", asc "United States"⟩)], trail := [0x0a] }

theorem mentions_bounded {s : Bytes} (h : ∀ i, i < s.length → ¬ (Space (s.getD i 0) ∧ Spells (asc "where") ((s.drop (i + 1)).take 5))) :
    ¬ MentionsWhere s := by
  rintro ⟨a, x, w, y, b, e, hx, _, hw⟩
  have hl : w.length = 5 := by
    have := congrArg List.length hw
    rw [List.length_map] at this
    exact this.trans (by decide +kernel)
  refine h a.length (by rw [e]; simp) ⟨?_, ?_⟩
  · rw [e]
    simpa using hx
  · rw [e]
    have : (a ++ x :: (w ++ y :: b)).drop (a.length + 1) = w ++ y :: b := by
      rw [List.drop_append]; simp
    rw [this, List.take_append_of_le_length (by omega), List.take_of_length_le (by omega)]
    exact hw

theorem plainCrit_of {c : FV} (h1 : c.f ≠ [] ∧ (∀ b ∈ c.f, ¬ Space b ∧ b ≠ 0x27) ∧ c.v ≠ [] ∧ (∀ b ∈ c.v, b ≠ 0x27 ∧ b ≠ 0x0a) ∧
      c.v.getLast? ≠ some 0x3d)
    (h2 : ∀ i, i < c.v.length → ¬ (Space (c.v.getD i 0) ∧ Spells (asc "where") ((c.v.drop (i + 1)).take 5))) : PlainCrit c :=
  ⟨h1.1, h1.2.1, h1.2.2.1, h1.2.2.2.1, mentions_bounded h2, h1.2.2.2.2⟩

instance (w s : Bytes) : Decidable (Spells w s) := by unfold Spells; infer_instance
instance (s : Bytes) : Decidable (Gap s) := by unfold Gap; infer_instance
instance (s : Bytes) : Decidable (PlainName s) := by unfold PlainName; infer_instance
instance (s : Bytes) : Decidable (SelSep s) := by unfold SelSep; infer_instance

/-- the hypotheses of C45 hold of it -/
theorem oddQuery_ordinary : oddQuery.Ordinary where
  lead := by decide +kernel
  kwSelect := by decide +kernel
  gap1 := by decide +kernel
  sel := by decide +kernel
  sels := by decide +kernel
  gap2 := by decide +kernel
  kwWhere := by decide +kernel
  gap3 := by decide +kernel
  crit := plainCrit_of (by decide +kernel) (by decide +kernel)
  crits := by
    intro p hp
    simp only [oddQuery, List.mem_singleton] at hp
    subst hp
    exact ⟨⟨by decide +kernel, ⟨asc " and", 0x20, by decide +kernel, by decide⟩, mentions_bounded (by decide +kernel)⟩,
      plainCrit_of (by decide +kernel) (by decide +kernel)⟩
  trail := by decide +kernel

/-- and this is what it means -/
example : roughParse id oddQuery.text = .ok ⟨[⟨asc "*", [asc "count"]⟩, ⟨asc "height", [asc "max", asc "min"]⟩],
    [⟨asc "name", asc "a=b (where) c"⟩, ⟨asc "country", asc "United States"⟩]⟩ := by decide +kernel

/-- Outside the ordinary texts: a criterion whose value ends in `=`, followed by another one, is misread: `a='x=' and b='y'` is taken as
one criterion, field `a='x` and value ` and b=`. -/
theorem C45_misread_refuted : roughParse id (asc "select count(*) where a='x=' and b='y'") =
    .ok ⟨[⟨asc "*", [asc "count"]⟩], [⟨asc "a='x", asc " and b="⟩]⟩ := by decide +kernel

/-- Outside the ordinary texts: a value that contains the word where makes the text be split there; no criterion is left. -/
theorem C45_where_refuted : roughParse id (asc "select count(*) where a='x where y'") =
    .ok ⟨[⟨asc "*", [asc "count"]⟩], []⟩ := by decide +kernel

/-! ### C46 -/

/-- `select count(*)`, a newline, `where`, and the criteria one after the other, separated by a quote and a space -/
def listing (c : FV) (cs : List FV) : Bytes :=
  asc "select count(*)\nwhere " ++ (critText c ++ cs.flatMap fun c' => asc "' " ++ critText c')

/-- **C46**, partial: for every non-empty list of fields and values, where the field names are not empty and without white space and the values are
not empty and contain neither quotes nor newlines, there is a query (the one above) whose criteria are exactly these — also for values
that contain the word where or end in `=`. Missing: the empty value and values with a quote (`C46_refuted`). -/
theorem C46_queryable_partial (ord : List FM → List FM) (hord : ∀ l, (ord l).Perm l) (c : FV) (cs : List FV)
    (hcs : ∀ c' ∈ c :: cs, c'.f ≠ [] ∧ (∀ b ∈ c'.f, ¬ Space b) ∧ c'.v ≠ [] ∧ (0x27 ∉ c'.v) ∧ (0x0a ∉ c'.v)) :
    roughParse ord (listing c cs) = .ok ⟨[⟨asc "*", [asc "count"]⟩], c :: cs⟩ := by
  have hY : (0x0a : Byte) ∉ critText c ++ cs.flatMap fun c' => 0x27 :: 0x20 :: critText c' := by
    intro hm
    rcases List.mem_append.1 hm with hm | hm
    · obtain ⟨_, h2, _, _, h5⟩ := hcs c (by simp)
      exact crit_no_newline h2 h5 hm
    · obtain ⟨p, hp, hm⟩ := List.mem_flatMap.1 hm
      obtain ⟨_, h2, _, _, h5⟩ := hcs p (by simp [hp])
      rcases List.mem_cons.1 hm with hm | hm
      · exact absurd hm (by decide)
      · rcases List.mem_cons.1 hm with hm | hm
        · exact absurd hm (by decide)
        · exact crit_no_newline h2 h5 hm
  have hend : ∃ a q', (critText c ++ cs.flatMap fun c' => 0x27 :: 0x20 :: critText c') = a ++ [q'] ∧ ¬ Space q' := by
    rcases List.eq_nil_or_concat cs with h | ⟨ps, p, h⟩
    · obtain ⟨a, ha⟩ := crit_end c
      exact ⟨a, 0x27, by rw [h, ha]; simp, by decide⟩
    · obtain ⟨a, ha⟩ := crit_end p
      rw [List.concat_eq_append] at h
      exact ⟨critText c ++ ps.flatMap (fun c' => 0x27 :: 0x20 :: critText c') ++ (0x27 :: 0x20 :: a), 0x27,
        by rw [h, List.flatMap_append]; simp [ha], by decide⟩
  obtain ⟨h1, h2, _⟩ := hcs c (by simp)
  obtain ⟨u, u', hu, hu', hsub⟩ := head_query (lead := []) (sel := asc "select") (gap1 := [0x20])
    (X := asc "count(*)") (gap2 := [0x0a]) (kw := asc "where") (gap3 := [0x20]) (trail := []) (by simp) (by decide +kernel) (by decide +kernel)
    (by decide +kernel) ⟨0x63, asc "ount(*)", by decide +kernel, by decide⟩ (by decide +kernel) (by decide +kernel) (by decide +kernel) hY
    (solid_append (crit_solid h1 h2) _) hend (by simp) (.inr (by simp))
  have etext : listing c cs = [] ++ (asc "select" ++ ([0x20] ++ (asc "count(*)" ++ ([0x0a] ++ (asc "where" ++ ([0x20] ++
      ((critText c ++ cs.flatMap fun c' => 0x27 :: 0x20 :: critText c') ++ []))))))) := by
    unfold listing
    rw [show asc "select count(*)\nwhere " = asc "select" ++ [0x20] ++ asc "count(*)" ++ [0x0a] ++ asc "where" ++ [0x20] by decide +kernel,
      show asc "' " = [0x27, 0x20] by decide +kernel]
    simp
  have hu'' : u' = [] := by
    -- the second group ends where the text ends
    rcases List.mem_of_head? (l := queryRe.run _) (a := ([], [asc "count(*)" ++ u, (critText c ++ cs.flatMap fun c' => 0x27 :: 0x20 :: critText c') ++ u']))
      (by
        unfold submatch at hsub
        rw [Option.map_eq_some_iff] at hsub
        obtain ⟨⟨r, cp⟩, h3, h4⟩ := hsub
        simp only at h4
        subst h4
        obtain ⟨_, _, _, _, _, _, _, _, _, _, _, _, _, _, _, _, _, _, _, e⟩ := mem_query.1 (List.mem_of_head? h3)
        simp only [Prod.mk.injEq] at e
        rw [h3, e.1]) with hm
    obtain ⟨l, s, g1, x', g2, w, g3, y, tr, e1, _, _, _, _, _, _, _, _, htr', e2⟩ := mem_query.1 hm
    simp only [Prod.mk.injEq, List.cons.injEq, and_true, true_and] at e2
    rcases List.eq_nil_or_concat u' with h | ⟨u1, z, h⟩
    · exact h
    · exfalso
      rw [List.concat_eq_append] at h
      obtain ⟨a, q', ha, hq'⟩ := hend
      rw [ha] at e1
      have hz := hu' z (by rw [h]; simp)
      -- the last byte of the text is a quote, but would be white space
      have l1 := congrArg List.getLast? e1
      simp only [List.append_nil, ← List.append_assoc, List.getLast?_append, List.getLast?_singleton, Option.some_or] at l1
      rcases List.eq_nil_or_concat tr with htr0 | ⟨t1, z', htr0⟩
      · rw [htr0, ← e2.2, h] at l1
        simp only [← List.append_assoc, List.getLast?_append, List.getLast?_singleton, Option.some_or, List.getLast?_nil, Option.none_or,
          Option.some.injEq] at l1
        rw [l1] at hq'
        exact hq' hz
      · rw [List.concat_eq_append] at htr0
        rw [htr0] at l1
        simp only [← List.append_assoc, List.getLast?_append, List.getLast?_singleton, Option.some_or, Option.some.injEq] at l1
        rw [l1] at hq'
        exact hq' (htr' z' (by rw [htr0]; simp))
  rw [etext]
  unfold roughParse
  rw [hsub, hu'', List.append_nil]
  simp only
  have hs := findAll_sels ⟨asc "count", asc "*"⟩ (by decide +kernel) [] (by simp) u hu
  rw [List.flatMap_nil, List.append_nil] at hs
  rw [show asc "count(*)" = (Sel.text ⟨asc "count", asc "*"⟩) by decide +kernel, hs,
    findAll_quoted c cs (fun c' hc' => ⟨(hcs c' hc').1, (hcs c' hc').2.1, (hcs c' hc').2.2.1, (hcs c' hc').2.2.2.1⟩), criteria_map]
  simp only [List.map_cons, List.map_nil, collect, addField]
  have : ord [⟨asc "*", [asc "count"]⟩] = [⟨asc "*", [asc "count"]⟩] := by
    have := hord [⟨asc "*", [asc "count"]⟩]
    exact List.perm_singleton.1 this
  rw [this]

/-- **C46 fails** for the empty value and for values with a quote: whatever the query text, no criterion of the parsed query has such a value. -/
theorem C46_refuted (ord : List FM → List FM) (s : Bytes) (q : Query) (h : roughParse ord s = .ok q) :
    ∀ c ∈ q.criteria, c.v ≠ [] ∧ 0x27 ∉ c.v := by
  unfold roughParse at h
  split at h
  · next sel wh hsub =>
    split at h
    · simp at h
    · next fields hf =>
      obtain ⟨cs, e, hcs⟩ := criteria_some (findAll whereRe wh) fun c hc => by
        obtain ⟨f, v, rfl, _⟩ := where_caps hc
        exact ⟨f, v, rfl⟩
      rw [e] at h
      simp only [Except.ok.injEq] at h
      subst h
      intro c hc
      obtain ⟨f, v, e2, _, _, h3, h4⟩ := where_caps (hcs c hc)
      simp only [List.cons.injEq, and_true] at e2
      rw [e2.2]
      exact ⟨h3, h4⟩
  · simp at h

/-- instance of the positive part: two keys, a value with the word where, and values ending in `=` -/
example : roughParse id (listing ⟨asc "country", asc "a where b="⟩ [⟨asc "tz", asc "x="⟩]) =
    .ok ⟨[⟨asc "*", [asc "count"]⟩], [⟨asc "country", asc "a where b="⟩, ⟨asc "tz", asc "x="⟩]⟩ :=
  C46_queryable_partial id (fun _ => .refl _) _ _ (by decide +kernel)

/-! ### C47 -/

/-- **C47**: RoughParse accepts exactly the texts of the shape `select X where Y` (keywords in any case, the s also as U+017F; X and Y not
empty and without newlines, white space around the keywords as usual); all others are refused with a syntax error. (It never panics: the
model is a total function and there is no slicing in it that could fail.) -/
theorem C47_shape (ord : List FM → List FM) (s : Bytes) :
    ((∃ q, roughParse ord s = .ok q) ↔ HasShape s) ∧ ((¬ ∃ q, roughParse ord s = .ok q) ↔ roughParse ord s = .error .syntaxErr) := by
  have key : (∃ q, roughParse ord s = .ok q) ∨ roughParse ord s = .error .syntaxErr := by
    unfold roughParse
    split
    · split
      · exact .inr rfl
      · split
        · exact .inr rfl
        · exact .inl ⟨_, rfl⟩
    · exact .inr rfl
  constructor
  · constructor
    · rintro ⟨q, hq⟩
      unfold roughParse at hq
      split at hq
      · next sel wh hsub =>
        unfold submatch at hsub
        rw [Option.map_eq_some_iff] at hsub
        obtain ⟨x, hx, _⟩ := hsub
        obtain ⟨a1, a2, a3, a4, a5, a6, a7, a8, a9, e, h1, h2, h3, h4, h5, h6, h7, h8, h9, _⟩ := mem_query.1 (List.mem_of_head? hx)
        exact ⟨a1, a2, a3, a4, a5, a6, a7, a8, a9, e, h1, h2, h3, h4, h5, h6, h7, h8, h9⟩
      · simp at hq
    · rintro ⟨a1, a2, a3, a4, a5, a6, a7, a8, a9, e, h1, h2, h3, h4, h5, h6, h7, h8, h9⟩
      have hm : (([], [a4, a8]) : Bytes × List Bytes) ∈ queryRe.run s :=
        mem_query.2 ⟨a1, a2, a3, a4, a5, a6, a7, a8, a9, e, h1, h2, h3, h4, h5, h6, h7, h8, h9, rfl⟩
      cases hh : (queryRe.run s).head? with
      | none => rw [List.head?_eq_none_iff] at hh; rw [hh] at hm; simp at hm
      | some x =>
        obtain ⟨_, _, _, sel, _, _, _, wh, _, _, _, _, _, _, _, _, _, _, _, ex⟩ := mem_query.1 (List.mem_of_head? hh)
        have hsub : submatch queryRe s = some [sel, wh] := by
          unfold submatch
          rw [hh, ex]
          rfl
        unfold roughParse
        rw [hsub]
        simp only
        obtain ⟨fs, e1⟩ := collect_some (findAll selectRe sel) (fun c hc => select_caps hc) []
        obtain ⟨cs, e2, _⟩ := criteria_some (findAll whereRe wh) fun c hc => by
          obtain ⟨f, v, rfl, _⟩ := where_caps hc
          exact ⟨f, v, rfl⟩
        rw [e1, e2]
        exact ⟨_, rfl⟩
  · constructor
    · intro h
      rcases key with h' | h'
      · exact absurd h' h
      · exact h'
    · rintro h ⟨q, hq⟩
      rw [h] at hq
      simp at hq

/-- a text of the shape, with the long s, and one that lacks the criteria -/
example : HasShape ([0xc5, 0xbf] ++ asc "elect nonsense where nothing") ∧
    roughParse id ([0xc5, 0xbf] ++ asc "elect nonsense where nothing") = .ok ⟨[], []⟩ ∧
    roughParse id (asc "select count(*)") = .error .syntaxErr := by
  refine ⟨(C47_shape id _).1.1 ⟨⟨[], []⟩, by decide +kernel⟩, by decide +kernel, by decide +kernel⟩

end Starbow.Props
