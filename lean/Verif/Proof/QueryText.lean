import Verif.Proof.Query
/-
What the three expressions find in an ordinary query text.
-/
namespace Starbow.Query
open Starbow.Collation Starbow.Spec

theorem findAll_hit {r : Re} {s rest : Bytes} {caps : List Bytes} (h : (r.run s).head? = some (rest, caps)) (hl : rest.length < s.length) :
    findAll r s = caps :: findAll r rest := by
  rw [findAll.eq_def, h]
  simp only
  rw [if_pos hl]

theorem lt_append {a t : Bytes} (h : a ≠ []) : t.length < (a ++ t).length := by
  have := List.length_pos_iff.2 h
  rw [List.length_append]; omega

theorem sel_text_ne (s : Sel) : s.m ++ asc "(" ++ s.f ++ asc ")" ≠ [] := by
  rw [show asc ")" = [0x29] by decide +kernel]; simp

theorem critText_ne (c : FV) : critText c ≠ [] := by
  unfold critText
  rw [show asc "'" = [0x27] by decide +kernel]; simp

theorem findAll_skip {r : Re} {b : Byte} {t : Bytes} (h : r.run (b :: t) = []) : findAll r (b :: t) = findAll r t := by
  rw [findAll, h]
  rfl

theorem findAll_nil {r : Re} (h : r.run [] = []) : findAll r [] = [] := by
  rw [findAll, h]
  rfl

/-! ### selections -/

theorem selCls_plain {b : Byte} (h : ¬ Space b ∧ b ≠ 0x2c ∧ b ≠ 0x28 ∧ b ≠ 0x29) : selCls b = true := by
  unfold selCls
  have h1 : ws b = false := by
    cases hw : ws b with
    | false => rfl
    | true => exact absurd ((ws_iff b).1 hw) h.1
  rw [h1]
  simpa using h.2.1

/-- the text starts with something outside the class, or is empty -/
def Blocked (p : Byte → Bool) (t : Bytes) : Prop := ∀ b t', t = b :: t' → p b = false

theorem blocked_split {p : Byte → Bool} {t v t' : Bytes} (h : Blocked p t) (e : t = v ++ t') (hv : ∀ b ∈ v, p b = true) : v = [] := by
  cases v with
  | nil => rfl
  | cons b v =>
    have := h b (v ++ t') e
    rw [hv b (by simp)] at this
    simp at this

theorem sel_inner {f t : Bytes} (hf : PlainName f) (ht : Blocked selCls t) :
    ((Re.seq (.group (plus selCls)) (lit 0x29)).run (f ++ 0x29 :: t)).head? = some (t, [f]) := by
  obtain ⟨hne, hp⟩ := hf
  cases f with
  | nil => exact absurd rfl hne
  | cons b f =>
    rw [List.cons_append, run_seq_groupPlus _ _ _ _ (selCls_plain (hp b (by simp)))]
    refine firstStar_hit (fun c hc => selCls_plain (hp c (by simp [hc]))) ?_ ?_
    · rw [lit, Re.run, if_pos (by simp)]
      simp only [List.map_cons, List.map_nil, List.head?_cons]
      have := take_sub_length (b :: f) (0x29 :: t)
      rw [List.cons_append] at this
      rw [this]
    · intro v t' e hv hall
      cases v with
      | nil => exact absurd rfl hv
      | cons c v =>
        rw [List.cons_append] at e
        simp only [List.cons.injEq] at e
        have := blocked_split ht e.2 fun b hb => hall b (by simp [hb])
        subst this
        rw [List.nil_append] at e
        rw [List.map_eq_nil_iff, List.eq_nil_iff_forall_not_mem]
        intro x hx
        obtain ⟨t'', e', _⟩ := mem_lit.1 hx
        have := ht _ _ (e.2.trans e')
        revert this; decide

theorem sel_hit {m f t : Bytes} (hm : PlainName m) (hf : PlainName f) (ht : Blocked selCls t) :
    (selectRe.run (m ++ asc "(" ++ f ++ asc ")" ++ t)).head? = some (t, [m, f]) := by
  have e0 : m ++ asc "(" ++ f ++ asc ")" ++ t = m ++ 0x28 :: (f ++ 0x29 :: t) := by
    rw [show asc "(" = [0x28] by decide +kernel, show asc ")" = [0x29] by decide +kernel]
    simp
  rw [e0]
  obtain ⟨hne, hp⟩ := hm
  cases m with
  | nil => exact absurd rfl hne
  | cons b m =>
    rw [List.cons_append, selectRe, run_seq_groupPlus _ _ _ _ (selCls_plain (hp b (by simp)))]
    refine firstStar_hit (fun c hc => selCls_plain (hp c (by simp [hc]))) ?_ ?_
    · rw [run_seq_lit, List.head?_map, sel_inner hf ht]
      simp only [Option.map_some]
      have := take_sub_length (b :: m) (0x28 :: (f ++ 0x29 :: t))
      rw [List.cons_append] at this
      rw [this]
    · intro v t' e hv hall
      rw [List.map_eq_nil_iff, List.eq_nil_iff_forall_not_mem]
      intro x hx
      rw [mem_seq] at hx
      obtain ⟨y, hy, _⟩ := hx
      obtain ⟨t'', rfl, _⟩ := mem_lit.1 hy
      cases v with
      | nil => exact absurd rfl hv
      | cons c v =>
        rw [List.cons_append] at e
        simp only [List.cons.injEq] at e
        have e2 : (f ++ [0x29]) ++ t = v ++ 0x28 :: t'' := by rw [← e.2]; simp
        rw [List.append_eq_append_iff] at e2
        rcases e2 with ⟨a, e3, e4⟩ | ⟨a, e3, e4⟩
        · have := blocked_split ht e4 fun b hb => hall b (by rw [e3]; simp [hb])
          subst this
          have := ht _ _ e4
          revert this; decide
        · cases a with
          | nil =>
            have := ht 0x28 t'' e4.symm
            revert this; decide
          | cons d a =>
            rw [List.cons_append] at e4
            simp only [List.cons.injEq] at e4
            have hd : (0x28 : Byte) ∈ f ++ [0x29] := by rw [e3, e4.1]; simp
            rcases List.mem_append.1 hd with hd | hd
            · exact (hp' hf hd).elim
            · simp at hd
where
  hp' {f : Bytes} (hf : PlainName f) (h : (0x28 : Byte) ∈ f) : False := (hf.2 _ h).2.2.1 rfl

theorem select_nil : selectRe.run [] = [] := by rfl

theorem select_skip {s rest : Bytes} (hs : ∀ b ∈ s, selCls b = false) : findAll selectRe (s ++ rest) = findAll selectRe rest := by
  induction s with
  | nil => rfl
  | cons b s ih =>
    rw [List.cons_append, findAll_skip, ih fun b hb => hs b (by simp [hb])]
    rw [List.eq_nil_iff_forall_not_mem]
    intro x hx
    rw [selectRe, mem_seq] at hx
    obtain ⟨y, hy, _⟩ := hx
    obtain ⟨v, t, e, hv, hall, _⟩ := mem_groupPlus.1 hy
    cases v with
    | nil => exact absurd rfl hv
    | cons c v =>
      simp only [List.cons_append, List.cons.injEq] at e
      have h1 := hs b (by simp)
      rw [e.1, hall c (by simp)] at h1
      simp at h1

theorem selCls_sep {b : Byte} (h : Space b ∨ b = 0x2c) : selCls b = false := by
  unfold selCls
  rcases h with h | h
  · rw [(ws_iff b).2 h]; simp
  · rw [h]; decide

/-- the selections found in a list of selections -/
theorem findAll_sels (s : Sel) (hs : PlainName s.m ∧ PlainName s.f) (ss : List (Bytes × Sel))
    (hss : ∀ p ∈ ss, SelSep p.1 ∧ PlainName p.2.m ∧ PlainName p.2.f) (u : Bytes) (hu : ∀ b ∈ u, Space b) :
    findAll selectRe (s.text ++ ss.flatMap (fun p => p.1 ++ p.2.text) ++ u) = (s :: ss.map Prod.snd).map fun s => [s.m, s.f] := by
  induction ss generalizing s with
  | nil =>
    rw [List.flatMap_nil, List.append_nil]
    have hb : Blocked selCls u := by
      intro b t' e
      exact selCls_sep (.inl (hu b (by rw [e]; simp)))
    rw [Sel.text, findAll_hit (sel_hit hs.1 hs.2 hb) (lt_append (sel_text_ne s)), ← List.append_nil u, select_skip fun b hb => selCls_sep (.inl (hu b hb)),
      findAll_nil select_nil]
    rfl
  | cons p ss ih =>
    obtain ⟨hp1, hp2⟩ := hss p (by simp)
    have hb : Blocked selCls (p.1 ++ (p.2.text ++ ss.flatMap (fun p => p.1 ++ p.2.text) ++ u)) := by
      intro b t' e
      obtain ⟨hne, hall⟩ := hp1
      cases h1 : p.1 with
      | nil => exact absurd h1 hne
      | cons c r =>
        rw [h1] at e
        simp only [List.cons_append, List.cons.injEq] at e
        rw [← e.1]
        exact selCls_sep (hall c (by rw [h1]; simp)).1
    have e0 : s.text ++ (p :: ss).flatMap (fun p => p.1 ++ p.2.text) ++ u =
        s.text ++ (p.1 ++ (p.2.text ++ ss.flatMap (fun p => p.1 ++ p.2.text) ++ u)) := by simp
    rw [e0, Sel.text, findAll_hit (sel_hit hs.1 hs.2 hb) (lt_append (sel_text_ne s)), select_skip fun b hb => selCls_sep (hp1.2 b hb).1,
      ih p.2 hp2 fun p hp => hss p (by simp [hp])]
    rfl

/-! ### criteria -/

theorem nonWs_of {b : Byte} (h : ¬ Space b) : nonWs b = true := by
  unfold nonWs
  cases hw : ws b with
  | false => rfl
  | true => exact absurd ((ws_iff b).1 hw) h

theorem not_space {b : Byte} (h : nonWs b = true) : ¬ Space b := by
  intro hs
  unfold nonWs at h
  rw [(ws_iff b).2 hs] at h
  simp at h

/-- every quote comes after some white space -/
def QuoteLater (t : Bytes) : Prop := ∀ v t', t = v ++ 0x27 :: t' → ∃ b ∈ v, Space b

theorem crit_inner {v t : Bytes} (hne : v ≠ []) (hv : 0x27 ∉ v) :
    ((Re.seq (.group (plus notQuote)) (lit 0x27)).run (v ++ 0x27 :: t)).head? = some (t, [v]) := by
  have hp : ∀ b ∈ v, notQuote b = true := by
    intro b hb
    unfold notQuote
    simp only [bne_iff_ne, ne_eq]
    rintro rfl
    exact hv hb
  cases v with
  | nil => exact absurd rfl hne
  | cons b v =>
    rw [List.cons_append, run_seq_groupPlus _ _ _ _ (hp b (by simp))]
    refine firstStar_hit (fun c hc => hp c (by simp [hc])) ?_ ?_
    · rw [lit, Re.run, if_pos (by simp)]
      simp only [List.map_cons, List.map_nil, List.head?_cons]
      have := take_sub_length (b :: v) (0x27 :: t)
      rw [List.cons_append] at this
      rw [this]
    · intro w t' e hw hall
      cases w with
      | nil => exact absurd rfl hw
      | cons c w =>
        rw [List.cons_append] at e
        simp only [List.cons.injEq] at e
        have h1 := hall c (by simp)
        rw [← e.1] at h1
        exact absurd h1 (by decide)

/-- a criterion is found at its start, unless the text can also be read with a longer field name -/
theorem crit_hit' {f v t : Bytes} (fne : f ≠ []) (fp : ∀ b ∈ f, ¬ Space b) (vne : v ≠ []) (hvq : 0x27 ∉ v)
    (hno : ∀ w t2, v ++ 0x27 :: t = w ++ 0x3d :: (0x27 :: t2) → (∀ b ∈ w, ¬ Space b) →
      (Re.seq (.group (plus notQuote)) (lit 0x27)).run t2 = []) :
    (whereRe.run (critText ⟨f, v⟩ ++ t)).head? = some (t, [f, v]) := by
  have e0 : critText ⟨f, v⟩ ++ t = f ++ 0x3d :: (0x27 :: (v ++ 0x27 :: t)) := by
    unfold critText
    rw [show asc "='" = [0x3d, 0x27] by decide +kernel, show asc "'" = [0x27] by decide +kernel]
    simp
  rw [e0]
  cases f with
  | nil => exact absurd rfl fne
  | cons b f =>
    rw [List.cons_append, whereRe, run_seq_groupPlus _ _ _ _ (nonWs_of (fp b (by simp)))]
    refine firstStar_hit (fun c hc => nonWs_of (fp c (by simp [hc]))) ?_ ?_
    · rw [run_seq_lit, run_seq_lit, List.head?_map, crit_inner vne hvq]
      simp only [Option.map_some]
      have := take_sub_length (b :: f) (0x3d :: (0x27 :: (v ++ 0x27 :: t)))
      rw [List.cons_append] at this
      rw [this]
    · intro w t' e hw hall
      rw [List.map_eq_nil_iff, List.eq_nil_iff_forall_not_mem]
      intro x hx
      rw [mem_seq] at hx
      obtain ⟨y, hy, z, hz, _⟩ := hx
      obtain ⟨t1, rfl, rfl⟩ := mem_lit.1 hy
      rw [mem_seq] at hz
      obtain ⟨y, hy, z', hz', _⟩ := hz
      obtain ⟨t2, e1, rfl⟩ := mem_lit.1 hy
      simp only at e1
      subst e1
      cases w with
      | nil => exact absurd rfl hw
      | cons d w =>
        rw [List.cons_append] at e
        simp only [List.cons.injEq] at e
        obtain ⟨rfl, e⟩ := e
        cases w with
        | nil =>
          rw [List.nil_append] at e
          simp only [List.cons.injEq] at e
          exact absurd e.1 (by decide)
        | cons d w =>
          rw [List.cons_append] at e
          simp only [List.cons.injEq] at e
          obtain ⟨rfl, e⟩ := e
          simp only at hz'
          rw [hno w t2 e fun b hb => not_space (hall b (by simp [hb]))] at hz'
          simp at hz'

theorem crit_hit {c : FV} (hc : PlainCrit c) {t : Bytes} (ht : QuoteLater t) :
    (whereRe.run (critText c ++ t)).head? = some (t, [c.f, c.v]) := by
  obtain ⟨f, v⟩ := c
  obtain ⟨fne, fp, vne, vp, _, vend⟩ := hc
  simp only at fne fp vne vp vend
  have hvq : (0x27 : Byte) ∉ v := fun h => (vp _ h).1 rfl
  refine crit_hit' fne (fun b hb => (fp b hb).1) vne hvq ?_
  intro w t2 e hall
  exfalso
  have e2 : v ++ 0x27 :: t = (w ++ [0x3d]) ++ 0x27 :: t2 := by rw [e]; simp
  rw [List.append_eq_append_iff] at e2
  rcases e2 with ⟨a, e3, e4⟩ | ⟨a, e3, e4⟩
  · cases a with
    | nil =>
      rw [List.append_nil] at e3
      rw [← e3] at vend
      simp at vend
    | cons d a =>
      rw [List.cons_append] at e4
      simp only [List.cons.injEq] at e4
      obtain ⟨s, hs, hsp⟩ := ht a t2 e4.2
      have : s ∈ w ++ [0x3d] := by rw [e3]; simp [hs]
      rcases List.mem_append.1 this with h | h
      · exact hall s h hsp
      · rw [List.mem_singleton.1 h] at hsp
        revert hsp; decide
  · cases a with
    | nil =>
      rw [List.append_nil] at e3
      rw [e3] at vend
      simp at vend
    | cons d a =>
      rw [List.cons_append] at e4
      simp only [List.cons.injEq] at e4
      exact hvq (by rw [e3, ← e4.1]; simp)

/-- a criterion followed by the end of the text or by another quote is found, even if its value ends in `=` -/
theorem crit_hit_quoted {f v t : Bytes} (fne : f ≠ []) (fp : ∀ b ∈ f, ¬ Space b) (vne : v ≠ []) (hvq : 0x27 ∉ v)
    (ht : t = [] ∨ ∃ x r, t = 0x27 :: x :: r ∧ Space x) :
    (whereRe.run (critText ⟨f, v⟩ ++ t)).head? = some (t, [f, v]) := by
  refine crit_hit' fne fp vne hvq ?_
  intro w t2 e hall
  have noq : ∀ r, (Re.seq (.group (plus notQuote)) (lit 0x27)).run (0x27 :: r) = [] := by
    intro r
    rw [List.eq_nil_iff_forall_not_mem]
    intro y hy
    rw [mem_seq] at hy
    obtain ⟨z, hz, _⟩ := hy
    obtain ⟨v', t', e', hne, hall', _⟩ := mem_groupPlus.1 hz
    cases v' with
    | nil => exact hne rfl
    | cons c v' =>
      simp only [List.cons_append, List.cons.injEq] at e'
      have := hall' c (by simp)
      rw [← e'.1] at this
      revert this; decide
  have e2 : v ++ 0x27 :: t = (w ++ [0x3d]) ++ 0x27 :: t2 := by rw [e]; simp
  have tail : 0x27 :: t = 0x27 :: t2 → (Re.seq (.group (plus notQuote)) (lit 0x27)).run t2 = [] := by
    intro h
    simp only [List.cons.injEq, true_and] at h
    subst h
    rcases ht with rfl | ⟨x, r, rfl, _⟩
    · rfl
    · exact noq _
  rw [List.append_eq_append_iff] at e2
  rcases e2 with ⟨a, e3, e4⟩ | ⟨a, e3, e4⟩
  · cases a with
    | nil => exact tail e4
    | cons d a =>
      exfalso
      rw [List.cons_append] at e4
      simp only [List.cons.injEq] at e4
      rcases ht with rfl | ⟨x, r, rfl, hx⟩
      · have := e4.2; simp at this
      · -- the longer field name would have to contain the white space
        have hlast : (0x3d : Byte) ∈ w ++ [0x3d] := by simp
        have e5 := e4.2
        cases a with
        | nil =>
          rw [← e4.1] at e3
          have := congrArg List.getLast? e3
          simp at this
        | cons d' a =>
          rw [List.cons_append] at e5
          simp only [List.cons.injEq] at e5
          cases a with
          | nil =>
            rw [← e5.1] at e3
            have := congrArg List.getLast? e3
            simp at this
          | cons d'' a =>
            rw [List.cons_append] at e5
            simp only [List.cons.injEq] at e5
            have : x ∈ w ++ [0x3d] := by rw [e3, ← e5.2.1]; simp
            rcases List.mem_append.1 this with h | h
            · exact hall x h hx
            · rw [List.mem_singleton.1 h] at hx
              revert hx; decide
  · cases a with
    | nil => exact tail e4.symm
    | cons d a =>
      exfalso
      rw [List.cons_append] at e4
      simp only [List.cons.injEq] at e4
      exact hvq (by rw [e3, ← e4.1]; simp)

theorem where_nil : whereRe.run [] = [] := by rfl

/-- a text without quotes that ends in white space is skipped -/
theorem where_skip {s rest : Bytes} (hq : 0x27 ∉ s) (hs : s = [] ∨ ∃ a x, s = a ++ [x] ∧ Space x) :
    findAll whereRe (s ++ rest) = findAll whereRe rest := by
  induction s with
  | nil => rfl
  | cons b s ih =>
    obtain ⟨a, x, e, hx⟩ : ∃ a x, b :: s = a ++ [x] ∧ Space x := by
      rcases hs with h | h
      · simp at h
      · exact h
    rw [List.cons_append, findAll_skip, ih (fun h => hq (List.mem_cons_of_mem _ h))]
    · cases s with
      | nil => exact .inl rfl
      | cons c s =>
        right
        cases a with
        | nil => simp at e
        | cons d a =>
          simp only [List.cons_append, List.cons.injEq] at e
          exact ⟨a, x, by rw [← e.2], hx⟩
    · rw [List.eq_nil_iff_forall_not_mem]
      intro y hy
      rw [whereRe, mem_seq] at hy
      obtain ⟨y1, hy1, z, hz, _⟩ := hy
      obtain ⟨v, t, e1, hv, hall, rfl⟩ := mem_groupPlus.1 hy1
      rw [mem_seq] at hz
      obtain ⟨y2, hy2, z2, hz2, _⟩ := hz
      obtain ⟨t1, e2, rfl⟩ := mem_lit.1 hy2
      rw [mem_seq] at hz2
      obtain ⟨y3, hy3, _⟩ := hz2
      obtain ⟨t2, e3, _⟩ := mem_lit.1 hy3
      simp only at e2 e3
      subst e2 e3
      rw [← List.cons_append, e, List.append_assoc, List.singleton_append] at e1
      rw [List.append_eq_append_iff] at e1
      have hqa : (0x27 : Byte) ∉ a := fun h => hq (by rw [e]; exact List.mem_append_left _ h)
      rcases e1 with ⟨a', e4, e5⟩ | ⟨a', e4, e5⟩
      · cases a' with
        | nil =>
          rw [List.nil_append] at e5
          simp only [List.cons.injEq] at e5
          rw [e5.1] at hx
          revert hx; decide
        | cons d a' =>
          rw [List.cons_append] at e5
          simp only [List.cons.injEq] at e5
          exact not_space (hall d (by rw [e4]; simp)) (by rw [← e5.1]; exact hx)
      · cases a' with
        | nil =>
          rw [List.nil_append] at e5
          simp only [List.cons.injEq] at e5
          rw [← e5.1] at hx
          revert hx; decide
        | cons d a' =>
          rw [List.cons_append] at e5
          simp only [List.cons.injEq] at e5
          obtain ⟨rfl, e5⟩ := e5
          cases a' with
          | nil =>
            rw [List.nil_append] at e5
            simp only [List.cons.injEq] at e5
            rw [← e5.1] at hx
            revert hx; decide
          | cons d a' =>
            rw [List.cons_append] at e5
            simp only [List.cons.injEq] at e5
            exact hqa (by rw [e4, ← e5.1]; simp)

theorem spaces_end {u : Bytes} (hu : ∀ b ∈ u, Space b) : 0x27 ∉ u ∧ (u = [] ∨ ∃ a x, u = a ++ [x] ∧ Space x) := by
  refine ⟨fun h => absurd (hu _ h) (by decide), ?_⟩
  rcases List.eq_nil_or_concat u with h | ⟨a, x, h⟩
  · exact .inl h
  · exact .inr ⟨a, x, by simpa using h, hu x (by rw [h]; simp)⟩

/-- the criteria found in a list of criteria -/
theorem findAll_crits (c : FV) (hc : PlainCrit c) (cs : List (Bytes × FV)) (hcs : ∀ p ∈ cs, CritSep p.1 ∧ PlainCrit p.2)
    (u : Bytes) (hu : ∀ b ∈ u, Space b) :
    findAll whereRe (critText c ++ cs.flatMap (fun p => p.1 ++ critText p.2) ++ u) = (c :: cs.map Prod.snd).map fun c => [c.f, c.v] := by
  induction cs generalizing c with
  | nil =>
    rw [List.flatMap_nil, List.append_nil]
    have hb : QuoteLater u := by
      intro v t' e
      exact absurd (hu 0x27 (by rw [e]; simp)) (by decide)
    obtain ⟨h1, h2⟩ := spaces_end hu
    rw [findAll_hit (crit_hit hc hb) (lt_append (critText_ne c)), ← List.append_nil u, where_skip h1 h2, findAll_nil where_nil]
    rfl
  | cons p cs ih =>
    obtain ⟨hp1, hp2⟩ := hcs p (by simp)
    obtain ⟨hpl, ⟨a, x, hax, hx⟩, _⟩ := hp1
    have hq : (0x27 : Byte) ∉ p.1 := fun h => (hpl _ h).1 rfl
    have hb : QuoteLater (p.1 ++ (critText p.2 ++ cs.flatMap (fun p => p.1 ++ critText p.2) ++ u)) := by
      intro v t' e
      rw [List.append_eq_append_iff] at e
      rcases e with ⟨a', e1, e2⟩ | ⟨a', e1, e2⟩
      · exact ⟨x, by rw [e1, hax]; simp, hx⟩
      · cases a' with
        | nil => exact ⟨x, by rw [← (List.append_nil v), ← e1, hax]; simp, hx⟩
        | cons d a' =>
          rw [List.cons_append] at e2
          simp only [List.cons.injEq] at e2
          exact absurd (by rw [e1, ← e2.1]; simp) hq
    have e0 : critText c ++ (p :: cs).flatMap (fun p => p.1 ++ critText p.2) ++ u =
        critText c ++ (p.1 ++ (critText p.2 ++ cs.flatMap (fun p => p.1 ++ critText p.2) ++ u)) := by simp
    rw [e0, findAll_hit (crit_hit hc hb) (lt_append (critText_ne c)), where_skip hq (.inr ⟨a, x, hax, hx⟩),
      ih p.2 hp2 fun p hp => hcs p (by simp [hp])]
    rfl

/-- the criteria found in a list of criteria separated by a quote and a space -/
theorem findAll_quoted (c : FV) (cs : List FV)
    (hcs : ∀ c' ∈ c :: cs, c'.f ≠ [] ∧ (∀ b ∈ c'.f, ¬ Space b) ∧ c'.v ≠ [] ∧ 0x27 ∉ c'.v) :
    findAll whereRe (critText c ++ cs.flatMap fun c' => 0x27 :: 0x20 :: critText c') = (c :: cs).map fun c => [c.f, c.v] := by
  induction cs generalizing c with
  | nil =>
    obtain ⟨h1, h2, h3, h4⟩ := hcs c (by simp)
    rw [List.flatMap_nil, findAll_hit (crit_hit_quoted h1 h2 h3 h4 (.inl rfl)) (lt_append (critText_ne c)), findAll_nil where_nil]
    rfl
  | cons d cs ih =>
    obtain ⟨h1, h2, h3, h4⟩ := hcs c (by simp)
    have e0 : critText c ++ (d :: cs).flatMap (fun c' => 0x27 :: 0x20 :: critText c') =
        critText c ++ (0x27 :: 0x20 :: (critText d ++ cs.flatMap fun c' => 0x27 :: 0x20 :: critText c')) := by simp
    rw [e0, findAll_hit (crit_hit_quoted h1 h2 h3 h4 (.inr ⟨0x20, _, rfl, by decide⟩)) (lt_append (critText_ne c)), findAll_skip, findAll_skip,
      ih d fun c' hc' => hcs c' (by simp at hc' ⊢; exact .inr hc')]
    · rfl
    · exact no_match_at (v0 := []) (x := 0x20) (by simp) (by decide)
    · exact no_match_at (v0 := [0x27]) (x := 0x20) (by decide) (by decide)
where
  no_match_at {v0 : Bytes} {x : Byte} {rest : Bytes} (h0 : ∀ b ∈ v0, b ≠ 0x3d) (hx : Space x) : whereRe.run (v0 ++ x :: rest) = [] := by
    rw [List.eq_nil_iff_forall_not_mem]
    intro y hy
    rw [whereRe, mem_seq] at hy
    obtain ⟨y1, hy1, z, hz, _⟩ := hy
    obtain ⟨v, t, e1, hv, hall, rfl⟩ := mem_groupPlus.1 hy1
    rw [mem_seq] at hz
    obtain ⟨y2, hy2, _⟩ := hz
    obtain ⟨t1, e2, rfl⟩ := mem_lit.1 hy2
    simp only at e2
    subst e2
    rw [List.append_eq_append_iff] at e1
    rcases e1 with ⟨a, e3, e4⟩ | ⟨a, e3, e4⟩
    · cases a with
      | nil =>
        rw [List.nil_append] at e4
        simp only [List.cons.injEq] at e4
        rw [e4.1] at hx
        revert hx; decide
      | cons d a =>
        rw [List.cons_append] at e4
        simp only [List.cons.injEq] at e4
        exact not_space (hall d (by rw [e3]; simp)) (e4.1 ▸ hx)
    · cases a with
      | nil =>
        rw [List.nil_append] at e4
        simp only [List.cons.injEq] at e4
        rw [← e4.1] at hx
        revert hx; decide
      | cons d a =>
        rw [List.cons_append] at e4
        simp only [List.cons.injEq] at e4
        exact h0 d (by rw [e3]; simp) e4.1.symm

end Starbow.Query
