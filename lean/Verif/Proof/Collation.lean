import Verif.Spec.Collation
import Verif.Proof.Stat64
import Verif.Props.Hll
import Mathlib.Tactic.Convert
/-
Proofs about collation: the layout `compile` computes, and what rows do to the bytes of one writer.
-/
namespace Starbow.Collation
open Starbow Starbow.Spec

/-! ### layout -/

/-- who a writer writes for -/
inductive Owner where
  | row
  | cont (f : Bytes)
  | disc (f : Bytes)
  deriving DecidableEq

/-- which measures an owner has -/
def Owner.takes : Owner → Measure → Prop
  | .row, m => m = .count
  | .cont _, m => m.continuousInput = true
  | .disc _, m => ∃ p, m = .cardinality p ∧ 4 ≤ p ∧ p ≤ 18

/-- whose readers look at an owner's bytes -/
def Owner.serves : Owner → Bytes → Prop
  | .row, f => f = rowPseudoField
  | .cont g, f => f = g
  | .disc g, f => f = g

/-- a Go map entry: absent if nothing was appended -/
def toOpt {α : Type} (l : List α) : Option (List α) := if l = [] then none else some l

/-- the cells of an owner -/
def cells (L : List (Owner × Cell)) (o : Owner) : List Cell := (L.filter fun p => p.1 = o).map Prod.snd

theorem cells_append (L : List (Owner × Cell)) (o o' : Owner) (w : Cell) :
    cells (L ++ [(o', w)]) o = if o' = o then cells L o ++ [w] else cells L o := by
  unfold cells
  rw [List.filter_append]
  by_cases h : o' = o <;> simp [h]

theorem mem_cells {L : List (Owner × Cell)} {o : Owner} {w : Cell} : w ∈ cells L o ↔ (o, w) ∈ L := by
  unfold cells
  constructor
  · intro h
    obtain ⟨⟨o', w'⟩, h1, rfl⟩ := List.mem_map.1 h
    obtain ⟨h2, h3⟩ := List.mem_filter.1 h1
    simp only [decide_eq_true_eq] at h3
    subst h3; exact h2
  · intro h
    exact List.mem_map.2 ⟨_, List.mem_filter.2 ⟨h, by simp⟩, rfl⟩

/-- both belong to a stat64 summary, or they are the same -/
def Compat (w r : Measure) : Prop := w = r ∨ (w.stat = true ∧ w.continuousInput = true ∧ r.stat = true ∧ r.continuousInput = true)

/-- the collator built so far: `L` lists its writers in the order of their bytes, `D` the measures processed -/
structure Laid (b : Building) (L : List (Owner × Cell)) (D : List (Bytes × Measure)) : Prop where
  rows : b.coll.writers = cells L .row
  cont : ∀ f, b.coll.contWriters f = toOpt (cells L (.cont f))
  disc : ∀ f, b.coll.discWriters f = toOpt (cells L (.disc f))
  size : b.coll.size = b.pos
  pos : 0 ≤ b.pos
  cell : ∀ o w, (o, w) ∈ L → 0 ≤ w.low ∧ w.high = w.low + w.m.size ∧ 0 < w.m.size ∧ w.high ≤ b.pos ∧ o.takes w.m
  apart : L.Pairwise fun a b => a.2.high ≤ b.2.low
  reader : ∀ f n r, readerAt b.coll f n = some r → r.m.name = n ∧ (f, r.m) ∈ D ∧
    ∃ o w, (o, w) ∈ L ∧ w.low = r.low ∧ w.high = r.high ∧ o.serves f ∧ Compat w.m r.m
  served : ∀ f m, (f, m) ∈ D → ∃ r, readerAt b.coll f m.name = some r
  owned : ∀ o w, (o, w) ∈ L → ∃ f, o.serves f ∧ (f, w.m) ∈ D

theorem readerAt_add (c : Collator) (rs : GoMap (GoMap Cell)) (f : Bytes) (cell : Cell) (f' n : Bytes) :
    readerAt { c with contReaders := addReader rs f cell } f' n =
      if f' = f ∧ n = cell.m.name then some cell else readerAt { c with contReaders := rs } f' n := by
  unfold readerAt addReader GoMap.insert
  by_cases h : f' = f
  · subst h
    simp only [if_true, Option.bind_some, true_and]
    by_cases h2 : n = cell.m.name
    · simp [h2]
    · simp only [h2, if_false]
      cases rs f' <;> rfl
  · simp [h]

theorem toOpt_add {L : List Cell} (w : Cell) : ((toOpt L).getD [] ++ [w]) = L ++ [w] := by
  unfold toOpt; split
  · next h => simp [h]
  · rfl

theorem toOpt_snoc {L : List Cell} (w : Cell) : toOpt (L ++ [w]) = some (L ++ [w]) := by
  unfold toOpt; simp

/-- a new writer with its reader at the end -/
theorem laid_push {b : Building} {L : List (Owner × Cell)} {D : List (Bytes × Measure)} (h : Laid b L D) (o : Owner) (f : Bytes)
    (m : Measure) (hs : 0 < m.size) (ht : o.takes m) (hf : o.serves f) (b' : Building)
    (hrow : b'.coll.writers = if o = .row then b.coll.writers ++ [⟨b.pos, b.pos + m.size, m⟩] else b.coll.writers)
    (hcont : ∀ g, b'.coll.contWriters g = if o = .cont g then some ((b.coll.contWriters g).getD [] ++ [⟨b.pos, b.pos + m.size, m⟩])
      else b.coll.contWriters g)
    (hdisc : ∀ g, b'.coll.discWriters g = if o = .disc g then some ((b.coll.discWriters g).getD [] ++ [⟨b.pos, b.pos + m.size, m⟩])
      else b.coll.discWriters g)
    (hread : ∀ g n, readerAt b'.coll g n = if g = f ∧ n = m.name then some ⟨b.pos, b.pos + m.size, m⟩ else readerAt b.coll g n)
    (hsize : b'.coll.size = b.coll.size + m.size) (hpos : b'.pos = b.pos + m.size) :
    Laid b' (L ++ [(o, ⟨b.pos, b.pos + m.size, m⟩)]) (D ++ [(f, m)]) := by
  have h0 := h.pos
  refine ⟨?_, ?_, ?_, ?_, ?_, ?_, ?_, ?_, ?_, ?_⟩
  · rw [hrow, cells_append, h.rows]
  · intro g
    rw [hcont, cells_append, h.cont]
    split
    · rw [toOpt_add, toOpt_snoc]
    · rfl
  · intro g
    rw [hdisc, cells_append, h.disc]
    split
    · rw [toOpt_add, toOpt_snoc]
    · rfl
  · rw [hsize, hpos, h.size]
  · omega
  · intro o' w hw
    rw [hpos]
    rcases List.mem_append.1 hw with hw | hw
    · obtain ⟨a1, a2, a3, a4, a5⟩ := h.cell o' w hw
      exact ⟨a1, a2, a3, by omega, a5⟩
    · simp only [List.mem_singleton, Prod.mk.injEq] at hw
      obtain ⟨rfl, rfl⟩ := hw
      exact ⟨h0, rfl, hs, Int.le_refl _, ht⟩
  · rw [List.pairwise_append]
    refine ⟨h.apart, List.pairwise_singleton _ _, ?_⟩
    rintro ⟨o1, w1⟩ h1 ⟨o2, w2⟩ h2
    simp only [List.mem_singleton, Prod.mk.injEq] at h2
    obtain ⟨rfl, rfl⟩ := h2
    exact (h.cell o1 w1 h1).2.2.2.1
  · intro g n r hr
    rw [hread] at hr
    split at hr
    · next hg =>
      obtain ⟨rfl, rfl⟩ := hg
      have hr := Option.some.inj hr; subst hr
      exact ⟨rfl, by simp, o, _, by simp, rfl, rfl, hf, .inl rfl⟩
    · obtain ⟨a1, a2, o', w, a3, a4⟩ := h.reader g n r hr
      exact ⟨a1, by simp [a2], o', w, by simp [a3], a4⟩
  · intro g m' hm
    rw [hread]
    split
    · exact ⟨_, rfl⟩
    · next hne =>
      rcases List.mem_append.1 hm with hm | hm
      · exact h.served g m' hm
      · simp only [List.mem_singleton, Prod.mk.injEq] at hm
        obtain ⟨rfl, rfl⟩ := hm
        simp at hne
  · intro o' w hw
    rcases List.mem_append.1 hw with hw | hw
    · obtain ⟨g, a1, a2⟩ := h.owned o' w hw
      exact ⟨g, a1, by simp [a2]⟩
    · simp only [List.mem_singleton, Prod.mk.injEq] at hw
      obtain ⟨rfl, rfl⟩ := hw
      exact ⟨f, hf, by simp⟩

theorem laid_empty (s : Schema) : Laid ⟨emptyCollator s, 0⟩ [] [] := by
  refine ⟨rfl, fun _ => rfl, fun _ => rfl, rfl, Int.le_refl _, ?_, List.Pairwise.nil, ?_, ?_, ?_⟩
  · intro o w h; simp at h
  · intro f n r h; simp [readerAt, emptyCollator] at h
  · intro f m h; simp at h
  · intro o w h; simp at h

theorem laid_row {b : Building} {L : List (Owner × Cell)} {D : List (Bytes × Measure)} (h : Laid b L D) (rm : RowMeasure) :
    ∃ L', Laid (compileRow b rm) L' (D ++ [(rowPseudoField, rm.toMeasure)]) := by
  refine ⟨_, laid_push h .row rowPseudoField rm.toMeasure ?_ ?_ rfl _ ?_ ?_ ?_ ?_ ?_ ?_⟩
  · cases rm; decide
  · cases rm; rfl
  · rfl
  · intro g; rfl
  · intro g; rfl
  · intro g n
    unfold compileRow
    exact readerAt_add _ _ _ _ _ _
  · rfl
  · rfl

/-- the shared range is that of a stat64 writer of the field -/
def SharedOk (L : List (Owner × Cell)) (f : Bytes) (sh : Shared) : Prop :=
  ∀ r, sh = some r → ∃ w, (Owner.cont f, w) ∈ L ∧ w.low = r.1 ∧ w.high = r.2 ∧ w.m.stat = true ∧ w.m.continuousInput = true

theorem addWriter_apply (ws : GoMap (List Cell)) (f g : Bytes) (c : Cell) :
    addWriter ws f c g = if g = f then some ((ws f).getD [] ++ [c]) else ws g := rfl

theorem laid_cont {a : Building × Shared} {L : List (Owner × Cell)} {D : List (Bytes × Measure)} (f : Bytes) (h : Laid a.1 L D)
    (hsh : SharedOk L f a.2) (m : Measure) (hs : 0 < m.size) :
    ∃ L', Laid (compileCont f a m).1 L' (if m.continuousInput then D ++ [(f, m)] else D) ∧ SharedOk L' f (compileCont f a m).2 := by
  unfold compileCont
  by_cases hc : m.continuousInput = true
  · rw [if_pos hc, if_pos hc]
    have hpl : (∃ r, m.stat = true ∧ a.2 = some r ∧ place m a.1.pos a.2 = (r, true, a.2)) ∨
        (∃ sh, place m a.1.pos a.2 = ((a.1.pos, a.1.pos + m.size), false, sh) ∧
          (sh = a.2 ∨ (m.stat = true ∧ sh = some (a.1.pos, a.1.pos + m.size)))) := by
      unfold place
      by_cases hst : m.stat = true
      · rw [if_pos hst]
        cases e : a.2 with
        | none => exact .inr ⟨_, rfl, .inr ⟨hst, rfl⟩⟩
        | some r => exact .inl ⟨r, hst, rfl, rfl⟩
      · rw [if_neg hst]; exact .inr ⟨_, rfl, .inl rfl⟩
    rcases hpl with ⟨r, hst, hsome, hpl⟩ | ⟨sh, hpl, hsh'⟩
    · refine ⟨L, ?_, ?_⟩
      · obtain ⟨w, w1, w2, w3, w4, w5⟩ := hsh r hsome
        have hrd : ∀ g n, readerAt (addCont f a.1 m (r, true, a.2)).1.coll g n =
            if g = f ∧ n = m.name then some ⟨r.1, r.2, m⟩ else readerAt a.1.coll g n := fun g n => readerAt_add _ _ _ _ _ _
        have h0 := h.pos
        rw [hpl]
        refine ⟨h.rows, h.cont, h.disc, ?_, ?_, ?_, h.apart, ?_, ?_, ?_⟩
        · show a.1.coll.size + m.size = a.1.pos + m.size
          rw [h.size]
        · show 0 ≤ a.1.pos + m.size
          omega
        · intro o w hw
          obtain ⟨a1, a2, a3, a4, a5⟩ := h.cell o w hw
          refine ⟨a1, a2, a3, ?_, a5⟩
          show w.high ≤ a.1.pos + m.size
          omega
        · intro g n r' hr'
          rw [hrd] at hr'
          split at hr'
          · next hg =>
            obtain ⟨rfl, rfl⟩ := hg
            have hr' := Option.some.inj hr'; subst hr'
            exact ⟨rfl, by simp, _, w, w1, w2, w3, rfl, .inr ⟨w4, w5, hst, hc⟩⟩
          · obtain ⟨a1, a2, o', w, a3, a4⟩ := h.reader g n r' hr'
            exact ⟨a1, by simp [a2], o', w, a3, a4⟩
        · intro g m' hm
          rw [hrd]
          split
          · exact ⟨_, rfl⟩
          · next hne =>
            rcases List.mem_append.1 hm with hm | hm
            · exact h.served g m' hm
            · simp only [List.mem_singleton, Prod.mk.injEq] at hm
              obtain ⟨rfl, rfl⟩ := hm
              simp at hne
        · intro o w hw
          obtain ⟨g, a1, a2⟩ := h.owned o w hw
          exact ⟨g, a1, by simp [a2]⟩
      · rw [hpl]; exact hsh
    · refine ⟨_, laid_push h (.cont f) f m hs hc rfl _ ?_ ?_ ?_ ?_ ?_ ?_, ?_⟩
      · rfl
      · intro g
        rw [hpl]
        show addWriter _ _ _ g = _
        rw [addWriter_apply]
        by_cases hg : g = f
        · subst hg; simp
        · rw [if_neg hg, if_neg (by intro e; injection e with e; exact hg e.symm)]
      · intro g; rfl
      · intro g n
        rw [hpl]
        exact readerAt_add _ _ _ _ _ _
      · rfl
      · rfl
      · rw [hpl]
        intro r hr
        rcases hsh' with e | ⟨hst, e⟩
        · rw [show (addCont f a.1 m _).2 = sh from rfl, e] at hr
          obtain ⟨w, w1, w2⟩ := hsh r hr
          exact ⟨w, by simp [w1], w2⟩
        · rw [show (addCont f a.1 m _).2 = sh from rfl, e] at hr
          have hr := Option.some.inj hr; subst hr
          exact ⟨_, List.mem_append_right _ (List.mem_singleton.2 rfl), rfl, rfl, hst, hc⟩
  · rw [if_neg hc, if_neg hc]; exact ⟨L, h, hsh⟩

theorem card_precision {p : Int} (h4 : 4 ≤ p) (h18 : p ≤ 18) : ((precision p).toNat : Int) = p := by
  unfold precision
  rw [BitVec.toNat_ofInt]
  omega

/-- the bytes of a counter of a valid precision -/
theorem hll_len {p : Byte} (h4 : 4 ≤ p.toNat) (h18 : p.toNat ≤ 18) : 12 < Hll.len p := by
  obtain ⟨c, e, hp, hr⟩ := Hll.new_regs p h4 h18
  have h := (Props.C13_write c hr.wf).2.2
  rw [hp] at h
  rw [← h]
  unfold Hll.lenOf Hll.hdrLen Bitbucket.lenOf
  have := hr.wf.bits.len
  have e6 : c.bits.w.toNat = 6 := by rw [hr.wf.w]; rfl
  rw [e6, hr.wf.n, Int.toNat_natCast] at this
  have : 1 ≤ 2 ^ c.p.toNat := Nat.one_le_two_pow
  omega

theorem size_pos {m : Measure} (h : ∀ p, m = .cardinality p → 4 ≤ p ∧ p ≤ 18) : 0 < m.size := by
  cases m with
  | cardinality p =>
    obtain ⟨h4, h18⟩ := h p rfl
    have := card_precision h4 h18
    have := hll_len (p := precision p) (by omega) (by omega)
    rw [Measure.size]
    omega
  | _ => decide

/-- the parameters are valid -/
def MOk (m : Measure) : Prop := ∀ p, m = .cardinality p → 4 ≤ p ∧ p ≤ 18

theorem laid_disc {a : Building × Shared} {L : List (Owner × Cell)} {D : List (Bytes × Measure)} (f : Bytes) (h : Laid a.1 L D)
    (hsh : SharedOk L f a.2) (m : Measure) (hs : MOk m) :
    ∃ L', Laid (compileDisc f a m).1 L' (if m.discreteInput then D ++ [(f, m)] else D) ∧ SharedOk L' f (compileDisc f a m).2 := by
  unfold compileDisc
  by_cases hc : m.discreteInput = true
  · rw [if_pos hc, if_pos hc]
    refine ⟨_, laid_push h (.disc f) f m (size_pos hs) (by
      cases m with
      | cardinality p => exact ⟨p, rfl, hs p rfl⟩
      | _ => simp [Measure.discreteInput] at hc) rfl _ ?_ ?_ ?_ ?_ ?_ ?_, ?_⟩
    · rfl
    · intro g; rfl
    · intro g
      simp only
      rw [addWriter_apply]
      by_cases hg : g = f
      · subst hg; simp
      · rw [if_neg hg, if_neg (by intro e; injection e with e; exact hg e.symm)]
    · intro g n
      exact readerAt_add _ _ _ _ _ _
    · rfl
    · rfl
    · intro r hr
      obtain ⟨w, w1, w2⟩ := hsh r hr
      exact ⟨w, by simp [w1], w2⟩
  · rw [if_neg hc, if_neg hc]; exact ⟨L, h, hsh⟩

/-- what a measure adds to the readable ones -/
def adds (f : Bytes) (m : Measure) : List (Bytes × Measure) := if m = .count then [] else [(f, m)]

theorem laid_measure {a : Building × Shared} {L : List (Owner × Cell)} {D : List (Bytes × Measure)} (f : Bytes) (h : Laid a.1 L D)
    (hsh : SharedOk L f a.2) (m : Measure) (hs : MOk m) :
    ∃ L', Laid (compileMeasure f a m).1 L' (D ++ adds f m) ∧ SharedOk L' f (compileMeasure f a m).2 := by
  obtain ⟨L1, h1, s1⟩ := laid_cont f h hsh m (size_pos hs)
  obtain ⟨L2, h2, s2⟩ := laid_disc f h1 s1 m hs
  refine ⟨L2, ?_, s2⟩
  unfold compileMeasure
  cases m <;> simpa [adds, Measure.continuousInput, Measure.discreteInput] using h2

theorem laid_measures (f : Bytes) (ms : List Measure) : ∀ {a : Building × Shared} {L : List (Owner × Cell)}
    {D : List (Bytes × Measure)}, Laid a.1 L D → SharedOk L f a.2 → (∀ m ∈ ms, MOk m) →
    ∃ L', Laid (ms.foldl (compileMeasure f) a).1 L' (D ++ ms.flatMap (adds f)) := by
  induction ms with
  | nil => intro a L D h _ _; exact ⟨L, by simpa using h⟩
  | cons m ms ih =>
    intro a L D h hsh hs
    obtain ⟨L1, h1, s1⟩ := laid_measure f h hsh m (hs m (by simp))
    obtain ⟨L2, h2⟩ := ih h1 s1 fun m' hm => hs m' (by simp [hm])
    exact ⟨L2, by simpa using h2⟩

theorem laid_specs (specs : List (Bytes × List Measure)) : ∀ {b : Building} {L : List (Owner × Cell)} {D : List (Bytes × Measure)},
    Laid b L D → (∀ f ms m, (f, ms) ∈ specs → m ∈ ms → MOk m) →
    ∃ L', Laid (specs.foldl compileSpec b) L' (D ++ specs.flatMap fun p => p.2.flatMap (adds p.1)) := by
  induction specs with
  | nil => intro b L D h _; exact ⟨L, by simpa using h⟩
  | cons p specs ih =>
    intro b L D h hs
    obtain ⟨L1, h1⟩ := laid_measures p.1 p.2 (a := (b, none)) h (by intro r hr; simp at hr)
      fun m hm => hs p.1 p.2 m (by simp) hm
    obtain ⟨L2, h2⟩ := ih (b := compileSpec b p) h1 fun f ms m hf hm => hs f ms m (by simp [hf]) hm
    exact ⟨L2, by simpa using h2⟩

theorem laid_rows (rms : List RowMeasure) : ∀ {b : Building} {L : List (Owner × Cell)} {D : List (Bytes × Measure)}, Laid b L D →
    ∃ L', Laid (rms.foldl compileRow b) L' (D ++ rms.map fun rm => (rowPseudoField, rm.toMeasure)) := by
  induction rms with
  | nil => intro b L D h; exact ⟨L, by simpa using h⟩
  | cons rm rms ih =>
    intro b L D h
    obtain ⟨L1, h1⟩ := laid_row h rm
    obtain ⟨L2, h2⟩ := ih h1
    exact ⟨L2, by simpa using h2⟩

/-- the compiled collator -/
theorem laid_compile (s : Schema) (hv : ValidSchema s) :
    ∃ L D pos, Laid ⟨compile s, pos⟩ L D ∧ ∀ f m, (f, m) ∈ D ↔ Declares s f m := by
  obtain ⟨L1, h1⟩ := laid_rows s.recordMeasures (laid_empty s)
  obtain ⟨L2, h2⟩ := laid_specs s.measures h1 (by
    intro f ms m hf hm
    rintro p rfl
    exact hv f ms p hf hm)
  refine ⟨L2, _, _, h2, ?_⟩
  intro f m
  unfold Declares
  simp only [List.nil_append, List.mem_append, List.mem_map, List.mem_flatMap, Prod.mk.injEq, adds]
  constructor
  · rintro (⟨rm, h, rfl, rfl⟩ | ⟨p, hp, m', hm', h⟩)
    · left; cases rm; exact ⟨rfl, rfl, h⟩
    · split at h
      · simp at h
      · next hne =>
        simp only [List.mem_singleton, Prod.mk.injEq] at h
        obtain ⟨rfl, rfl⟩ := h
        exact .inr ⟨hne, p.2, hp, hm'⟩
  · rintro (⟨rfl, rfl, h⟩ | ⟨hne, ms, h, hm⟩)
    · left; exact ⟨_, h, rfl, rfl⟩
    · right; exact ⟨_, h, m, hm, by simp [hne]⟩

/-! ### writers keep the length -/

theorem statWriter_length (d : Bytes) (x : F64) : (statWriter d x).1.length = d.length := by
  unfold statWriter Stat64.update
  by_cases h : d.length < Stat64.size
  · rw [if_pos h]
  · rw [if_neg h]
    exact Stat64.store_length _ _ (by unfold Stat64.size at h; omega)

theorem putFloat_length (d : Bytes) (x : F64) : (putFloat d x).1.length = d.length := by
  unfold putFloat
  by_cases h : d.length < 8
  · rw [if_pos h]
  · rw [if_neg h]
    exact splice_length _ _ _ (by simp; omega)

theorem contWriterFn_length (m : Measure) (d : Bytes) (i : Bool) (x : F64) : (contWriterFn m d i x).1.length = d.length := by
  unfold contWriterFn maxWriter minWriter
  have h1 := statWriter_length d x
  have h2 := putFloat_length d x
  split
  · split
    · exact h2
    · split
      · rfl
      · split
        · rfl
        · exact h2
  · split
    · exact h2
    · split
      · rfl
      · split
        · rfl
        · exact h2
  · exact h1

theorem countWriter_length (d : Bytes) : (countWriter d).1.length = d.length := by
  unfold countWriter
  by_cases h : d.length < 8
  · rw [if_pos h]
  · rw [if_neg h]
    exact splice_length _ _ _ (by simp; omega)

theorem copyTo_length (d v : Bytes) : (copyTo d v).length = d.length := by
  unfold copyTo; simp; omega

theorem hll_set_length {b b' : Bitbucket.BB} {i : Int} {v : Byte} (h : Bitbucket.set b i v = .val b') :
    b'.data.length = b.data.length := by
  unfold Bitbucket.set Bitbucket.set0 at h
  cases e : Bitbucket.extract b (wrap64 (i * (b.w.toNat : Int))) b.w with
  | panic => rw [e] at h; simp at h
  | val t =>
    obtain ⟨a1, a2, a3, a4⟩ := t
    rw [e] at h
    simp only [Out.bind_val, Out.pure_eq] at h
    have h := Out.val.inj h
    rw [← h, Bitbucket.putWindow_eq]
    exact Bitbucket.putData_length _ _ _

theorem hll_add_length {c c' : Hll.Counter} {v : Bytes} (h : Hll.add c v = .val c') :
    c'.bits.data.length = c.bits.data.length := by
  unfold Hll.add at h
  dsimp only at h
  generalize (Hll.idx c.p (Fnv.sum64 v)).toInt = i at h
  generalize Hll.rho c.p (Fnv.sum64 v) = r at h
  cases e : Bitbucket.get c.bits i with
  | panic => rw [e] at h; simp at h
  | val g =>
    rw [e] at h
    simp only [Out.bind_val] at h
    by_cases hg : r > g
    · rw [if_pos hg] at h
      cases e2 : Bitbucket.set c.bits i r with
      | panic => rw [e2] at h; simp at h
      | val b =>
        rw [e2] at h
        simp only [Out.bind_val, Out.pure_eq] at h
        have h := Out.val.inj h
        rw [← h]
        exact hll_set_length e2
    · rw [if_neg hg] at h
      simp only [Out.pure_eq] at h
      have h := Out.val.inj h
      rw [h]

theorem bb_withBytes_length {d : Bytes} {b : Bitbucket.BB} (h : Bitbucket.withBytes d = .val (.ok b)) :
    10 + b.data.length ≤ d.length := by
  unfold Bitbucket.withBytes at h
  by_cases h1 : d.length < Bitbucket.hdrLen
  · rw [if_pos h1] at h; simp at h
  · rw [if_neg h1] at h
    by_cases h2 : d.getD 0 0 ≠ Bitbucket.version
    · rw [if_pos h2] at h; simp at h
    · rw [if_neg h2] at h
      dsimp only at h
      split at h
      · simp at h
      · split at h
        · simp at h
        · split at h
          · simp at h
          · have h := Except.ok.inj (Out.val.inj h)
            rw [← h]
            unfold slice
            unfold Bitbucket.hdrLen at h1 ⊢
            simp only [List.length_take, List.length_drop]
            omega

theorem hll_withBytes_length {d : Bytes} {c : Hll.Counter} (h : Hll.withBytes d = .val (.ok c)) :
    12 + c.bits.data.length ≤ d.length := by
  unfold Hll.withBytes at h
  split at h
  · simp at h
  · split at h
    · simp at h
    · split at h
      · simp at h
      · cases e : Bitbucket.withBytes (d.drop 2) with
        | panic => rw [e] at h; simp at h
        | val r =>
          rw [e] at h
          cases r with
          | error e' => simp at h
          | ok b =>
            simp only [Out.bind_val, Out.pure_eq] at h
            have h := Except.ok.inj (Out.val.inj h)
            have := bb_withBytes_length e
            rw [List.length_drop] at this
            rw [← h]
            show 12 + b.data.length ≤ _
            omega

theorem cardWriter_length (p : Int) (d : Bytes) (i : Bool) (v : Bytes) : (cardWriter p d i v).1.length = d.length := by
  unfold cardWriter
  split
  · split
    · rfl
    · exact copyTo_length _ _
  · split
    · rfl
    · rfl
    · next s hs =>
      split
      · rfl
      · next s' hs' =>
        have h1 := hll_withBytes_length hs
        have h2 := hll_add_length hs'
        unfold cardStoreBack Bitbucket.storeBack
        rw [List.length_append, splice_length]
        · simp; omega
        · unfold Bitbucket.hdrLen; simp; omega

theorem discWriterFn_length (m : Measure) (d : Bytes) (i : Bool) (v : Bytes) : (discWriterFn m d i v).1.length = d.length := by
  unfold discWriterFn
  split
  · exact cardWriter_length _ _ _ _
  · rfl

/-! ### what writers do to the bytes of one of them -/

/-- whenever it succeeds, running `ws` on buffers of `n` bytes acts on the bytes `lo..hi` as `φ` -/
def Eff (n lo hi : Nat) (ws : List (Bytes → Wrote)) (φ : Bytes → Bytes) : Prop :=
  ∀ buf b, buf.length = n → runWriters buf ws = (b, .val none) → b.length = n ∧ slice b lo hi = φ (slice buf lo hi)

theorem runWriters_append (ws ws' : List (Bytes → Wrote)) : ∀ buf, runWriters buf (ws ++ ws') =
    match runWriters buf ws with
    | (b, .val none) => runWriters b ws'
    | r => r := by
  induction ws with
  | nil => intro buf; rfl
  | cons w ws ih =>
    intro buf
    rw [List.cons_append, runWriters, runWriters]
    rcases w buf with ⟨b, e⟩
    rcases e with (e | e) | _
    · exact ih b
    · rfl
    · rfl

theorem Eff.nil (n lo hi : Nat) : Eff n lo hi [] id := by
  intro buf b hl h
  simp only [runWriters, Prod.mk.injEq] at h
  rw [← h.1]; exact ⟨hl, rfl⟩

theorem Eff.append {n lo hi : Nat} {ws ws' : List (Bytes → Wrote)} {φ ψ : Bytes → Bytes} (h : Eff n lo hi ws φ)
    (h' : Eff n lo hi ws' ψ) : Eff n lo hi (ws ++ ws') fun d => ψ (φ d) := by
  intro buf b hl e
  rw [runWriters_append] at e
  rcases e1 : runWriters buf ws with ⟨b1, r⟩
  rw [e1] at e
  rcases r with (r | r) | _
  · obtain ⟨a1, a2⟩ := h buf b1 hl e1
    obtain ⟨c1, c2⟩ := h' b1 b a1 e
    exact ⟨c1, by rw [c2, a2]⟩
  · simp at e
  · simp at e

theorem Eff.one {n lo hi : Nat} {w : Bytes → Wrote} {φ : Bytes → Bytes} (h : ∀ buf b, buf.length = n → w buf = (b, .val none) →
    b.length = n ∧ slice b lo hi = φ (slice buf lo hi)) : Eff n lo hi [w] φ := by
  intro buf b hl e
  rw [runWriters] at e
  rcases e1 : w buf with ⟨b1, r⟩
  rw [e1] at e
  rcases r with (r | r) | _
  · simp only [runWriters, Prod.mk.injEq, and_true] at e
    subst e
    exact h buf b1 hl e1
  · simp at e
  · simp at e

/-- a range inside a record -/
structure InRec (n : Nat) (w : Cell) : Prop where
  low : 0 ≤ w.low
  le : w.low ≤ w.high
  high : w.high ≤ n

theorem slice_len {n : Nat} {w : Cell} (hw : InRec n w) {buf : Bytes} (hl : buf.length = n) :
    (slice buf w.low.toNat w.high.toNat).length = w.high.toNat - w.low.toNat := by
  have := hw.low; have := hw.le; have := hw.high
  rw [slice_length _ _ _ (by omega)]

theorem write_eq {n : Nat} {w : Cell} (hw : InRec n w) {buf : Bytes} (hl : buf.length = n) (fn : Bytes → Wrote) :
    w.write buf fn = (splice buf w.low.toNat (fn (slice buf w.low.toNat w.high.toNat)).1,
      (fn (slice buf w.low.toNat w.high.toNat)).2) := by
  have := hw.low; have := hw.le; have := hw.high
  unfold Cell.write
  rw [if_neg (by omega)]

/-- what a writer that keeps the length does to its own bytes and to others -/
theorem write_slices {n : Nat} {w : Cell} (hw : InRec n w) {buf : Bytes} (hl : buf.length = n) (fn : Bytes → Wrote)
    (hfn : ∀ d, (fn d).1.length = d.length) :
    (w.write buf fn).1.length = n ∧
    slice (w.write buf fn).1 w.low.toNat w.high.toNat = (fn (slice buf w.low.toNat w.high.toNat)).1 ∧
    ∀ v, InRec n v → (v.high ≤ w.low ∨ w.high ≤ v.low) →
      slice (w.write buf fn).1 v.low.toNat v.high.toNat = slice buf v.low.toNat v.high.toNat := by
  have h1 := hw.low; have h2 := hw.le; have h3 := hw.high
  rw [write_eq hw hl]
  have hlen : (fn (slice buf w.low.toNat w.high.toNat)).1.length = w.high.toNat - w.low.toNat := by
    rw [hfn, slice_len hw hl]
  have hfit : w.low.toNat + (fn (slice buf w.low.toNat w.high.toNat)).1.length ≤ buf.length := by omega
  refine ⟨by rw [splice_length _ _ _ hfit, hl], ?_, ?_⟩
  · have := slice_splice_same buf w.low.toNat _ hfit
    rw [hlen, show w.low.toNat + (w.high.toNat - w.low.toNat) = w.high.toNat by omega] at this
    exact this
  · intro v hv hd
    have := hv.low; have := hv.le; have := hv.high
    apply slice_splice_disjoint _ _ _ _ _ hfit
    omega

theorem eff_same {n : Nat} {w : Cell} (hw : InRec n w) (fn : Bytes → Wrote) (hfn : ∀ d, (fn d).1.length = d.length) :
    Eff n w.low.toNat w.high.toNat [fun buf => w.write buf fn] fun d => (fn d).1 := by
  apply Eff.one
  intro buf b hl e
  obtain ⟨h1, h2, _⟩ := write_slices hw hl fn hfn
  rw [e] at h1 h2
  exact ⟨h1, h2⟩

theorem eff_other {n : Nat} {w v : Cell} (hw : InRec n w) (hv : InRec n v) (hd : v.high ≤ w.low ∨ w.high ≤ v.low)
    (fn : Bytes → Wrote) (hfn : ∀ d, (fn d).1.length = d.length) :
    Eff n v.low.toNat v.high.toNat [fun buf => w.write buf fn] id := by
  apply Eff.one
  intro buf b hl e
  obtain ⟨h1, _, h2⟩ := write_slices hw hl fn hfn
  have h2 := h2 v hv hd
  rw [e] at h1 h2
  exact ⟨h1, h2⟩

theorem eff_others {n : Nat} {v : Cell} (hv : InRec n v) (g : Cell → Bytes → Wrote) (hg : ∀ w d, (g w d).1.length = d.length) :
    ∀ ws : List Cell, (∀ w ∈ ws, InRec n w ∧ (v.high ≤ w.low ∨ w.high ≤ v.low)) →
    Eff n v.low.toNat v.high.toNat (ws.map fun w buf => w.write buf (g w)) id := by
  intro ws
  induction ws with
  | nil => intro _; exact Eff.nil _ _ _
  | cons w ws ih =>
    intro h
    obtain ⟨h1, h2⟩ := h w (by simp)
    have e1 := eff_other h1 hv h2 (g w) (hg w)
    have e2 := ih fun w' hw' => h w' (by simp [hw'])
    exact e1.append e2

section
variable {b : Building} {L : List (Owner × Cell)} {D : List (Bytes × Measure)}

theorem inRec (h : Laid b L D) {o : Owner} {w : Cell} (hw : (o, w) ∈ L) : InRec b.coll.size.toNat w := by
  obtain ⟨h1, h2, h3, h4, _⟩ := h.cell o w hw
  have := h.size
  exact ⟨h1, by omega, by omega⟩

/-- the writers of one owner act on the bytes of one writer -/
theorem eff_owner (h : Laid b L D) {o : Owner} {v : Cell} (hv : (o, v) ∈ L) (o' : Owner) (g : Cell → Bytes → Wrote)
    (hg : ∀ w d, (g w d).1.length = d.length) :
    Eff b.coll.size.toNat v.low.toNat v.high.toNat ((cells L o').map fun w buf => w.write buf (g w))
      (if o' = o then fun d => (g v d).1 else id) := by
  obtain ⟨L1, L2, rfl⟩ := List.append_of_mem hv
  have hp := h.apart
  rw [List.pairwise_append] at hp
  obtain ⟨_, hp2, hp1⟩ := hp
  have h1 : ∀ o'', ∀ w ∈ cells L1 o'', InRec b.coll.size.toNat w ∧ (v.high ≤ w.low ∨ w.high ≤ v.low) := by
    intro o'' w hw
    have hm := mem_cells.1 hw
    exact ⟨inRec h (o := o'') (by simp [hm]), .inr (hp1 _ hm (o, v) (by simp))⟩
  have h2 : ∀ o'', ∀ w ∈ cells L2 o'', InRec b.coll.size.toNat w ∧ (v.high ≤ w.low ∨ w.high ≤ v.low) := by
    intro o'' w hw
    have hm := mem_cells.1 hw
    exact ⟨inRec h (o := o'') (by simp [hm]), .inl ((List.pairwise_cons.1 hp2).1 _ hm)⟩
  have e1 := eff_others (inRec h hv) g hg _ (h1 o')
  have e2 := eff_others (inRec h hv) g hg _ (h2 o')
  by_cases ho : o' = o
  · rw [if_pos ho]
    subst ho
    have hc : cells (L1 ++ (o', v) :: L2) o' = cells L1 o' ++ ([v] ++ cells L2 o') := by
      unfold cells; rw [List.filter_append, List.filter_cons]; simp
    rw [hc, List.map_append, List.map_append]
    exact e1.append ((eff_same (inRec h hv) (g v) (hg v)).append e2)
  · rw [if_neg ho]
    have hc : cells (L1 ++ (o, v) :: L2) o' = cells L1 o' ++ cells L2 o' := by
      unfold cells; rw [List.filter_append, List.filter_cons]; simp [Ne.symm ho]
    rw [hc, List.map_append]
    exact e1.append e2

/-- effect of one field on the bytes of a writer -/
def fvEff (lib : Lib) (o : Owner) (m : Measure) (init : Bool) (d : Bytes) (fv : FV) : Bytes :=
  match o with
  | .row => d
  | .cont f => if fv.f = f then (match lib.parseFloat fv.v with | some x => (contWriterFn m d init x).1 | none => d) else d
  | .disc f => if fv.f = f then (discWriterFn m d init fv.v).1 else d

/-- effect of a row as such -/
def rowEff (o : Owner) (d : Bytes) : Bytes := match o with | .row => (countWriter d).1 | _ => d

theorem eff_cont (lib : Lib) (h : Laid b L D) {o : Owner} {v : Cell} (hv : (o, v) ∈ L) (init : Bool) (f x : Bytes) :
    Eff b.coll.size.toNat v.low.toNat v.high.toNat (contWriters lib init x (toOpt (cells L (.cont f))))
      (fun d => if Owner.cont f = o then (match lib.parseFloat x with | some y => (contWriterFn v.m d init y).1 | none => d) else d) := by
  by_cases hl : cells L (.cont f) = []
  · have hne : Owner.cont f ≠ o := by
      rintro rfl
      have := mem_cells.2 hv
      rw [hl] at this; simp at this
    rw [toOpt, if_pos hl]
    simp only [if_neg hne]
    exact Eff.nil _ _ _
  · rw [toOpt, if_neg hl, contWriters]
    cases hp : lib.parseFloat x with
    | none =>
      intro buf b' _ e
      simp [runWriters] at e
    | some y =>
      have := eff_owner h hv (.cont f) (fun w d => contWriterFn w.m d init y) (fun w d => contWriterFn_length _ _ _ _)
      simp only
      convert this using 1
      by_cases ho : Owner.cont f = o <;> simp [ho] <;> rfl

theorem eff_disc (h : Laid b L D) {o : Owner} {v : Cell} (hv : (o, v) ∈ L) (init : Bool) (f x : Bytes) :
    Eff b.coll.size.toNat v.low.toNat v.high.toNat (discWriters init x (toOpt (cells L (.disc f))))
      (fun d => if Owner.disc f = o then (discWriterFn v.m d init x).1 else d) := by
  have := eff_owner h hv (.disc f) (fun w d => discWriterFn w.m d init x) (fun w d => discWriterFn_length _ _ _ _)
  have e : discWriters init x (toOpt (cells L (.disc f))) =
      (cells L (.disc f)).map fun w buf => w.write buf fun b => discWriterFn w.m b init x := by
    unfold toOpt
    by_cases hl : cells L (.disc f) = []
    · rw [if_pos hl, hl]; rfl
    · rw [if_neg hl]; rfl
  rw [e]
  convert this using 1
  by_cases ho : Owner.disc f = o <;> simp [ho] <;> rfl

theorem eff_field (lib : Lib) (h : Laid b L D) {o : Owner} {v : Cell} (hv : (o, v) ∈ L) (init : Bool) (fv : FV) :
    Eff b.coll.size.toNat v.low.toNat v.high.toNat (fieldWriters lib b.coll init fv)
      (fun d => fvEff lib o v.m init d fv) := by
  unfold fieldWriters
  rw [h.cont, h.disc]
  have := (eff_cont lib h hv init fv.f fv.v).append (eff_disc h hv init fv.f fv.v)
  intro buf b' hl hr
  obtain ⟨a1, a2⟩ := this buf b' hl hr
  refine ⟨a1, ?_⟩
  rw [a2]
  unfold fvEff
  cases o with
  | row => simp
  | cont f => simp
  | disc f => simp

/-- one accepted row -/
theorem row_effect (lib : Lib) (h : Laid b L D) {o : Owner} {v : Cell} (hv : (o, v) ∈ L) (init : Bool) (r : Row) (buf buf' : Bytes)
    (hl : buf.length = b.coll.size.toNat) (hu : update lib b.coll r buf init = (buf', .val none)) :
    buf'.length = b.coll.size.toNat ∧ slice buf' v.low.toNat v.high.toNat =
      r.data.foldl (fvEff lib o v.m init) (rowEff o (slice buf v.low.toNat v.high.toNat)) := by
  unfold update at hu
  have e1 := eff_owner h hv .row (fun _ => countWriter) (fun _ d => countWriter_length d)
  rw [← h.rows] at e1
  have e2 : ∀ data : List FV, Eff b.coll.size.toNat v.low.toNat v.high.toNat (data.flatMap (fieldWriters lib b.coll init))
      (fun d => data.foldl (fvEff lib o v.m init) d) := by
    intro data
    induction data with
    | nil => exact Eff.nil _ _ _
    | cons fv data ih => rw [List.flatMap_cons]; exact (eff_field lib h hv init fv).append ih
  obtain ⟨a1, a2⟩ := (e1.append (e2 r.data)) buf buf' hl hu
  refine ⟨a1, ?_⟩
  rw [a2]
  unfold rowEff
  cases o <;> simp

/-- accepted rows -/
theorem rows_effect (lib : Lib) (h : Laid b L D) {o : Owner} {v : Cell} (hv : (o, v) ∈ L) : ∀ (rows : List Row) (buf buf' : Bytes),
    buf.length = b.coll.size.toNat → applyRows lib b.coll buf false rows = (buf', .val none) →
    buf'.length = b.coll.size.toNat ∧ slice buf' v.low.toNat v.high.toNat =
      rows.foldl (fun d r => r.data.foldl (fvEff lib o v.m false) (rowEff o d)) (slice buf v.low.toNat v.high.toNat) := by
  intro rows
  induction rows with
  | nil =>
    intro buf buf' hl e
    simp only [applyRows, Prod.mk.injEq] at e
    rw [← e.1]; exact ⟨hl, rfl⟩
  | cons r rows ih =>
    intro buf buf' hl e
    rw [applyRows] at e
    rcases e1 : update lib b.coll r buf false with ⟨b1, x⟩
    rw [e1] at e
    rcases x with (x | x) | _
    · obtain ⟨a1, a2⟩ := row_effect lib h hv false r buf b1 hl e1
      obtain ⟨c1, c2⟩ := ih b1 buf' a1 e
      exact ⟨c1, by rw [c2, a2]; rfl⟩
    · simp at e
    · simp at e

/-- the bytes of a writer after accepted rows on a zeroed record -/
theorem record_effect (lib : Lib) (h : Laid b L D) {o : Owner} {v : Cell} (hv : (o, v) ∈ L) (r : Row) (rows : List Row) (buf : Bytes)
    (hr : RecordOf lib b.coll (r :: rows) buf) :
    buf.length = b.coll.size.toNat ∧ slice buf v.low.toNat v.high.toNat =
      rows.foldl (fun d r => r.data.foldl (fvEff lib o v.m false) (rowEff o d))
        (r.data.foldl (fvEff lib o v.m true) (rowEff o (List.replicate v.m.size.toNat 0#8))) := by
  unfold RecordOf at hr
  rw [applyRows] at hr
  rcases e1 : update lib b.coll r (blank b.coll) true with ⟨b1, x⟩
  rw [e1] at hr
  have hlen : (blank b.coll).length = b.coll.size.toNat := by unfold blank; simp
  have hs : slice (blank b.coll) v.low.toNat v.high.toNat = List.replicate v.m.size.toNat 0#8 := by
    obtain ⟨h1, h2, h3, h4, _⟩ := h.cell o v hv
    have := h.size
    unfold blank slice
    rw [List.drop_replicate, List.take_replicate]
    congr 1
    omega
  rcases x with (x | x) | _
  · obtain ⟨a1, a2⟩ := row_effect lib h hv true r _ b1 hlen e1
    obtain ⟨c1, c2⟩ := rows_effect lib h hv rows b1 buf a1 hr
    exact ⟨c1, by rw [c2, a2, hs]⟩
  · simp at hr
  · simp at hr

end

end Starbow.Collation
