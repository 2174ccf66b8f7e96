import Verif.Proof.Record
import Mathlib.Data.List.Pairwise
/-
Updating a record never panics, and when it succeeds.
-/
namespace Starbow.Collation
open Starbow Starbow.Spec

/-- what a uniquecount writer finds: zeros if its field (not in `F`) has not been seen, else a serialised counter -/
def CardOk (F : List Bytes) (o : Owner) (w : Cell) (d : Bytes) : Prop :=
  ∀ f p, o = .disc f → w.m = .cardinality p →
    (f ∉ F ∧ d = List.replicate w.m.size.toNat 0#8) ∨ ∃ c, Hll.WF c ∧ c.p = precision p ∧ d = enc c

section
variable {b : Building} {L : List (Owner × Cell)} {D : List (Bytes × Measure)}

/-- every writer finds its bytes in order -/
structure Hold (b : Building) (L : List (Owner × Cell)) (F : List Bytes) (buf : Bytes) : Prop where
  len : buf.length = b.coll.size.toNat
  ok : ∀ o w, (o, w) ∈ L → CardOk F o w (slice buf w.low.toNat w.high.toNat)

theorem apart (h : Laid b L D) {o o' : Owner} {w w' : Cell} (hw : (o, w) ∈ L) (hw' : (o', w') ∈ L) (hne : (o, w) ≠ (o', w')) :
    w.high ≤ w'.low ∨ w'.high ≤ w.low := by
  have h1 : L.Pairwise fun a b => a.2.high ≤ b.2.low ∨ b.2.high ≤ a.2.low := h.apart.imp .inl
  have : Std.Symm fun a b : Owner × Cell => a.2.high ≤ b.2.low ∨ b.2.high ≤ a.2.low := ⟨fun _ _ h => h.symm⟩
  exact h1.forall hw hw' hne

theorem blank_slice (h : Laid b L D) {o : Owner} {w : Cell} (hw : (o, w) ∈ L) :
    slice (blank b.coll) w.low.toNat w.high.toNat = List.replicate w.m.size.toNat 0#8 := by
  obtain ⟨h1, h2, h3, h4, _⟩ := h.cell o w hw
  have := h.size
  unfold blank slice
  rw [List.drop_replicate, List.take_replicate]
  congr 1
  omega

theorem hold_blank (h : Laid b L D) : Hold b L [] (blank b.coll) := by
  refine ⟨by unfold blank; simp, ?_⟩
  intro o w hw f p _ _
  exact .inl ⟨by simp, blank_slice h hw⟩

theorem Hold.mono {F : List Bytes} {buf : Bytes} (h : Hold b L F buf) : Hold b L [] buf := by
  refine ⟨h.len, ?_⟩
  intro o w hw f p ho hp
  rcases h.ok o w hw f p ho hp with ⟨_, hz⟩ | hc
  · exact .inl ⟨by simp, hz⟩
  · exact .inr hc

/-- one writer -/
theorem hold_write (h : Laid b L D) {F : List Bytes} {buf : Bytes} (hb : Hold b L F buf) {o : Owner} {w : Cell} (hw : (o, w) ∈ L)
    (fn : Bytes → Wrote) (hfn : ∀ d, (fn d).1.length = d.length) (E : Option Err → Prop)
    (hok : ∀ d, (d.length : Int) = w.m.size → CardOk F o w d → ∃ e, (fn d).2 = .val e ∧ E e ∧ CardOk F o w (fn d).1) :
    ∃ b' e, w.write buf fn = (b', .val e) ∧ E e ∧ Hold b L F b' := by
  have hr := inRec h hw
  obtain ⟨h1, h2, h3⟩ := write_slices hr hb.len fn hfn
  have hl : ((slice buf w.low.toNat w.high.toNat).length : Int) = w.m.size := by
    rw [slice_len hr hb.len]
    obtain ⟨c1, c2, c3, c4, _⟩ := h.cell o w hw
    omega
  obtain ⟨e, e1, e2, e3⟩ := hok _ hl (hb.ok o w hw)
  refine ⟨(w.write buf fn).1, e, ?_, e2, ⟨h1, ?_⟩⟩
  · rw [write_eq hr hb.len, e1]
  · intro o' w' hw'
    by_cases hne : (o', w') = (o, w)
    · simp only [Prod.mk.injEq] at hne
      obtain ⟨rfl, rfl⟩ := hne
      rw [h2]; exact e3
    · rw [h3 w' (inRec h hw') (apart h hw' hw hne)]
      exact hb.ok o' w' hw'

/-- the writers of one owner -/
theorem hold_list (h : Laid b L D) {F : List Bytes} (o : Owner) (g : Cell → Bytes → Wrote) (hg : ∀ w d, (g w d).1.length = d.length)
    (E : Option Err → Prop) (hE : E none)
    (hok : ∀ w, (o, w) ∈ L → ∀ d, (d.length : Int) = w.m.size → CardOk F o w d →
      ∃ e, (g w d).2 = .val e ∧ E e ∧ CardOk F o w (g w d).1) (ws : List Cell) :
    ∀ {buf : Bytes}, Hold b L F buf → (∀ w ∈ ws, (o, w) ∈ L) →
    ∃ b' e, runWriters buf (ws.map fun w buf => w.write buf (g w)) = (b', .val e) ∧ E e ∧ Hold b L F b' := by
  induction ws with
  | nil => intro buf hb _; exact ⟨buf, none, rfl, hE, hb⟩
  | cons w ws ih =>
    intro buf hb hws
    obtain ⟨b1, e1, h1, h2, h3⟩ := hold_write h hb (hws w (by simp)) (g w) (hg w) E (hok w (hws w (by simp)))
    rw [List.map_cons, runWriters, h1]
    cases e1 with
    | none => exact ih h3 fun w' hw' => hws w' (by simp [hw'])
    | some e => exact ⟨b1, some e, rfl, h2, h3⟩

theorem contWriterFn_ok {m : Measure} (hm : m.continuousInput = true) {d : Bytes} (hd : (d.length : Int) = m.size) (i : Bool) (x : F64) :
    (contWriterFn m d i x).2 = .val none := by
  have hput : ∀ d : Bytes, ¬ d.length < 8 → (putFloat d x).2 = .val none := by
    intro d h; unfold putFloat; rw [if_neg h]
  have hst : m.stat = true → (contWriterFn m d i x).2 = .val none := by
    intro hs
    have := stat_size hs hm
    rw [contWriterFn_stat hs, statWriter_eq d (by omega)]
  cases m with
  | count => simp [Measure.continuousInput] at hm
  | cardinality p => simp [Measure.continuousInput] at hm
  | sum => exact hst rfl
  | mean => exact hst rfl
  | variance => exact hst rfl
  | max =>
    have hd : (d.length : Int) = 8 := hd
    show (maxWriter d i x).2 = _
    unfold maxWriter
    split
    · exact hput d (by omega)
    · rw [if_neg (by omega)]
      split
      · rfl
      · exact hput d (by omega)
  | min =>
    have hd : (d.length : Int) = 8 := hd
    show (minWriter d i x).2 = _
    unfold minWriter
    split
    · exact hput d (by omega)
    · rw [if_neg (by omega)]
      split
      · rfl
      · exact hput d (by omega)

/-- go on after writers that did not panic -/
def goOn (b1 : Bytes) (ws : List (Bytes → Wrote)) : Option Err → Wrote
  | none => runWriters b1 ws
  | some e => (b1, .val (some e))

theorem runWriters_append_ok {ws ws' : List (Bytes → Wrote)} {buf b1 : Bytes} {e1 : Option Err}
    (h : runWriters buf ws = (b1, .val e1)) :
    runWriters buf (ws ++ ws') = goOn b1 ws' e1 := by
  rw [runWriters_append, h]
  cases e1 <;> rfl

/-- the value can be used for the field: its number parses if it needs to be a number, its counter exists if it has one -/
def Usable (lib : Lib) (L : List (Owner × Cell)) (F : List Bytes) (init : Bool) (fv : FV) : Prop :=
  ((∃ w, (Owner.cont fv.f, w) ∈ L) → (lib.parseFloat fv.v).isSome = true) ∧
  ((∃ w, (Owner.disc fv.f, w) ∈ L) → init = true ∨ fv.f ∈ F)

theorem hold_field (lib : Lib) (h : Laid b L D) {F : List Bytes} {buf : Bytes} (hb : Hold b L F buf) (init : Bool) (fv : FV) :
    ∃ b' e, runWriters buf (fieldWriters lib b.coll init fv) = (b', .val e) ∧ (Usable lib L F init fv → e = none) ∧ Hold b L F b' := by
  have hc : ∃ b1 e1, runWriters buf (contWriters lib init fv.v (b.coll.contWriters fv.f)) = (b1, .val e1) ∧
      (Usable lib L F init fv → e1 = none) ∧ Hold b L F b1 := by
    rw [h.cont, toOpt]
    by_cases hl : cells L (.cont fv.f) = []
    · rw [if_pos hl]; exact ⟨buf, none, rfl, fun _ => rfl, hb⟩
    · rw [if_neg hl, contWriters]
      cases hp : lib.parseFloat fv.v with
      | none =>
        refine ⟨buf, some .parseFloat, rfl, ?_, hb⟩
        intro hu
        obtain ⟨w, hw⟩ := List.exists_mem_of_ne_nil _ hl
        have := hu.1 ⟨w, mem_cells.1 hw⟩
        rw [hp] at this
        simp at this
      | some x =>
        apply hold_list h (.cont fv.f) (fun w d => contWriterFn w.m d init x) (fun w d => contWriterFn_length _ _ _ _)
          (fun e => Usable lib L F init fv → e = none) (fun _ => rfl) _ _ hb
        · intro w hw; exact mem_cells.1 hw
        · intro w hw d hd hcd
          have := (h.cell _ w hw).2.2.2.2
          refine ⟨none, contWriterFn_ok this hd _ _, fun _ => rfl, ?_⟩
          intro f p hf _
          simp at hf
  obtain ⟨b1, e1, h1, h2, h3⟩ := hc
  unfold fieldWriters
  rw [runWriters_append_ok h1]
  cases e1 with
  | some e => exact ⟨b1, some e, rfl, h2, h3⟩
  | none =>
    rw [goOn]
    have e : discWriters init fv.v (b.coll.discWriters fv.f) =
        (cells L (.disc fv.f)).map fun w buf => w.write buf fun b => discWriterFn w.m b init fv.v := by
      rw [h.disc]
      unfold toOpt
      by_cases hl : cells L (.disc fv.f) = []
      · rw [if_pos hl, hl]; rfl
      · rw [if_neg hl]; rfl
    rw [e]
    apply hold_list h (.disc fv.f) (fun w d => discWriterFn w.m d init fv.v) (fun w d => discWriterFn_length _ _ _ _)
      (fun e => Usable lib L F init fv → e = none) (fun _ => rfl) _ _ h3
    · intro w hw; exact mem_cells.1 hw
    · intro w hw d hd hcd
      obtain ⟨p, hm, h4, h18⟩ := (h.cell _ w hw).2.2.2.2
      rw [hm] at hd ⊢
      have hgood : ∀ c : Hll.Counter, Hll.WF c → c.p = precision p → CardOk F (.disc fv.f) w (enc c) := by
        intro c hc hcp f q _ hq
        have : p = q := by rw [hm] at hq; injection hq
        subst this
        exact .inr ⟨c, hc, hcp, rfl⟩
      show ∃ e, (cardWriter p d init fv.v).2 = .val e ∧ _ ∧ CardOk F _ w (cardWriter p d init fv.v).1
      cases init with
      | true =>
        obtain ⟨c0, c, _, _, hwf, hcp, hwr⟩ := cardWriter_init h4 h18 hd fv.v
        rw [hwr]
        exact ⟨none, rfl, fun _ => rfl, hgood c hwf hcp⟩
      | false =>
        rcases hcd fv.f p rfl hm with ⟨hF, hz⟩ | ⟨c, hwf, hcp, hcd⟩
        · have hpos := (h.cell _ w hw).2.2.1
          rw [hz, cardWriter_zero _ _ (by omega)]
          refine ⟨_, rfl, ?_, ?_⟩
          · intro hu
            rcases hu.2 ⟨w, hw⟩ with hu | hu
            · simp at hu
            · exact absurd hu hF
          · intro f q hf hq
            left
            injection hf with hf
            subst hf
            exact ⟨hF, rfl⟩
        · obtain ⟨c', _, hwf', hcp', hwr⟩ := cardWriter_next (p := p) hwf fv.v
          rw [hcd, hwr]
          exact ⟨none, rfl, fun _ => rfl, hgood c' hwf' (hcp'.trans hcp)⟩

/-- one row: no panic, the record stays in order, and the row is accepted if all its values are usable -/
theorem hold_row (lib : Lib) (h : Laid b L D) {F : List Bytes} {buf : Bytes} (hb : Hold b L F buf) (init : Bool) (r : Row) :
    ∃ b' e, update lib b.coll r buf init = (b', .val e) ∧ ((∀ fv ∈ r.data, Usable lib L F init fv) → e = none) ∧ Hold b L F b' := by
  unfold update
  have hrow : ∃ b1, runWriters buf (b.coll.writers.map fun w buf => w.write buf countWriter) = (b1, .val none) ∧ Hold b L F b1 := by
    rw [h.rows]
    obtain ⟨b1, e1, h1, h2, h3⟩ := hold_list h (F := F) .row (fun _ => countWriter) (fun _ d => countWriter_length d) (fun e => e = none) rfl
      (by
        intro w hw d hd _
        have hm : w.m = .count := (h.cell _ w hw).2.2.2.2
        rw [hm] at hd
        have hd : (d.length : Int) = 8 := hd
        refine ⟨none, ?_, rfl, ?_⟩
        · unfold countWriter; rw [if_neg (by omega)]
        · intro f p hf; simp at hf) (cells L .row) hb (fun w hw => mem_cells.1 hw)
    subst h2
    exact ⟨b1, h1, h3⟩
  obtain ⟨b1, h1, h3⟩ := hrow
  rw [runWriters_append_ok h1, goOn]
  clear h1 hb
  revert b1
  induction r.data with
  | nil => intro b1 h3; exact ⟨b1, none, rfl, fun _ => rfl, h3⟩
  | cons fv fvs ih =>
    intro b1 h3
    obtain ⟨b2, e2, k1, k2, k3⟩ := hold_field lib h h3 init fv
    rw [List.flatMap_cons, runWriters_append_ok k1]
    cases e2 with
    | some e => exact ⟨b2, some e, rfl, fun hu => k2 (hu fv (by simp)), k3⟩
    | none =>
      obtain ⟨b3, e3, l1, l2, l3⟩ := ih b2 k3
      exact ⟨b3, e3, l1, fun hu => l2 fun fv' hfv' => hu fv' (by simp [hfv']), l3⟩

/-- after an accepted first row the counters of the fields it has exist -/
theorem hold_first (lib : Lib) (h : Laid b L D) (r : Row) {buf : Bytes}
    (hu : update lib b.coll r (blank b.coll) true = (buf, .val none)) : Hold b L (r.data.map FV.f) buf := by
  obtain ⟨b', e, k1, _, k3⟩ := hold_row lib h (hold_blank h) true r
  rw [hu] at k1
  simp only [Prod.mk.injEq, Out.val.injEq] at k1
  obtain ⟨rfl, _⟩ := k1
  refine ⟨k3.len, ?_⟩
  intro o w hw f p ho hp
  subst ho
  by_cases hf : f ∈ r.data.map FV.f
  · right
    obtain ⟨q, hm, h4, h18⟩ := (h.cell _ w hw).2.2.2.2
    have : q = p := by rw [hm] at hp; injection hp
    subst this
    have hlen := (blank b.coll)
    obtain ⟨_, a2⟩ := row_effect lib h hw true r (blank b.coll) buf (by unfold blank; simp) hu
    rw [fold_disc] at a2
    rw [a2, hm]
    show ∃ c, _ ∧ _ ∧ List.foldl (fun d x => (cardWriter q d true x).1) _ _ = enc c
    have hl : ((rowEff (.disc f) (slice (blank b.coll) w.low.toNat w.high.toNat)).length : Int) = Hll.len (precision q) := by
      unfold rowEff
      dsimp only
      rw [slice_len (inRec h hw) (by unfold blank; simp)]
      obtain ⟨c1, c2, c3, c4, _⟩ := h.cell _ w hw
      rw [hm] at c2 c3
      have : (Measure.cardinality q).size = Hll.len (precision q) := rfl
      omega
    have hne : (r.data.filterMap fun fv => if fv.f = f then some fv.v else none) ≠ [] := by
      obtain ⟨fv, hfv, rfl⟩ := List.mem_map.1 hf
      intro he
      have : fv.v ∈ r.data.filterMap fun fv' => if fv'.f = fv.f then some fv'.v else none :=
        List.mem_filterMap.2 ⟨fv, hfv, by simp⟩
      rw [he] at this; simp at this
    generalize (r.data.filterMap fun fv => if fv.f = f then some fv.v else none) = vs at hne
    generalize rowEff (.disc f) (slice (blank b.coll) w.low.toNat w.high.toNat) = d at hl
    clear a2 hu k3
    induction vs generalizing d with
    | nil => exact absurd rfl hne
    | cons v vs ih =>
      obtain ⟨c0, c, _, _, hwf, hcp, hwr⟩ := cardWriter_init h4 h18 hl v
      rw [List.foldl_cons, hwr]
      cases vs with
      | nil => exact ⟨c, hwf, hcp, rfl⟩
      | cons v' vs =>
        apply ih
        · simp
        · rw [← hcp]; exact enc_length hwf
  · rcases k3.ok _ w hw f p rfl hp with ⟨_, hz⟩ | hc
    · exact .inl ⟨hf, hz⟩
    · exact .inr hc

end

end Starbow.Collation
