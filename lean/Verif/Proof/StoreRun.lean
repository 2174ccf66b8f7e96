import Verif.Proof.Store
/-
Histories of a store: concatenation, where count(*) sits in a record, keys in their home slots, and what is read back.
-/
namespace Starbow.Storage
open Starbow.Collation Starbow.Spec Starbow.Props Starbow.Bufmap

theorem writes_append (lib : Lib) (a b : List Obs) : ∀ st : Store,
    (writes lib st (a ++ b)).1 = (writes lib (writes lib st a).1 b).1 ∧
    (writes lib st (a ++ b)).2 = (writes lib st a).2 ++ (writes lib (writes lib st a).1 b).2 := by
  induction a with
  | nil => intro st; exact ⟨rfl, rfl⟩
  | cons o a ih =>
    intro st
    rw [List.cons_append, writes, writes]
    simp only
    exact ⟨(ih _).1, by rw [(ih _).2]; rfl⟩

theorem writes_obs (lib : Lib) (os : List Obs) : ∀ st : Store, (writes lib st os).2.map Prod.fst = os := by
  induction os with
  | nil => intro st; rfl
  | cons o os ih => intro st; rw [writes]; simp only [List.map_cons]; rw [ih]

/-! ### the place of count(*) -/

theorem count_place (s : Schema) (hne : s.recordMeasures ≠ []) :
    readerAt (compile s) (asc "*") (asc "count") =
      some ⟨8 * (s.recordMeasures.length - 1 : Nat), 8 * s.recordMeasures.length, .count⟩ := by
  have hm : ∀ f (ms : List Measure) (a : Building × Shared),
      readerAt (ms.foldl (compileMeasure f) a).1.coll (asc "*") (asc "count") = readerAt a.1.coll (asc "*") (asc "count") := by
    intro f ms
    induction ms with
    | nil => intro a; rfl
    | cons m ms ih =>
      intro a
      rw [List.foldl_cons, ih]
      have hn : m.continuousInput = true ∨ m.discreteInput = true → asc "count" ≠ m.name := by
        cases m <;> first | (rintro (h | h) <;> simp [Measure.continuousInput, Measure.discreteInput] at h; done) | (intro _; simp only [Measure.name]; decide)
      have h1 : readerAt (compileCont f a m).1.coll (asc "*") (asc "count") = readerAt a.1.coll (asc "*") (asc "count") := by
        unfold compileCont
        split
        · next h =>
          unfold addCont
          have := readerAt_add a.1.coll a.1.coll.contReaders f
            ⟨(place m a.1.pos a.2).1.1, (place m a.1.pos a.2).1.2, m⟩ (asc "*") (asc "count")
          rw [if_neg (fun h' => hn (.inl h) h'.2)] at this
          exact this
        · rfl
      rw [← h1]
      unfold compileMeasure compileDisc
      split
      · next h =>
        have := readerAt_add (compileCont f a m).1.coll (compileCont f a m).1.coll.contReaders f
          ⟨(compileCont f a m).1.pos, (compileCont f a m).1.pos + m.size, m⟩ (asc "*") (asc "count")
        rw [if_neg (fun h' => hn (.inr h) h'.2)] at this
        exact this
      · rfl
  have hs : ∀ (specs : List (Bytes × List Measure)) (b : Building),
      readerAt (specs.foldl compileSpec b).coll (asc "*") (asc "count") = readerAt b.coll (asc "*") (asc "count") := by
    intro specs
    induction specs with
    | nil => intro b; rfl
    | cons p specs ih => intro b; rw [List.foldl_cons, ih]; unfold compileSpec; rw [hm]
  have hr : ∀ (rms : List RowMeasure) (b : Building), (rms.foldl compileRow b).pos = b.pos + 8 * rms.length ∧
      (rms ≠ [] → readerAt (rms.foldl compileRow b).coll (asc "*") (asc "count") =
        some ⟨b.pos + 8 * (rms.length - 1 : Nat), b.pos + 8 * rms.length, .count⟩) := by
    intro rms
    induction rms with
    | nil => intro b; exact ⟨by simp, fun h => absurd rfl h⟩
    | cons rm rms ih =>
      intro b
      rw [List.foldl_cons]
      have hp : (compileRow b rm).pos = b.pos + 8 := by cases rm; rfl
      obtain ⟨i1, i2⟩ := ih (compileRow b rm)
      refine ⟨by rw [i1, hp, List.length_cons]; push_cast; omega, fun _ => ?_⟩
      by_cases he : rms = []
      · subst he
        cases rm
        have := readerAt_add b.coll b.coll.contReaders (asc "*") ⟨b.pos, b.pos + 8, .count⟩ (asc "*") (asc "count")
        rw [if_pos ⟨rfl, rfl⟩] at this
        refine Eq.trans this ?_
        simp
      · rw [i2 he, hp]
        have : 0 < rms.length := List.length_pos_iff.2 he
        simp only [Option.some.injEq, Cell.mk.injEq, List.length_cons, and_true]
        constructor <;> (push_cast; omega)
  unfold compile
  rw [hs, (hr s.recordMeasures ⟨emptyCollator s, 0⟩).2 hne]
  simp

/-! ### a count cut short -/

theorem leU64_cut (n j m : Nat) (hm : 8 ≤ j + m) :
    leU64 ((le64 (BitVec.ofNat 64 n)).take j ++ List.replicate m 0#8) = BitVec.ofNat 64 (n % 256 ^ j) := by
  apply BitVec.eq_of_getLsbD_eq
  intro i hi
  rw [leU64_bit _ i hi]
  have hpow : (256 : Nat) ^ j = 2 ^ (8 * j) := by rw [Nat.pow_mul]
  rw [hpow, BitVec.getLsbD_ofNat, Nat.testBit_mod_two_pow]
  simp only [hi, decide_true, Bool.true_and]
  by_cases hj : i / 8 < j
  · have hlt : i / 8 < 8 := by omega
    rw [List.getD_eq_getElem?_getD, List.getElem?_append_left (by simp; omega), List.getElem?_take_of_lt hj, ← List.getD_eq_getElem?_getD,
      le64_getD _ _ hlt]
    have : i < 8 * j := by omega
    simp only [this, decide_true, Bool.true_and]
    rw [BitVec.getLsbD_setWidth, BitVec.getLsbD_ushiftRight, BitVec.getLsbD_ofNat]
    have e : 8 * (i / 8) + i % 8 = i := by omega
    rw [e]
    have : i % 8 < 8 := by omega
    simp [this, hi]
  · have : ¬ i < 8 * j := by omega
    simp only [this, decide_false, Bool.false_and]
    rw [List.getD_eq_getElem?_getD, List.getElem?_append_right (by simp; omega), List.getElem?_replicate]
    split <;> simp

theorem slice_seen_cut {x lo hi : Nat} {d : Bytes} (hlh : lo ≤ hi) (hd : hi ≤ d.length) :
    slice (seen x d) lo hi = (slice d lo hi).take (x - lo) ++ List.replicate (hi - lo - (x - lo)) 0#8 := by
  apply List.ext_getElem?
  intro i
  unfold slice seen
  rw [List.getElem?_take, List.getElem?_drop]
  by_cases h1 : i < hi - lo
  · rw [if_pos h1]
    by_cases h2 : i < x - lo
    · rw [List.getElem?_append_left (by simp; omega), List.getElem?_append_left (by simp; omega),
        List.getElem?_take_of_lt (by omega), List.getElem?_take_of_lt h2, List.getElem?_take_of_lt h1, List.getElem?_drop]
    · rw [List.getElem?_append_right (by simp; omega), List.getElem?_append_right (by simp; omega), List.getElem?_replicate,
        List.getElem?_replicate, if_pos (by simp; omega), if_pos (by simp; omega)]
  · rw [if_neg h1, List.getElem?_eq_none (by simp; omega)]

/-! ### keys in their home slots -/

/-- every key of the table is in its home slot -/
def AtHome (l : Nat) (st : Store) : Prop := ∀ y, y < l → st.backend.keyAt y ≠ 0 → (st.backend.keyAt y).toNat % l = y

/-- every key of the table is one of `ks` -/
def KeysIn (l : Nat) (st : Store) (ks : U64 → Prop) : Prop := ∀ y, y < l → st.backend.keyAt y ≠ 0 → ks (st.backend.keyAt y)

section
variable {sch : Schema} {L : List (Owner × Cell)} {D : List (Bytes × Measure)} {pos : Int} {l : Nat}

theorem keys_new (hl : 0 < l) (y : Nat) (hy : y < l) : (newStore sch l).backend.keyAt y = 0 := by
  unfold newStore Map.keyAt Bufmap.new
  rw [List.getD_eq_getElem?_getD, List.getElem?_replicate, if_pos hy]
  rfl

theorem home_write (lib : Lib) (h : Laid ⟨compile sch, pos⟩ L D) {st : Store} (hg : Good sch L pos l st) (o : Obs) (ks : U64 → Prop)
    (hks : ∀ k, keyValue o.row.data sch.keys = some k → ks k) (hdist : ∀ k k', ks k → ks k' → k.toNat % l = k'.toNat % l → k = k')
    (hh : AtHome l st) (hi : KeysIn l st ks) :
    AtHome l (write lib st o.canceled o.row).1 ∧ KeysIn l (write lib st o.canceled o.row).1 ks := by
  cases write_cases lib h hg o.canceled o.row with
  | nokey hk e => rw [e]; exact ⟨hh, hi⟩
  | refused k hk e he hwhy hw => rw [hw]; exact ⟨hh, hi⟩
  | ran k hk hc h0 x hx hxk hslot init hinit hdata hkeys e he hu hw =>
    rw [hw]
    have hka : ∀ y, (Store.backend ⟨after st.backend k x (Collation.update lib (compile sch) o.row (slotBytes st.backend x) init).1,
        compile sch⟩).keyAt y = if y = x then k else st.backend.keyAt y := by
      intro y
      exact congrFun (keyAt_after hg.wf k hx _) y
    have hhome : x = k.toNat % l := by
      obtain ⟨j, hj, ej, hprev⟩ := hkeys x hx (by simpa using h0)
      simp only [if_true] at ej hprev
      by_cases hj0 : j = 0
      · subst hj0
        rw [← ej, Probe.pos_zero]
      · exfalso
        have := hprev 0 (by omega)
        rw [Probe.pos_zero] at this
        have hlt : k.toNat % l < l := Nat.mod_lt _ (by omega)
        by_cases hex : k.toNat % l = x
        · rw [if_pos hex] at this; exact this.2 rfl
        · rw [if_neg hex] at this
          exact this.2 (hdist _ _ (hi _ hlt this.1) (hks k hk) (hh _ hlt this.1))
    constructor
    · intro y hy hne
      rw [hka] at hne ⊢
      split
      · next e => rw [e, ← hhome]
      · next e => rw [if_neg e] at hne; exact hh y hy hne
    · intro y hy hne
      rw [hka] at hne ⊢
      split
      · exact hks k hk
      · next e => rw [if_neg e] at hne; exact hi y hy hne

theorem home_writes (lib : Lib) (h : Laid ⟨compile sch, pos⟩ L D) (ks : U64 → Prop)
    (hdist : ∀ k k', ks k → ks k' → k.toNat % l = k'.toNat % l → k = k') (os : List Obs) : ∀ {st : Store}, Good sch L pos l st →
    (∀ o ∈ os, ∀ k, keyValue o.row.data sch.keys = some k → ks k) →
    AtHome l st → KeysIn l st ks → AtHome l (writes lib st os).1 ∧ KeysIn l (writes lib st os).1 ks := by
  induction os with
  | nil => intro st _ _ h1 h2; exact ⟨h1, h2⟩
  | cons o os ih =>
    intro st hg hks h1 h2
    obtain ⟨a, b⟩ := home_write lib h hg o ks (hks o (by simp)) hdist h1 h2
    exact ih (good_write lib h hg o.canceled o.row) (fun o' ho' => hks o' (by simp [ho'])) a b

/-- with no two keys of the history sharing a home slot, each key is in its home slot -/
theorem home_run (lib : Lib) (h : Laid ⟨compile sch, pos⟩ L D) (hl : 0 < l) (os : List Obs)
    (hdist : ∀ o ∈ os, ∀ o' ∈ os, ∀ k k', keyValue o.row.data sch.keys = some k → keyValue o'.row.data sch.keys = some k' →
      k.toNat % l = k'.toNat % l → k = k') {k : U64} (hk : k ≠ 0) {x : Nat}
    (hx : slotOf (writes lib (newStore sch l) os).1.backend k = some x) : x = k.toNat % l := by
  have := (home_writes lib h (fun k => ∃ o ∈ os, keyValue o.row.data sch.keys = some k)
    (by rintro k k' ⟨o, ho, e⟩ ⟨o', ho', e'⟩ hm; exact hdist o ho o' ho' k k' e e' hm) os (good_new h hl)
    (fun o ho k e => ⟨o, ho, e⟩) (by intro y hy hne; exact absurd (keys_new hl y hy) hne)
    (by intro y hy hne; exact absurd (keys_new hl y hy) hne)).1
  have hg := good_writes (l := l) lib h os (good_new h hl)
  obtain ⟨h1, h2⟩ := (slotOf_eq hg.wf hk).1 hx
  have := this x h1 (by rw [h2]; exact hk)
  rw [h2] at this
  exact this.symm

/-! ### acceptance -/

/-- the value of a field is usable at any time: no uniquecount of the field, and a number if need be -/
def Plain (lib : Lib) (sch : Schema) (fv : FV) : Prop :=
  (∀ p, ¬ Declares sch fv.f (.cardinality p)) ∧
  ∀ m, Declares sch fv.f m → m ≠ .count → lib.parseFloat fv.v ≠ none

theorem write_plain (lib : Lib) (h : Laid ⟨compile sch, pos⟩ L D) (hD : ∀ f m, (f, m) ∈ D ↔ Declares sch f m) {st : Store}
    (hg : Good sch L pos l st) (r : Row) {k : U64} (hk : keyValue r.data sch.keys = some k) (h0 : k ≠ 0)
    (hroom : slotOf st.backend k ≠ none ∨ ∃ j, j ≤ Probe.maxReprobe ∧ st.backend.keyAt (Probe.pos l k j) = 0)
    (hp : ∀ fv ∈ r.data, Plain lib sch fv) : (write lib st false r).2 = .ret none := by
  cases write_cases lib h hg false r with
  | nokey hk' e => rw [hk] at hk'; simp at hk'
  | refused k' hk' e he hwhy hw =>
    exfalso
    have : k = k' := by rw [hk] at hk'; exact Option.some.inj hk'
    subst this
    rcases hwhy with ⟨hc, _⟩ | ⟨_, hz, _⟩ | ⟨_, _, _, hn, hfull⟩
    · simp at hc
    · exact h0 hz
    · rcases hroom with hr | ⟨j, hj, hr⟩
      · exact hr hn
      · exact hfull j hj hr
  | ran k' hk' hc h0' x hx hxk hslot init hinit hdata hkeys e he hu hw =>
    rw [hw]
    obtain ⟨b', e', h1, h2, _⟩ := hold_row lib h (hg.hold x hx) init r
    have h1 : Collation.update lib (compile sch) r (slotBytes st.backend x) init = (b', .val e') := h1
    rw [h1] at hu
    simp only [Prod.mk.injEq, Out.val.injEq, true_and] at hu
    rw [← hu, h2]
    intro fv hfv
    obtain ⟨p1, p2⟩ := hp fv hfv
    constructor
    · rintro ⟨w, hwm⟩
      obtain ⟨g, hs, hmem⟩ := h.owned _ w hwm
      have hs : g = fv.f := hs
      subst hs
      have ht : w.m.continuousInput = true := (h.cell _ w hwm).2.2.2.2
      rw [Option.isSome_iff_ne_none]
      exact p2 w.m ((hD _ _).1 hmem) (by intro e; rw [e] at ht; simp [Measure.continuousInput] at ht)
    · rintro ⟨w, hwm⟩
      obtain ⟨g, hs, hmem⟩ := h.owned _ w hwm
      have hs : g = fv.f := hs
      subst hs
      obtain ⟨p, hm, _⟩ := (h.cell _ w hwm).2.2.2.2
      rw [hm] at hmem
      exact absurd ((hD _ _).1 hmem) (p1 p)

theorem room_new (hl : 0 < l) (k : U64) :
    ∃ j, j ≤ Probe.maxReprobe ∧ (newStore sch l).backend.keyAt (Probe.pos l k j) = 0 :=
  ⟨0, by simp, keys_new hl _ (Probe.pos_lt hl k 0)⟩

/-- a key sits within eleven slots of its home -/
theorem slot_near {st : Store} (hg : Good sch L pos l st) {k : U64} (h0 : k ≠ 0) {x : Nat} (hs : slotOf st.backend k = some x) :
    ∃ j, j ≤ 10 ∧ x = (k.toNat % l + j) % l := by
  obtain ⟨hx, hkx⟩ := (slotOf_eq hg.wf h0).1 hs
  obtain ⟨j, hj, ej, _⟩ := hg.wf.inv x hx (by rw [hkx]; exact h0)
  rw [hkx] at ej
  exact ⟨j, hj, ej.symm⟩

/-! ### other keys -/

theorem read_other (lib : Lib) (h : Laid ⟨compile sch, pos⟩ L D) {st : Store} (hg : Good sch L pos l st) (o : Obs) (q : Query) {k : U64}
    (hk : keyValue q.criteria sch.keys = some k) (h0 : k ≠ 0) (hne : keyValue o.row.data sch.keys ≠ some k) :
    Storage.read lib (write lib st o.canceled o.row).1 q = Storage.read lib st q := by
  cases write_cases lib h hg o.canceled o.row with
  | nokey hk e => rw [e]
  | refused k' hk' e he hwhy hw => rw [hw]
  | ran k' hk' hc h0' x hx hxk hslot init hinit hdata hkeys e he hu hw =>
    have hg' := good_write lib h hg o.canceled o.row
    have hkk : k ≠ k' := by rintro rfl; exact hne hk'
    rw [hw] at hg' ⊢
    obtain ⟨s1, s2⟩ := slotOf_after_other hg.wf h0' h0 hkk hx hxk
      (Collation.update lib (compile sch) o.row (slotBytes st.backend x) init).1 hkeys
    cases hs : slotOf st.backend k with
    | none =>
      rw [read_absent lib h hg hk hs]
      exact read_absent lib h hg' hk (s1.trans hs)
    | some y =>
      rw [read_present lib h hg hk h0 hs, read_present lib h hg' hk h0 (s1.trans hs)]
      unfold contentOf at s2
      rw [s1, hs] at s2
      have s2 := Option.some.inj s2
      simp only
      rw [s2]

/-! ### keys out of their home slots -/

/-- the last observation of a key outside its home slot -/
theorem displaced (lib : Lib) (h : Laid ⟨compile sch, pos⟩ L D) {st : Store} (hg : Good sch L pos l st) (o : Obs) {k : U64}
    (hk : keyValue o.row.data sch.keys = some k) (hok : (write lib st o.canceled o.row).2 = .ret none) {x : Nat}
    (hs : slotOf (write lib st o.canceled o.row).1.backend k = some x) (hx : x ≠ k.toNat % l) :
    ∃ b0, Hold ⟨compile sch, pos⟩ L [] b0 ∧
      Collation.update lib (compile sch) o.row b0 true = (slotBytes (write lib st o.canceled o.row).1.backend x, .val none) := by
  cases write_cases lib h hg o.canceled o.row with
  | nokey hk' e => rw [hk] at hk'; simp at hk'
  | refused k' hk' e he hwhy hw => rw [hw] at hok; simp at hok
  | ran k' hk' hc h0' y hy hyk hslot init hinit hdata hkeys e he hu hw =>
    have : k = k' := by rw [hk] at hk'; exact Option.some.inj hk'
    subst this
    rw [hw] at hok hs ⊢
    have hok : e = none := by simpa using hok
    subst hok
    have hyx : y = x := Option.some.inj ((contentOf_after_same hg.wf h0' hy _ hkeys).1.symm.trans hs)
    subst hyx
    have hi : init = true := by rw [hinit]; simp [hx]
    subst hi
    refine ⟨slotBytes st.backend y, hg.hold y hy, ?_⟩
    rw [hu]
    show _ = (slotBytes (after _ _ _ _) _, _)
    rw [slotBytes_after_same hg.wf k hy, overwrite_same]
    rw [(update_length lib h (hg.hold y hy) true o.row).len, (hg.hold y hy).len]

end

end Starbow.Storage
