import Verif.Spec.Store
import Verif.Props.Record
import Verif.Props.Bufmap
/-
One write to a store, and the invariant of a store fed with writes.
-/
namespace Starbow.Storage
open Starbow.Collation Starbow.Spec Starbow.Props Starbow.Bufmap

/-! ### the errors of an update -/

/-- not one of the errors by which a write is refused before the record is touched -/
def Inner (e : Err) : Prop := e ≠ .canceled ∧ e ≠ .invalidKey ∧ e ≠ .outOfSlots

theorem runWriters_err (ws : List (Bytes → Wrote)) : ∀ buf e, (runWriters buf ws).2 = .val (some e) →
    ∃ w ∈ ws, ∃ b, (w b).2 = .val (some e) := by
  induction ws with
  | nil => intro buf e h; simp [runWriters] at h
  | cons w ws ih =>
    intro buf e h
    rw [runWriters] at h
    rcases e1 : w buf with ⟨b, r⟩
    rw [e1] at h
    rcases r with (r | r) | _
    · obtain ⟨w', hw', hb⟩ := ih b e h
      exact ⟨w', by simp [hw'], hb⟩
    · exact ⟨w, by simp, buf, by rw [e1]; exact h⟩
    · simp at h

theorem cell_write_err {w : Cell} {buf : Bytes} {fn : Bytes → Wrote} {e : Err} (h : (w.write buf fn).2 = .val (some e)) :
    ∃ d, (fn d).2 = .val (some e) := by
  unfold Cell.write at h
  split at h
  · simp at h
  · exact ⟨_, h⟩

theorem contWriterFn_noerr (m : Measure) (d : Bytes) (i : Bool) (x : F64) (e : Err) : (contWriterFn m d i x).2 ≠ .val (some e) := by
  have hp : ∀ d, (putFloat d x).2 ≠ .val (some e) := by
    intro d; unfold putFloat; split <;> simp
  have hs : (statWriter d x).2 ≠ .val (some e) := by
    unfold statWriter; split <;> simp
  unfold contWriterFn maxWriter minWriter
  split
  · split
    · exact hp d
    · split
      · simp
      · split
        · simp
        · exact hp d
  · split
    · exact hp d
    · split
      · simp
      · split
        · simp
        · exact hp d
  · exact hs

theorem withBytes_err {d : Bytes} {e : Err} (h : Hll.withBytes d = .val (.error e)) : Inner e := by
  have hb : ∀ d e, Bitbucket.withBytes d = .val (.error e) → Inner e := by
    intro d e h
    unfold Bitbucket.withBytes at h
    split at h
    · simp at h; subst h; simp [Inner]
    · split at h
      · simp at h; subst h; simp [Inner]
      · dsimp only at h
        split at h
        · simp at h; subst h; simp [Inner]
        · split at h
          · simp at h; subst h; simp [Inner]
          · split at h <;> simp at h
  unfold Hll.withBytes at h
  split at h
  · simp at h
  · split at h
    · simp at h; subst h; simp [Inner]
    · split at h
      · simp at h
      · cases hb2 : Bitbucket.withBytes (d.drop 2) with
        | panic => rw [hb2] at h; simp at h
        | val r =>
          rw [hb2] at h
          cases r with
          | error e' => simp at h; subst h; exact hb _ _ hb2
          | ok b => simp at h

theorem writeTo_buffer (c : Hll.Counter) : (Hll.writeTo c Writer.buffer).1.2 = none := by
  unfold Hll.writeTo Bitbucket.writeTo Writer.write Writer.buffer
  rfl

theorem discWriterFn_err {m : Measure} {d : Bytes} {i : Bool} {v : Bytes} {e : Err} (h : (discWriterFn m d i v).2 = .val (some e)) :
    Inner e := by
  unfold discWriterFn at h
  split at h
  · unfold cardWriter at h
    split at h
    · split at h
      · simp at h
      · simp only [Out.val.injEq] at h
        rw [writeTo_buffer] at h
        simp at h
    · split at h
      · simp at h
      · next e' he =>
        simp only [Out.val.injEq, Option.some.injEq] at h
        subst h
        exact withBytes_err he
      · split at h <;> simp at h
  · simp at h

theorem update_err {lib : Lib} {c : Collator} {r : Row} {buf : Bytes} {init : Bool} {e : Err}
    (h : (Collation.update lib c r buf init).2 = .val (some e)) : Inner e := by
  unfold Collation.update at h
  obtain ⟨w, hw, b, hb⟩ := runWriters_err _ _ _ h
  rcases List.mem_append.1 hw with hw | hw
  · obtain ⟨x, _, rfl⟩ := List.mem_map.1 hw
    obtain ⟨d, hd⟩ := cell_write_err hb
    unfold countWriter at hd
    split at hd <;> simp at hd
  · obtain ⟨fv, hfv, hw⟩ := List.mem_flatMap.1 hw
    unfold fieldWriters at hw
    rcases List.mem_append.1 hw with hw | hw
    · cases hc : c.contWriters fv.f with
      | none => rw [hc] at hw; simp [contWriters] at hw
      | some ws =>
        rw [hc, contWriters] at hw
        cases hp : lib.parseFloat fv.v with
        | none =>
          rw [hp] at hw
          simp only [List.mem_singleton] at hw
          subst hw
          simp at hb
          subst hb
          simp [Inner]
        | some x =>
          rw [hp] at hw
          obtain ⟨y, _, rfl⟩ := List.mem_map.1 hw
          obtain ⟨d, hd⟩ := cell_write_err hb
          exact absurd hd (contWriterFn_noerr _ _ _ _ _)
    · cases hc : c.discWriters fv.f with
      | none => rw [hc] at hw; simp [discWriters] at hw
      | some ws =>
        rw [hc, discWriters] at hw
        obtain ⟨y, _, rfl⟩ := List.mem_map.1 hw
        obtain ⟨d, hd⟩ := cell_write_err hb
        exact discWriterFn_err hd

theorem touched_inner {e : Option Err} (h : ∀ x, e = some x → Inner x) : touched (.ret e) = true := by
  cases e with
  | none => rfl
  | some x =>
    obtain ⟨h1, h2, h3⟩ := h x rfl
    simp [touched, h1, h2, h3]

/-! ### records fed in a home slot and in a displaced slot -/

theorem serve_append (lib : Lib) (c : Collator) (rs : List Row) (r : Row) : ∀ (buf : Bytes) (init : Bool),
    (serve lib c buf init (rs ++ [r])).1 =
      (Collation.update lib c r (serve lib c buf init rs).1 (init && rs.isEmpty)).1 := by
  induction rs with
  | nil => intro buf init; simp [serve]
  | cons r' rs ih =>
    intro buf init
    rw [List.cons_append, serve, serve]
    simp only
    rw [ih]
    simp

/-- rows given to a record that is told at each of them that it is new -/
def serveNew (lib : Lib) (c : Collator) (buf : Bytes) (rs : List Row) : Bytes :=
  rs.foldl (fun b r => (Collation.update lib c r b true).1) buf

/-- the record of a key in its home slot, or elsewhere -/
def recordIn (lib : Lib) (c : Collator) (home : Bool) (rs : List Row) : Bytes :=
  if home then (serve lib c (blank c) true rs).1 else serveNew lib c (blank c) rs

theorem recordIn_append (lib : Lib) (c : Collator) (home : Bool) (rs : List Row) (r : Row) :
    recordIn lib c home (rs ++ [r]) =
      (Collation.update lib c r (recordIn lib c home rs) (decide (rs = [] ∨ home = false))).1 := by
  unfold recordIn
  cases home with
  | true =>
    simp only [if_true]
    rw [serve_append]
    congr 2
    cases rs <;> simp
  | false =>
    simp only [if_neg (show ¬ (false = true) by simp)]
    unfold serveNew
    rw [List.foldl_append]
    simp

/-! ### the invariant -/

section
variable {sch : Schema} {L : List (Owner × Cell)} {D : List (Bytes × Measure)} {pos : Int} {l : Nat}

/-- a store in order -/
structure Good (sch : Schema) (L : List (Owner × Cell)) (pos : Int) (l : Nat) (st : Store) : Prop where
  coll : st.coll = compile sch
  wf : WF l (compile sch).size.toNat st.backend
  hold : ∀ x, x < l → Hold ⟨compile sch, pos⟩ L [] (slotBytes st.backend x)

theorem good_new (h : Laid ⟨compile sch, pos⟩ L D) (hl : 0 < l) : Good sch L pos l (newStore sch l) := by
  have hw := wf_new (compile sch).size.toNat hl
  refine ⟨rfl, hw, ?_⟩
  intro x hx
  have : slotBytes (newStore sch l).backend x = List.replicate (compile sch).size.toNat 0 := by
    apply hw.zero x hx
    unfold Map.keyAt Bufmap.new
    rw [List.getD_eq_getElem?_getD, List.getElem?_replicate, if_pos hx]
    rfl
  rw [this]
  exact hold_blank h

/-- The complete description of one write to a store in order. -/
inductive WriteCase (lib : Lib) (sch : Schema) (l : Nat) (st : Store) (canceled : Bool) (r : Row) : Prop where
  | nokey (hk : keyValue r.data sch.keys = none) (h : write lib st canceled r = (st, .ret none))
  | refused (k : U64) (hk : keyValue r.data sch.keys = some k) (e : Err) (he : ¬ Inner e)
      (hwhy : (canceled = true ∧ e = .canceled) ∨ (canceled = false ∧ k = 0 ∧ e = .invalidKey) ∨
        (canceled = false ∧ k ≠ 0 ∧ e = .outOfSlots ∧ slotOf st.backend k = none ∧
          ∀ j, j ≤ Probe.maxReprobe → st.backend.keyAt (Probe.pos l k j) ≠ 0))
      (h : write lib st canceled r = (st, .ret (some e)))
  | ran (k : U64) (hk : keyValue r.data sch.keys = some k) (hc : canceled = false) (h0 : k ≠ 0) (x : Nat) (hx : x < l)
      (hxk : st.backend.keyAt x = k ∨ st.backend.keyAt x = 0)
      (hslot : slotOf st.backend k = some x ∨ slotOf st.backend k = none)
      (init : Bool) (hinit : init = decide (slotOf st.backend k = none ∨ x ≠ k.toNat % l))
      (hdata : slotBytes st.backend x = (contentOf st.backend k).getD (blank (compile sch)))
      (hkeys : Probe.KeyInv l (fun y => if y = x then k else st.backend.keyAt y))
      (e : Option Err) (he : ∀ y, e = some y → Inner y)
      (hu : Collation.update lib (compile sch) r (slotBytes st.backend x) init =
        ((Collation.update lib (compile sch) r (slotBytes st.backend x) init).1, .val e))
      (h : write lib st canceled r =
        (⟨after st.backend k x (Collation.update lib (compile sch) r (slotBytes st.backend x) init).1, compile sch⟩, .ret e))

theorem compile_keys (s : Schema) : (compile s).keys = s.keys := by
  have hm : ∀ f (ms : List Measure) (a : Building × Shared), (ms.foldl (compileMeasure f) a).1.coll.keys = a.1.coll.keys := by
    intro f ms
    induction ms with
    | nil => intro a; rfl
    | cons m ms ih =>
      intro a
      rw [List.foldl_cons, ih]
      unfold compileMeasure compileDisc compileCont addCont
      split <;> split <;> rfl
  have hs : ∀ (specs : List (Bytes × List Measure)) (b : Building), (specs.foldl compileSpec b).coll.keys = b.coll.keys := by
    intro specs
    induction specs with
    | nil => intro b; rfl
    | cons p specs ih => intro b; rw [List.foldl_cons, ih]; unfold compileSpec; rw [hm]
  have hr : ∀ (rms : List RowMeasure) (b : Building), (rms.foldl compileRow b).coll.keys = b.coll.keys := by
    intro rms
    induction rms with
    | nil => intro b; rfl
    | cons rm rms ih => intro b; rw [List.foldl_cons, ih]; rfl
  unfold compile
  rw [hs, hr]
  rfl

theorem write_cases (lib : Lib) (h : Laid ⟨compile sch, pos⟩ L D) {st : Store} (hg : Good sch L pos l st) (canceled : Bool) (r : Row) :
    WriteCase lib sch l st canceled r := by
  cases hk : keyValue r.data sch.keys with
  | none =>
    refine .nokey hk ?_
    unfold write
    rw [hg.coll, compile_keys, hk]
  | some k =>
    cases canceled with
    | true =>
      refine .refused k hk .canceled (by simp [Inner]) (.inl ⟨rfl, rfl⟩) ?_
      unfold write
      rw [hg.coll, compile_keys, hk]
      rfl
    | false =>
      have hw : write lib st false r =
          (⟨(Bufmap.update st.backend k (transaction lib (compile sch) r)).1, compile sch⟩,
            (Bufmap.update st.backend k (transaction lib (compile sch) r)).2) := by
        unfold write
        rw [hg.coll, compile_keys, hk]
        simp only [Bool.false_eq_true, if_false]
      have hself : (⟨st.backend, compile sch⟩ : Store) = st := by rw [← hg.coll]
      cases update_cases_on hg.wf k (transaction lib (compile sch) r) (by
        intro x hx i
        obtain ⟨b', e, h1, _⟩ := hold_row lib h (hg.hold x hx) i r
        exact ⟨e, by unfold transaction; rw [show Collation.update lib (compile sch) r (slotBytes st.backend x) i = _ from h1]⟩) with
      | invalid h0 e =>
        refine .refused k hk .invalidKey (by simp [Inner]) (.inr (.inl ⟨rfl, h0, rfl⟩)) ?_
        rw [hw, e, hself]
      | full h0 habs hfull e =>
        refine .refused k hk .outOfSlots (by simp [Inner]) (.inr (.inr ⟨rfl, h0, rfl, habs, hfull⟩)) ?_
        rw [hw, e, hself]
      | ran h0 x hx init e hxk hslot hinit hfn hdata hkeys he =>
        have hfn' : (Collation.update lib (compile sch) r (slotBytes st.backend x) init).2 = .val e := hfn
        refine .ran k hk rfl h0 x hx hxk (hslot.imp_right And.left) init hinit ?_ hkeys e ?_ ?_ ?_
        · rw [hdata]; rfl
        · rintro y rfl; exact update_err hfn'
        · rw [← hfn']
        · rw [hw, he]; rfl

theorem update_length (lib : Lib) (h : Laid ⟨compile sch, pos⟩ L D) {F : List Bytes} {buf : Bytes}
    (hb : Hold ⟨compile sch, pos⟩ L F buf) (init : Bool) (r : Row) :
    Hold ⟨compile sch, pos⟩ L F (Collation.update lib (compile sch) r buf init).1 := by
  obtain ⟨b', e, h1, _, h3⟩ := hold_row lib h hb init r
  rw [show Collation.update lib (compile sch) r buf init = _ from h1]
  exact h3

theorem good_write (lib : Lib) (h : Laid ⟨compile sch, pos⟩ L D) {st : Store} (hg : Good sch L pos l st) (canceled : Bool) (r : Row) :
    Good sch L pos l (write lib st canceled r).1 := by
  cases write_cases lib h hg canceled r with
  | nokey hk e => rw [e]; exact hg
  | refused k hk e he hwhy hw => rw [hw]; exact hg
  | ran k hk hc h0 x hx hxk hslot init hinit hdata hkeys e he hu hw =>
    rw [hw]
    refine ⟨rfl, wf_after hg.wf h0 hx _ hkeys, ?_⟩
    intro y hy
    by_cases hyx : y = x
    · subst hyx
      show Hold _ _ _ (slotBytes (after _ _ _ _) _)
      rw [slotBytes_after_same hg.wf k hx, overwrite_same]
      · exact update_length lib h (hg.hold y hx) init r
      · rw [(update_length lib h (hg.hold y hx) init r).len, (hg.hold y hx).len]
    · show Hold _ _ _ (slotBytes (after _ _ _ _) _)
      rw [slotBytes_after_other hg.wf k hx hyx]
      exact hg.hold y hy

theorem good_writes (lib : Lib) (h : Laid ⟨compile sch, pos⟩ L D) (os : List Obs) : ∀ {st : Store}, Good sch L pos l st →
    Good sch L pos l (writes lib st os).1 := by
  induction os with
  | nil => intro st hg; exact hg
  | cons o os ih => intro st hg; exact ih (good_write lib h hg o.canceled o.row)

/-- what the store holds for a key after some rows reached its record -/
def Stored (lib : Lib) (sch : Schema) (l : Nat) (st : Store) (k : U64) (rs : List Row) : Prop :=
  (rs = [] ∧ slotOf st.backend k = none) ∨
  (rs ≠ [] ∧ ∃ x, x < l ∧ slotOf st.backend k = some x ∧
    slotBytes st.backend x = recordIn lib (compile sch) (decide (x = k.toNat % l)) rs)

theorem stored_write (lib : Lib) (h : Laid ⟨compile sch, pos⟩ L D) {st : Store} (hg : Good sch L pos l st) (canceled : Bool) (r : Row)
    {k : U64} (hk : k ≠ 0) {rs : List Row} (hs : Stored lib sch l st k rs) :
    Stored lib sch l (write lib st canceled r).1 k
      (if keyValue r.data sch.keys = some k ∧ touched (write lib st canceled r).2 = true then rs ++ [r] else rs) := by
  cases write_cases lib h hg canceled r with
  | nokey hk e => rw [e, if_neg (by rw [hk]; simp)]; exact hs
  | refused k' hk' e he hwhy hw =>
    rw [hw, if_neg]
    · exact hs
    · rintro ⟨_, ht⟩
      apply he
      simp only [touched, Bool.and_eq_true, decide_eq_true_eq] at ht
      exact ⟨ht.1.1, ht.1.2, ht.2⟩
  | ran k' hk' hc h0 x hx hxk hslot init hinit hdata hkeys e he hu hw =>
    rw [hw, hk']
    by_cases hkk : k' = k
    · subst hkk
      rw [if_pos ⟨rfl, touched_inner he⟩]
      right
      refine ⟨by simp, x, hx, (contentOf_after_same hg.wf h0 hx _ hkeys).1, ?_⟩
      show slotBytes (after _ _ _ _) _ = _
      rw [slotBytes_after_same hg.wf k' hx, overwrite_same _ _ (by
        rw [(update_length lib h (hg.hold x hx) init r).len, (hg.hold x hx).len]), recordIn_append]
      rcases hs with ⟨rfl, hn⟩ | ⟨hne, y, hy, hsy, hby⟩
      · have hd : slotBytes st.backend x = recordIn lib (compile sch) (decide (x = k'.toNat % l)) [] := by
          rw [hdata]
          unfold contentOf
          rw [hn]
          unfold recordIn serveNew serve
          simp
        rw [hd, hinit, hn]
        simp
      · have hyx : y = x := by
          rcases hslot with hsl | hsl
          · rw [hsy] at hsl; exact Option.some.inj hsl
          · rw [hsy] at hsl; simp at hsl
        subst hyx
        rw [hby, hinit, hsy]
        congr 2
        simp [hne]
    · rw [if_neg (by rintro ⟨e, _⟩; exact hkk (Option.some.inj e))]
      have ho := slotOf_after_other hg.wf h0 hk (fun e => hkk e.symm) hx hxk
        (Collation.update lib (compile sch) r (slotBytes st.backend x) init).1 hkeys
      rcases hs with ⟨rfl, hn⟩ | ⟨hne, y, hy, hsy, hby⟩
      · left; exact ⟨rfl, ho.1.trans hn⟩
      · right
        refine ⟨hne, y, hy, ho.1.trans hsy, ?_⟩
        have hyx : y ≠ x := by
          rintro rfl
          have := ((slotOf_eq hg.wf hk).mp hsy).2
          rcases hxk with e | e
          · exact hkk (e.symm.trans this)
          · exact hk (this.symm.trans e)
        show slotBytes (after _ _ _ _) _ = _
        rw [slotBytes_after_other hg.wf k' hx hyx]
        exact hby

theorem rowsFor_cons (keys : List Bytes) (k : U64) (o : Obs) (res : Bufmap.Res (Option Err)) (t : List (Obs × Bufmap.Res (Option Err))) :
    rowsFor keys k ((o, res) :: t) =
      (if keyValue o.row.data keys = some k ∧ touched res = true then [o.row] else []) ++ rowsFor keys k t := by
  unfold rowsFor
  rw [List.filter_cons]
  by_cases hc : keyValue o.row.data keys = some k ∧ touched res = true
  · rw [if_pos (by simp [hc.1, hc.2]), if_pos hc]; rfl
  · rw [if_neg (by simpa using hc), if_neg hc]; rfl

theorem stored_writes (lib : Lib) (h : Laid ⟨compile sch, pos⟩ L D) {k : U64} (hk : k ≠ 0) (os : List Obs) :
    ∀ {st : Store} {rs : List Row}, Good sch L pos l st → Stored lib sch l st k rs →
    Stored lib sch l (writes lib st os).1 k (rs ++ rowsFor sch.keys k (writes lib st os).2) := by
  induction os with
  | nil => intro st rs _ hs; simpa [writes, rowsFor] using hs
  | cons o os ih =>
    intro st rs hg hs
    have h1 := stored_write lib h hg o.canceled o.row hk hs
    have h2 := ih (good_write lib h hg o.canceled o.row) h1
    rw [writes]
    simp only
    rw [rowsFor_cons, ← List.append_assoc]
    split at h2
    · next hc => rw [if_pos hc]; exact h2
    · next hc => rw [if_neg hc, List.append_nil]; exact h2

theorem stored_new (lib : Lib) (hl : 0 < l) (k : U64) (hk : k ≠ 0) : Stored lib sch l (newStore sch l) k [] := by
  left
  refine ⟨rfl, ?_⟩
  refine (slotOf_none (wf_new (compile sch).size.toNat hl)).mpr ?_
  intro x hx
  unfold Map.keyAt Bufmap.new
  rw [List.getD_eq_getElem?_getD, List.getElem?_replicate, if_pos hx]
  exact fun e => hk e.symm

/-- after any writes to a fresh store -/
theorem stored_run (lib : Lib) (h : Laid ⟨compile sch, pos⟩ L D) (hl : 0 < l) {k : U64} (hk : k ≠ 0) (os : List Obs) :
    Stored lib sch l (writes lib (newStore sch l) os).1 k (rowsFor sch.keys k (writes lib (newStore sch l) os).2) := by
  have := stored_writes lib h hk os (good_new h hl) (stored_new lib hl k hk)
  simpa using this

end

end Starbow.Storage

namespace Starbow.Storage
open Starbow.Collation Starbow.Spec Starbow.Props Starbow.Bufmap

section
variable {sch : Schema} {L : List (Owner × Cell)} {D : List (Bytes × Measure)} {pos : Int} {l : Nat}

/-! ### reading -/

/-- what `Get` copies of a record `d` in slot `x` into a zeroed buffer of the same length -/
def seen (x : Nat) (d : Bytes) : Bytes := d.take x ++ List.replicate (d.length - x) 0#8

theorem seen_all {x : Nat} {d : Bytes} (h : d.length ≤ x) : seen x d = d := by
  unfold seen
  rw [List.take_of_length_le h, Nat.sub_eq_zero_of_le h]
  simp

theorem seen_length (x : Nat) (d : Bytes) : (seen x d).length = d.length := by
  unfold seen; simp; omega

theorem slice_seen {x lo hi : Nat} {d : Bytes} (h : hi ≤ x) (hd : hi ≤ d.length) : slice (seen x d) lo hi = slice d lo hi := by
  unfold slice seen
  rw [← List.drop_take, ← List.drop_take]
  congr 1
  rw [List.take_append_of_le_length (by simp; omega), List.take_take]
  congr 1
  omega

/-- the reply of the store: a panic or what the collator reads -/
def answer : Out (List FMV × Option Err) → Res (List FMV × Option Err)
  | .panic => .panic
  | .val r => .ret r

theorem size_nonneg (h : Laid ⟨compile sch, pos⟩ L D) : 0 ≤ (compile sch).size := by
  have h1 := h.size
  have h2 := h.pos
  have : (compile sch).size = pos := h1
  have : 0 ≤ pos := h2
  omega

theorem read_nokey (lib : Lib) {st : Store} (hg : Good sch L pos l st) {q : Query} (hk : keyValue q.criteria sch.keys = none) :
    read lib st q = .ret ([], none) := by
  unfold read
  rw [hg.coll, compile_keys, hk]

theorem read_absent (lib : Lib) (h : Laid ⟨compile sch, pos⟩ L D) {st : Store} (hg : Good sch L pos l st) {q : Query} {k : U64}
    (hk : keyValue q.criteria sch.keys = some k) (hs : slotOf st.backend k = none) :
    read lib st q = .ret ([], none) := by
  have := size_nonneg h
  unfold read
  rw [hg.coll, compile_keys, hk]
  simp only
  rw [if_neg (by omega), get_absent hg.wf hs]

theorem read_present (lib : Lib) (h : Laid ⟨compile sch, pos⟩ L D) {st : Store} (hg : Good sch L pos l st) {q : Query} {k : U64}
    (hk : keyValue q.criteria sch.keys = some k) (h0 : k ≠ 0) {x : Nat} (hs : slotOf st.backend k = some x) :
    read lib st q = if x * ((compile sch).size.toNat + 1) > l * (compile sch).size.toNat then .panic
      else answer (Collation.read lib (compile sch) q.fieldMeasures (seen x (slotBytes st.backend x))) := by
  have := size_nonneg h
  have hx := ((slotOf_eq hg.wf h0).mp hs).1
  have hlen := slotBytes_length hg.wf hx
  unfold read
  rw [hg.coll, compile_keys, hk]
  simp only
  rw [if_neg (by omega), get_present hg.wf h0 hs]
  by_cases hc : x * ((compile sch).size.toNat + 1) > l * (compile sch).size.toNat
  · rw [if_pos hc, if_pos hc]
  · rw [if_neg hc, if_neg hc]
    simp only
    have : (slice st.backend.values (x * (compile sch).size.toNat) (x * ((compile sch).size.toNat + 1))).take
        (List.replicate (compile sch).size.toNat (0 : Byte)).length ++
        (List.replicate (compile sch).size.toNat (0 : Byte)).drop x = seen x (slotBytes st.backend x) := by
      rw [List.length_replicate]
      unfold seen
      rw [List.drop_replicate, hlen]
      congr 1
      by_cases hc : (compile sch).size.toNat ≤ x
      · rw [copied_ge hg.wf hc, List.take_of_length_le (by omega)]
      · rw [copied_le hg.wf (by omega), List.take_take]
        congr 1
        omega
    rw [this]
    unfold answer
    rfl

/-! ### the count -/

theorem field_leaves (lib : Lib) (h : Laid ⟨compile sch, pos⟩ L D) {w : Cell} (hw : (Owner.row, w) ∈ L) (init : Bool) (fv : FV) :
    ∀ k ∈ fieldWriters lib (compile sch) init fv, Leaves (compile sch).size.toNat w.low.toNat w.high.toNat k := by
  intro k hk
  unfold fieldWriters at hk
  rcases List.mem_append.1 hk with hk | hk
  · rw [show (compile sch).contWriters fv.f = _ from h.cont fv.f] at hk
    unfold toOpt at hk
    split at hk
    · simp [contWriters] at hk
    · rw [contWriters] at hk
      cases hp : lib.parseFloat fv.v with
      | none =>
        rw [hp] at hk
        simp only [List.mem_singleton] at hk
        subst hk
        intro buf hl; exact ⟨hl, rfl⟩
      | some x =>
        rw [hp] at hk
        exact leaves_owner h hw (o' := .cont fv.f) (by simp)
          (fun w d => contWriterFn w.m d init x) (fun w d => contWriterFn_length _ _ _ _) k hk
  · rw [show (compile sch).discWriters fv.f = _ from h.disc fv.f] at hk
    unfold toOpt at hk
    split at hk
    · simp [discWriters] at hk
    · exact leaves_owner h hw (o' := .disc fv.f) (by simp)
        (fun w d => discWriterFn w.m d init fv.v) (fun w d => discWriterFn_length _ _ _ _) k hk

/-- any observation, accepted or not, is counted -/
theorem count_update (lib : Lib) (h : Laid ⟨compile sch, pos⟩ L D) {w : Cell} (hw : (Owner.row, w) ∈ L) {F : List Bytes} {buf : Bytes}
    (hb : Hold ⟨compile sch, pos⟩ L F buf) (init : Bool) (r : Row) :
    slice (Collation.update lib (compile sch) r buf init).1 w.low.toNat w.high.toNat =
      (countWriter (slice buf w.low.toNat w.high.toNat)).1 := by
  unfold Collation.update
  obtain ⟨b1, h1, h2⟩ : ∃ b1, runWriters buf ((compile sch).writers.map fun w buf => w.write buf countWriter) = (b1, .val none) ∧
      Hold ⟨compile sch, pos⟩ L F b1 := by
    rw [show (compile sch).writers = _ from h.rows]
    obtain ⟨b1, e1, h1, h2, h3⟩ := hold_list h (F := F) .row (fun _ => countWriter) (fun _ d => countWriter_length d) (fun e => e = none) rfl
      (by
        intro w hw d hd _
        have hm : w.m = .count := (h.cell _ w hw).2.2.2.2
        rw [hm] at hd
        refine ⟨none, ?_, rfl, ?_⟩
        · unfold countWriter
          rw [if_neg (by simp [Measure.size] at hd; omega)]
        · intro f p ho; simp at ho) (cells L .row) hb (fun w hw => mem_cells.1 hw)
    subst h2
    exact ⟨b1, h1, h3⟩
  rw [runWriters_append_ok h1]
  have e1 := eff_owner h hw .row (fun _ => countWriter) (fun _ d => countWriter_length d)
  rw [← h.rows] at e1
  have hl : buf.length = (compile sch).size.toNat := hb.len
  have e2 := (e1 buf b1 hl h1).2
  rw [if_pos rfl] at e2
  have e3 := (leaves_run (r.data.flatMap (fieldWriters lib (compile sch) init)) (by
    intro k hk
    obtain ⟨fv, _, hk⟩ := List.mem_flatMap.1 hk
    exact field_leaves lib h hw init fv k hk) b1 h2.len).2
  exact e3.trans e2

theorem count_record (lib : Lib) (h : Laid ⟨compile sch, pos⟩ L D) {w : Cell} (hw : (Owner.row, w) ∈ L) (home : Bool) (rs : List Row) :
    Hold ⟨compile sch, pos⟩ L [] (recordIn lib (compile sch) home rs) ∧
    slice (recordIn lib (compile sch) home rs) w.low.toNat w.high.toNat = le64 (BitVec.ofNat 64 rs.length) := by
  have hm : w.m = .count := (h.cell _ w hw).2.2.2.2
  induction rs using List.reverseRecOn with
  | nil =>
    have e : recordIn lib (compile sch) home [] = blank (compile sch) := by
      unfold recordIn serve serveNew; cases home <;> rfl
    rw [e]
    refine ⟨hold_blank h, ?_⟩
    rw [show slice (blank (compile sch)) w.low.toNat w.high.toNat = _ from blank_slice h hw, hm]
    decide
  | append_singleton rs r ih =>
    rw [recordIn_append]
    refine ⟨update_length lib h ih.1 _ r, ?_⟩
    rw [count_update lib h hw ih.1, ih.2, countWriter_eq _ (by simp), leU64_le64, List.length_append, List.length_singleton]
    congr 1
    apply BitVec.eq_of_toNat_eq
    simp [BitVec.toNat_add, BitVec.toNat_ofNat]

/-! ### accepted rows -/

theorem applyRows_append (lib : Lib) (c : Collator) (rs : List Row) (r : Row) : ∀ (buf b : Bytes) (init : Bool),
    applyRows lib c buf init rs = (b, .val none) →
    ∀ b', Collation.update lib c r b (init && rs.isEmpty) = (b', .val none) → applyRows lib c buf init (rs ++ [r]) = (b', .val none) := by
  induction rs with
  | nil =>
    intro buf b init h b' h'
    simp only [applyRows, Prod.mk.injEq, and_true] at h
    subst h
    rw [List.nil_append, applyRows]
    simp only [List.isEmpty_nil, Bool.and_true] at h'
    rw [h']
    rfl
  | cons r' rs ih =>
    intro buf b init h b' h'
    rw [applyRows] at h
    rw [List.cons_append, applyRows]
    rcases e1 : Collation.update lib c r' buf init with ⟨b1, e⟩
    rw [e1] at h
    rcases e with (e | e) | _
    · exact ih b1 b false h b' (by simpa using h')
    · simp at h
    · simp at h

/-- what the store holds for a key whose observations were all accepted, if it is in its home slot -/
def Kept (lib : Lib) (sch : Schema) (l : Nat) (st : Store) (k : U64) (rs : List Row) : Prop :=
  ∀ x, slotOf st.backend k = some x → x = k.toNat % l → RecordOf lib (compile sch) rs (slotBytes st.backend x)

theorem kept_write (lib : Lib) (h : Laid ⟨compile sch, pos⟩ L D) {st : Store} (hg : Good sch L pos l st) (canceled : Bool) (r : Row)
    {k : U64} (hk : k ≠ 0) {rs : List Row} (hs : Stored lib sch l st k rs) (hkept : Kept lib sch l st k rs)
    (hok : keyValue r.data sch.keys = some k → touched (write lib st canceled r).2 = true → (write lib st canceled r).2 = .ret none) :
    Kept lib sch l (write lib st canceled r).1 k
      (if keyValue r.data sch.keys = some k ∧ touched (write lib st canceled r).2 = true then rs ++ [r] else rs) := by
  cases write_cases lib h hg canceled r with
  | nokey hk e => rw [e, if_neg (by rw [hk]; simp)]; exact hkept
  | refused k' hk' e he hwhy hw =>
    rw [hw, if_neg]
    · exact hkept
    · rintro ⟨_, ht⟩
      apply he
      simp only [touched, Bool.and_eq_true, decide_eq_true_eq] at ht
      exact ⟨ht.1.1, ht.1.2, ht.2⟩
  | ran k' hk' hc h0 x hx hxk hslot init hinit hdata hkeys e he hu hw =>
    rw [hw] at hok ⊢
    rw [hk'] at hok ⊢
    by_cases hkk : k' = k
    · subst hkk
      have hok := hok rfl (touched_inner he)
      simp only [Res.ret.injEq] at hok
      subst hok
      rw [if_pos ⟨rfl, touched_inner he⟩]
      intro y hy hhome
      have hc := contentOf_after_same hg.wf h0 hx
        (Collation.update lib (compile sch) r (slotBytes st.backend x) init).1 hkeys
      have hyx : y = x := by
        have := hc.1.symm.trans hy
        exact (Option.some.inj this).symm
      subst hyx
      show RecordOf _ _ _ (slotBytes (after _ _ _ _) _)
      rw [slotBytes_after_same hg.wf k' hx, overwrite_same _ _ (by
        rw [(update_length lib h (hg.hold y hx) init r).len, (hg.hold y hx).len])]
      unfold RecordOf
      rcases hs with ⟨rfl, hn⟩ | ⟨hne, z, hz, hsz, hbz⟩
      · have hd : slotBytes st.backend y = blank (compile sch) := by
          rw [hdata]; unfold contentOf; rw [hn]; rfl
        rw [hd] at hu ⊢
        apply applyRows_append lib _ [] r (blank (compile sch)) (blank (compile sch)) true rfl
        rw [hinit, hn] at hu ⊢
        simpa using hu
      · have hzx : z = y := by
          rcases hslot with hsl | hsl
          · rw [hsz] at hsl; exact Option.some.inj hsl
          · rw [hsz] at hsl; simp at hsl
        subst hzx
        have hr := hkept z hsz hhome
        apply applyRows_append lib _ rs r _ _ true hr
        have hi : init = false := by rw [hinit, hsz]; simp [hhome]
        rw [hi] at hu ⊢
        have : (true && rs.isEmpty) = false := by
          cases rs with
          | nil => exact absurd rfl hne
          | cons _ _ => rfl
        rw [this]
        exact hu
    · rw [if_neg (by rintro ⟨e, _⟩; exact hkk (Option.some.inj e))]
      have ho := slotOf_after_other hg.wf h0 hk (fun e => hkk e.symm) hx hxk
        (Collation.update lib (compile sch) r (slotBytes st.backend x) init).1 hkeys
      intro y hy hhome
      have hsy : slotOf st.backend k = some y := ho.1.symm.trans hy
      have hyx : y ≠ x := by
        rintro rfl
        have := ((slotOf_eq hg.wf hk).mp hsy).2
        rcases hxk with e | e
        · exact hkk (e.symm.trans this)
        · exact hk (this.symm.trans e)
      show RecordOf _ _ _ (slotBytes (after _ _ _ _) _)
      rw [slotBytes_after_other hg.wf k' hx hyx]
      exact hkept y hsy hhome

theorem kept_writes (lib : Lib) (h : Laid ⟨compile sch, pos⟩ L D) {k : U64} (hk : k ≠ 0) (os : List Obs) :
    ∀ {st : Store} {rs : List Row}, Good sch L pos l st → Stored lib sch l st k rs → Kept lib sch l st k rs →
    (∀ p ∈ (writes lib st os).2, keyValue p.1.row.data sch.keys = some k → touched p.2 = true → p.2 = .ret none) →
    Kept lib sch l (writes lib st os).1 k (rs ++ rowsFor sch.keys k (writes lib st os).2) := by
  induction os with
  | nil => intro st rs _ _ hs _; simpa [writes, rowsFor] using hs
  | cons o os ih =>
    intro st rs hg hs hkept hok
    rw [writes] at hok
    simp only [List.mem_cons, forall_eq_or_imp] at hok
    have h1 := stored_write lib h hg o.canceled o.row hk hs
    have h1' := kept_write lib h hg o.canceled o.row hk hs hkept hok.1
    have h2 := ih (good_write lib h hg o.canceled o.row) h1 h1' hok.2
    rw [writes]
    simp only
    rw [rowsFor_cons, ← List.append_assoc]
    split at h2
    · next hc => rw [if_pos hc]; exact h2
    · next hc => rw [if_neg hc, List.append_nil]; exact h2

theorem kept_run (lib : Lib) (h : Laid ⟨compile sch, pos⟩ L D) (hl : 0 < l) {k : U64} (hk : k ≠ 0) (os : List Obs)
    (hok : ∀ p ∈ (writes lib (newStore sch l) os).2, keyValue p.1.row.data sch.keys = some k → touched p.2 = true → p.2 = .ret none) :
    Kept lib sch l (writes lib (newStore sch l) os).1 k (rowsFor sch.keys k (writes lib (newStore sch l) os).2) := by
  have hs := stored_new (sch := sch) lib hl k hk
  have := kept_writes lib h hk os (good_new h hl) hs (by
    intro x hx
    rcases hs with ⟨_, hn⟩ | ⟨hne, _⟩
    · rw [hn] at hx; simp at hx
    · exact absurd rfl hne) hok
  simpa using this

end

end Starbow.Storage
