import Verif.Proof.Seats
import Verif.Proof.Accepted
/-
When a history of observations is accepted by a store: the general case, with keys that share home slots.
-/
namespace Starbow.Spec
open Starbow.Collation Starbow.Storage

theorem slot_keep {t : Seating} {k : U64} {x : Nat} (h : t.slot k = some x) (p : U64 × Nat) : Seating.slot (t ++ [p]) k = some x := by
  unfold Seating.slot at h ⊢
  rw [List.find?_append]
  rw [Option.map_eq_some_iff] at h
  obtain ⟨q, hq, rfl⟩ := h
  rw [hq]
  rfl

theorem slot_see_keep {l : Nat} {t : Seating} {k : U64} {x : Nat} (h : t.slot k = some x) (k' : U64) : (Seating.see l t k').slot k = some x := by
  unfold Seating.see
  split
  · exact h
  · split
    · exact slot_keep h _
    · exact h

theorem slot_see_other {l : Nat} {t : Seating} {k k' : U64} (h : k ≠ k') : (Seating.see l t k').slot k = t.slot k := by
  unfold Seating.see
  split
  · rfl
  · split
    · unfold Seating.slot
      rw [List.find?_append]
      cases hf : t.find? fun p => p.1 = k with
      | some q => rfl
      | none => simp [Ne.symm h]
    · rfl

theorem taken_keep (l : Nat) (t : Seating) (k : U64) {x : Nat} (h : x ∈ t.map Prod.snd) : x ∈ (Seating.see l t k).map Prod.snd := by
  unfold Seating.see
  split
  · exact h
  · split
    · rw [List.map_append]; exact List.mem_append.2 (.inl h)
    · exact h

theorem see_none {l : Nat} {t : Seating} {k : U64} (h0 : k ≠ 0) (h : (Seating.see l t k).slot k = none) :
    ∀ x ∈ candidates l k, x ∈ (Seating.see l t k).map Prod.snd := by
  unfold Seating.see at h ⊢
  split at h
  · next hc =>
    rcases hc with hc | hc
    · exact absurd hc h0
    · exact absurd h hc
  · next hc =>
    rw [if_neg hc]
    split at h
    · next x hx =>
      exfalso
      push Not at hc
      unfold Seating.slot at h hc
      rw [List.find?_append, Option.map_eq_none_iff.1 hc.2] at h
      simp at h
    · next hx =>
      rw [List.find?_eq_none] at hx
      intro x hxm
      have := hx x hxm
      simpa using this

theorem seating_none {l : Nat} {ks : List U64} {k : U64} (h0 : k ≠ 0) (hk : k ∈ ks) (h : (seating l ks).slot k = none) :
    ∀ x ∈ candidates l k, x ∈ (seating l ks).map Prod.snd := by
  induction ks using List.reverseRecOn with
  | nil => simp at hk
  | append_singleton ks k' ih =>
    have e : seating l (ks ++ [k']) = Seating.see l (seating l ks) k' := by unfold seating; rw [List.foldl_append]; rfl
    rw [e] at h ⊢
    by_cases hkk : k = k'
    · subst hkk; exact see_none h0 h
    · rw [slot_see_other hkk] at h
      have hk : k ∈ ks := by simpa [hkk] using hk
      exact fun x hx => taken_keep l _ k' (ih hk h x hx)

/-- a key that found no slot finds none later -/
theorem slotAfter_none {keys : List Bytes} {l : Nat} {os : List Obs} {k : U64} (h0 : k ≠ 0) (hk : k ∈ keysOf keys os)
    (h : slotAfter keys l os k = none) (o : Obs) : slotAfter keys l (os ++ [o]) k = none := by
  have hfull := seating_none h0 hk h
  have he : keysOf keys (os ++ [o]) = keysOf keys os ++ keysOf keys [o] := Storage.keysOf_append keys os [o]
  unfold slotAfter seating at h ⊢
  rw [he, List.foldl_append]
  by_cases hc : o.canceled = true
  · have : keysOf keys [o] = [] := by simp [keysOf, hc]
    rw [this]
    exact h
  · cases hk' : keyValue o.row.data keys with
    | none =>
      have : keysOf keys [o] = [] := by simp [keysOf, hc, hk']
      rw [this]
      exact h
    | some k' =>
      have : keysOf keys [o] = [k'] := by simp [keysOf, hc, hk']
      rw [this]
      show (Seating.see l (seating l (keysOf keys os)) k').slot k = none
      by_cases hkk : k = k'
      · subst hkk
        have hn : (candidates l k).find? (fun x => x ∉ (seating l (keysOf keys os)).map Prod.snd) = none := by
          rw [List.find?_eq_none]
          intro x hx
          simpa using hfull x hx
        unfold Seating.see
        split
        · exact h
        · rw [hn]; exact h
      · rw [slot_see_other hkk]; exact h

theorem slotAfter_snoc (keys : List Bytes) (l : Nat) (os : List Obs) (o : Obs) (k : U64) :
    (∀ x, slotAfter keys l os k = some x → slotAfter keys l (os ++ [o]) k = some x) ∧
    (keyValue o.row.data keys ≠ some k → slotAfter keys l (os ++ [o]) k = slotAfter keys l os k) := by
  have he : keysOf keys (os ++ [o]) = keysOf keys os ++ keysOf keys [o] := Storage.keysOf_append keys os [o]
  unfold slotAfter seating
  rw [he, List.foldl_append]
  by_cases hc : o.canceled = true
  · have : keysOf keys [o] = [] := by simp [keysOf, hc]
    rw [this]
    exact ⟨fun _ h => h, fun _ => rfl⟩
  · cases hk : keyValue o.row.data keys with
    | none =>
      have : keysOf keys [o] = [] := by simp [keysOf, hc, hk]
      rw [this]
      exact ⟨fun _ h => h, fun _ => rfl⟩
    | some k' =>
      have : keysOf keys [o] = [k'] := by simp [keysOf, hc, hk]
      rw [this]
      refine ⟨fun x h => slot_see_keep h k', fun h => slot_see_other fun e => h (by rw [e])⟩

end Starbow.Spec

namespace Starbow.Props
open Starbow.Collation Starbow.Spec Starbow.Storage Starbow.Bufmap

/-- the values of a row are numbers wherever a number is wanted -/
def Numbers (lib : Lib) (sch : Schema) (r : Row) : Prop :=
  ∀ fv ∈ r.data, ∀ m, Declares sch fv.f m → (m ≠ .count ∧ ∀ p, m ≠ .cardinality p) → lib.parseFloat fv.v ≠ none

section
variable {sch : Schema} {L : List (Owner × Cell)} {D : List (Bytes × Measure)} {pos : Int} {l : Nat}

/-- a row treated as the first of a record is accepted if and only if its values are numbers wherever a number is wanted -/
theorem update_new_iff (lib : Lib) (h : Laid ⟨compile sch, pos⟩ L D) (hD : ∀ f m, (f, m) ∈ D ↔ Declares sch f m) {buf : Bytes}
    (hb : Hold ⟨compile sch, pos⟩ L [] buf) (r : Row) {b : Bytes} {e : Option Err} (hu : Collation.update lib (compile sch) r buf true = (b, .val e)) :
    e = none ↔ Numbers lib sch r := by
  constructor
  · rintro rfl fv hfv m hdec hm hbad
    have hm : m.continuousInput = true := by
      obtain ⟨h1, h2⟩ := hm
      cases m <;> first | rfl | (exfalso; exact h1 rfl) | (exfalso; exact h2 _ rfl)
    obtain ⟨c, w, _, _, h3, _⟩ := cont_reader h ((hD fv.f m).2 hdec) hm
    refine runWriters_bad ((compile sch).writers.map (fun w buf => w.write buf countWriter) ++ r.data.flatMap (fieldWriters lib (compile sch) true))
      (fun buf => (buf, .val (some .parseFloat))) ?_ (by simp) buf ?_
    · refine List.mem_append.2 (.inr (List.mem_flatMap.2 ⟨fv, hfv, ?_⟩))
      unfold fieldWriters
      refine List.mem_append.2 (.inl ?_)
      have hne : cells L (.cont fv.f) ≠ [] := by
        intro e
        have := mem_cells.2 h3
        rw [e] at this; simp at this
      rw [show (compile sch).contWriters fv.f = _ from h.cont fv.f, toOpt, if_neg hne, contWriters, hbad]
      simp
    · unfold Collation.update at hu
      rw [hu]
  · intro hn
    obtain ⟨b', e', h1, h2, _⟩ := hold_row lib h hb true r
    have h1 : Collation.update lib (compile sch) r buf true = (b', .val e') := h1
    rw [h1] at hu
    simp only [Prod.mk.injEq, Out.val.injEq] at hu
    rw [← hu.2]
    apply h2
    intro fv hfv
    refine ⟨?_, fun _ => .inl rfl⟩
    rintro ⟨w, hw⟩
    obtain ⟨g, hs, hmem⟩ := h.owned _ w hw
    have hs : g = fv.f := hs
    have ht : w.m.continuousInput = true := (h.cell _ w hw).2.2.2.2
    subst hs
    rw [Option.isSome_iff_ne_none]
    refine hn fv hfv w.m ((hD _ _).1 hmem) ⟨?_, ?_⟩
    · intro e; rw [e] at ht; simp [Measure.continuousInput] at ht
    · intro p e; rw [e] at ht; simp [Measure.continuousInput] at ht

/-- a history is accepted if and only if no observation with a key is cancelled, has key 0 or finds no slot; the observations of a key in its home slot are
accepted by a record; and those of a key in another slot have numbers wherever a number is wanted -/
theorem accepted_law (lib : Lib) (h : Laid ⟨compile sch, pos⟩ L D) (hD : ∀ f m, (f, m) ∈ D ↔ Declares sch f m) (hl : 0 < l) (os : List Obs) :
    (∀ p ∈ (writes lib (newStore sch l) os).2, p.2 = .ret none) ↔
    (∀ o ∈ os, ∀ k, keyValue o.row.data sch.keys = some k → o.canceled = false ∧ k ≠ 0 ∧ slotAfter sch.keys l os k ≠ none) ∧
    (∀ k x, k ≠ 0 → slotAfter sch.keys l os k = some x →
      (x = k.toNat % l → ∃ buf, RecordOf lib (compile sch) (rowsWith sch.keys k os) buf) ∧
      (x ≠ k.toNat % l → ∀ r ∈ rowsWith sch.keys k os, Numbers lib sch r)) := by
  induction os using List.reverseRecOn with
  | nil =>
    refine ⟨fun _ => ⟨by simp, fun k x _ _ => ⟨fun _ => ⟨blank (compile sch), rfl⟩, fun _ r hr => by simp [rowsWith] at hr⟩⟩, fun _ => by simp [writes]⟩
  | append_singleton os o ih =>
    have hg := good_writes (l := l) lib h os (good_new h hl)
    obtain ⟨a1, a2⟩ := writes_append lib os [o] (newStore sch l)
    have hst : (writes lib (newStore sch l) (os ++ [o])).1 = (write lib (writes lib (newStore sch l) os).1 o.canceled o.row).1 := by rw [a1]; rfl
    have hres : (writes lib (newStore sch l) (os ++ [o])).2 = (writes lib (newStore sch l) os).2 ++
        [(o, (write lib (writes lib (newStore sch l) os).1 o.canceled o.row).2)] := by rw [a2]; rfl
    rw [hres]
    have hsplit : (∀ p ∈ (writes lib (newStore sch l) os).2 ++ [(o, (write lib (writes lib (newStore sch l) os).1 o.canceled o.row).2)], p.2 = .ret none) ↔
        (∀ p ∈ (writes lib (newStore sch l) os).2, p.2 = .ret none) ∧ (write lib (writes lib (newStore sch l) os).1 o.canceled o.row).2 = .ret none := by
      constructor
      · intro h
        exact ⟨fun p hp => h p (by simp [hp]), h (o, _) (by simp)⟩
      · rintro ⟨h1, h2⟩ p hp
        rcases List.mem_append.1 hp with hp | hp
        · exact h1 p hp
        · rw [List.mem_singleton.1 hp]; exact h2
    rw [hsplit]
    have hlast : ∀ k, rowsWith sch.keys k [o] = if keyValue o.row.data sch.keys = some k then [o.row] else [] := by
      intro k
      unfold rowsWith
      by_cases hk : keyValue o.row.data sch.keys = some k <;> simp [hk]
    have hslots := fun k (h0 : k ≠ 0) => slot_run lib h hl (os ++ [o]) (k := k) h0
    have hslots' := fun k (h0 : k ≠ 0) => slot_run lib h hl os (k := k) h0
    -- what a write does to a store whose history was accepted
    have step : (∀ p ∈ (writes lib (newStore sch l) os).2, p.2 = .ret none) →
        ((write lib (writes lib (newStore sch l) os).1 o.canceled o.row).2 = .ret none ↔
        (∀ k, keyValue o.row.data sch.keys = some k → o.canceled = false ∧ k ≠ 0 ∧ slotAfter sch.keys l (os ++ [o]) k ≠ none) ∧
        (∀ k x, k ≠ 0 → keyValue o.row.data sch.keys = some k → slotAfter sch.keys l (os ++ [o]) k = some x →
          (x = k.toNat % l → ∃ buf, RecordOf lib (compile sch) (rowsWith sch.keys k os ++ [o.row]) buf) ∧
          (x ≠ k.toNat % l → Numbers lib sch o.row))) := by
      intro hall
      cases write_cases lib h hg o.canceled o.row with
      | nokey hk e => rw [e, hk]; simp
      | refused k hk e he hwhy hw =>
        rw [hw] at hst
        rw [hw]
        refine ⟨fun h => by simp at h, ?_⟩
        rintro ⟨c1, _⟩
        exfalso
        obtain ⟨hc, h0, hne⟩ := c1 k hk
        rcases hwhy with ⟨hc', _⟩ | ⟨_, hz, _⟩ | ⟨_, _, _, hn, hfull⟩
        · rw [hc] at hc'; simp at hc'
        · exact h0 hz
        · rw [← hslots k h0, hst] at hne
          exact hne hn
      | ran k hk hc h0 x hx hxk hslot init hinit hdata hkeys e he hu hw =>
        rw [hw] at hst
        rw [hw]
        have hsx : slotAfter sch.keys l (os ++ [o]) k = some x := by
          rw [← hslots k h0, hst]
          exact (contentOf_after_same hg.wf h0 hx _ hkeys).1
        have key : e = none ↔ (x = k.toNat % l → ∃ buf, RecordOf lib (compile sch) (rowsWith sch.keys k os ++ [o.row]) buf) ∧
            (x ≠ k.toNat % l → Numbers lib sch o.row) := by
          by_cases hxh : x = k.toNat % l
          · have hrows := rowsFor_accepted lib (newStore sch l) os sch.keys k hall
            have hstored := stored_run lib h hl h0 os
            rw [hrows] at hstored
            have hbytes : ∃ b1, RecordOf lib (compile sch) (rowsWith sch.keys k os) b1 ∧
                slotBytes (writes lib (newStore sch l) os).1.backend x = b1 ∧ init = (true && (rowsWith sch.keys k os).isEmpty) := by
              rcases hstored with ⟨hr, hn⟩ | ⟨hr, y, hy, hs, _⟩
              · rw [hr]
                refine ⟨blank (compile sch), rfl, ?_, ?_⟩
                · rw [hdata]
                  unfold contentOf
                  rw [hn]
                  rfl
                · rw [hinit, hn]; simp
              · have hyx : y = x := by
                  rcases hslot with hsl | hsl
                  · rw [hs] at hsl; exact Option.some.inj hsl
                  · rw [hs] at hsl; simp at hsl
                subst hyx
                have hkept := kept_run lib h hl h0 os (fun p hp _ _ => hall p hp) y hs hxh
                rw [hrows] at hkept
                refine ⟨_, hkept, rfl, ?_⟩
                rw [hinit, hs]
                simp [hxh, hr]
            obtain ⟨b1, r1, r2, r3⟩ := hbytes
            constructor
            · intro he0
              subst he0
              rw [r2, r3] at hu
              exact ⟨fun _ => ⟨_, applyRows_append lib (compile sch) _ o.row _ b1 true r1 _ hu⟩, fun hne => absurd hxh hne⟩
            · rintro ⟨hrec, _⟩
              obtain ⟨buf, hb⟩ := hrec hxh
              obtain ⟨b2, s1, s2⟩ := applyRows_snoc lib (compile sch) _ o.row _ buf true hb
              unfold RecordOf at r1
              rw [r1] at s1
              simp only [Prod.mk.injEq, and_true] at s1
              subst s1
              rw [r2, r3, s2] at hu
              simp only [Prod.mk.injEq, true_and, Out.val.injEq] at hu
              exact hu.symm
          · have hi : init = true := by rw [hinit]; simp [hxh]
            subst hi
            rw [update_new_iff lib h hD (hg.hold x hx) o.row hu]
            exact ⟨fun hn => ⟨fun e => absurd e hxh, fun _ => hn⟩, fun hn => hn.2 hxh⟩
        constructor
        · intro he0
          have he0 : e = none := by simpa using he0
          refine ⟨?_, ?_⟩
          · intro k' hk'
            rw [hk] at hk'
            rw [← Option.some.inj hk', hsx]
            exact ⟨hc, h0, by simp⟩
          · intro k' x' _ hk' hx'
            rw [hk] at hk'
            have := Option.some.inj hk'
            subst this
            rw [hsx] at hx'
            rw [← Option.some.inj hx']
            exact key.1 he0
        · rintro ⟨_, h2⟩
          rw [key.2 (h2 k x h0 hk hsx)]
    constructor
    · rintro ⟨h1, h2⟩
      obtain ⟨i1, i2⟩ := ih.1 h1
      obtain ⟨s1, s2⟩ := (step h1).1 h2
      refine ⟨?_, ?_⟩
      · intro o' ho' k hk
        rcases List.mem_append.1 ho' with ho' | ho'
        · obtain ⟨j1, j2, j3⟩ := i1 o' ho' k hk
          refine ⟨j1, j2, ?_⟩
          obtain ⟨x, hx⟩ := Option.ne_none_iff_exists'.1 j3
          rw [(slotAfter_snoc sch.keys l os o k).1 x hx]
          simp
        · rw [List.mem_singleton.1 ho'] at hk ⊢
          exact s1 k hk
      · intro k x h0 hx
        rw [rowsWith_append, hlast]
        by_cases hk : keyValue o.row.data sch.keys = some k
        · rw [if_pos hk]
          obtain ⟨t1, t2⟩ := s2 k x h0 hk hx
          refine ⟨t1, ?_⟩
          intro hxh r hr
          rcases List.mem_append.1 hr with hr | hr
          · -- an earlier row: the key already had this slot
            have : ∃ o' ∈ os, keyValue o'.row.data sch.keys = some k := by
              unfold rowsWith at hr
              rw [List.mem_filter] at hr
              obtain ⟨hr1, hr2⟩ := hr
              obtain ⟨o', ho', rfl⟩ := List.mem_map.1 hr1
              exact ⟨o', ho', of_decide_eq_true hr2⟩
            obtain ⟨o', ho', ho''⟩ := this
            obtain ⟨x', hx'⟩ := Option.ne_none_iff_exists'.1 (i1 o' ho' k ho'').2.2
            have := (slotAfter_snoc sch.keys l os o k).1 x' hx'
            rw [hx] at this
            have := Option.some.inj this
            subst this
            exact (i2 k x h0 hx').2 hxh r hr
          · rw [List.mem_singleton.1 hr]; exact t2 hxh
        · rw [if_neg hk, List.append_nil]
          rw [(slotAfter_snoc sch.keys l os o k).2 hk] at hx
          exact i2 k x h0 hx
    · rintro ⟨c1, c2⟩
      have h1 := ih.2 ⟨?_, ?_⟩
      · refine ⟨h1, (step h1).2 ⟨c1 o (by simp), ?_⟩⟩
        intro k x h0 hk hx
        have := c2 k x h0 hx
        rw [rowsWith_append, hlast, if_pos hk] at this
        exact ⟨this.1, fun hxh => this.2 hxh o.row (by simp)⟩
      · intro o' ho' k hk
        obtain ⟨j1, j2, j3⟩ := c1 o' (by simp [ho']) k hk
        refine ⟨j1, j2, fun hn => j3 (slotAfter_none j2 ?_ hn o)⟩
        unfold keysOf
        exact List.mem_filterMap.2 ⟨o', ho', by rw [j1]; simpa using hk⟩
      · intro k x h0 hx
        have := c2 k x h0 ((slotAfter_snoc sch.keys l os o k).1 x hx)
        rw [rowsWith_append, hlast] at this
        split at this
        · refine ⟨fun e => ?_, fun e r hr => this.2 e r (by simp [hr])⟩
          obtain ⟨buf, hb⟩ := this.1 e
          obtain ⟨b, hb, _⟩ := applyRows_snoc lib (compile sch) _ o.row _ buf true hb
          exact ⟨b, hb⟩
        · rw [List.append_nil] at this; exact this
end

end Starbow.Props
