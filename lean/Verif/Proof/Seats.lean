import Verif.Spec.Seats
import Verif.Proof.StoreRun
/-
The table of a store keeps its keys where linear probing puts them.
-/
namespace Starbow.Storage
open Starbow.Collation Starbow.Spec Starbow.Props Starbow.Bufmap

theorem pos_candidates (l : Nat) (k : U64) (j : Nat) : Probe.pos l k j = (k.toNat + j) % l := by
  unfold Probe.pos
  rw [Nat.mod_add_mod]

/-- table and seating agree -/
structure Seated (l : Nat) (m : Map) (t : Seating) : Prop where
  key : ∀ k, k ≠ 0 → ∀ y, y < l → (m.keyAt y = k ↔ (k, y) ∈ t)
  nz : ∀ p ∈ t, p.1 ≠ 0 ∧ p.2 < l

theorem seated_slot {l s : Nat} {m : Map} (hw : WF l s m) {t : Seating} (h : Seated l m t) {k : U64} (hk : k ≠ 0) : slotOf m k = t.slot k := by
  cases hs : t.slot k with
  | none =>
    unfold Seating.slot at hs
    rw [Option.map_eq_none_iff, List.find?_eq_none] at hs
    rw [slotOf_none hw]
    intro y hy e
    exact hs (k, y) ((h.key k hk y hy).1 e) (by simp)
  | some x =>
    unfold Seating.slot at hs
    rw [Option.map_eq_some_iff] at hs
    obtain ⟨p, hp, rfl⟩ := hs
    have h1 := List.find?_some hp
    have h2 := List.mem_of_find?_eq_some hp
    have h1 : p.1 = k := by simpa using h1
    have hx := (h.nz p h2).2
    exact (slotOf_eq hw hk).2 ⟨hx, (h.key k hk _ hx).2 (by rw [← h1]; exact h2)⟩

theorem seated_free {l : Nat} {m : Map} {t : Seating} (h : Seated l m t) {y : Nat} (hy : y < l) : m.keyAt y = 0 ↔ y ∉ t.map Prod.snd := by
  constructor
  · intro e hm
    obtain ⟨p, hp, rfl⟩ := List.mem_map.1 hm
    obtain ⟨p0, _⟩ := h.nz p hp
    have := (h.key p.1 p0 p.2 hy).2 hp
    rw [e] at this
    exact p0 this.symm
  · intro hn
    by_contra e
    exact hn (List.mem_map.2 ⟨_, (h.key _ e y hy).1 rfl, rfl⟩)

section
variable {sch : Schema} {L : List (Owner × Cell)} {D : List (Bytes × Measure)} {pos : Int} {l : Nat}

theorem seated_new (hl : 0 < l) : Seated l (newStore sch l).backend [] := by
  refine ⟨?_, by simp⟩
  intro k hk y hy
  rw [keys_new hl y hy]
  exact ⟨fun e => absurd e.symm hk, fun h => by simp at h⟩

theorem seated_write (lib : Lib) (h : Laid ⟨compile sch, pos⟩ L D) {st : Store} (hg : Good sch L pos l st) (o : Obs) {t : Seating}
    (ht : Seated l st.backend t) : Seated l (write lib st o.canceled o.row).1.backend ((keysOf sch.keys [o]).foldl (Seating.see l) t) := by
  unfold keysOf
  cases write_cases lib h hg o.canceled o.row with
  | nokey hk e =>
    rw [e]
    cases hc : o.canceled <;> simp [hk, hc] <;> exact ht
  | refused k hk e he hwhy hw =>
    rw [hw]
    rcases hwhy with ⟨hc, _⟩ | ⟨hc, hz, _⟩ | ⟨hc, h0, _, hn, hfull⟩
    · simp [hc]; exact ht
    · simp [hc, hk, Seating.see, hz]; exact ht
    · simp only [List.filterMap_cons, List.filterMap_nil, hc, hk, Bool.false_eq_true, if_false, List.foldl_cons, List.foldl_nil]
      unfold Seating.see
      rw [← seated_slot hg.wf ht h0, hn, if_neg (by rintro (e | e); exacts [h0 e, e rfl])]
      have : ((candidates l k).find? fun x => decide (x ∉ t.map Prod.snd)) = none := by
        rw [List.find?_eq_none]
        intro x hx
        unfold candidates at hx
        obtain ⟨j, hj, rfl⟩ := List.mem_map.1 hx
        rw [List.mem_range] at hj
        rw [← pos_candidates]
        have hl : 0 < l := hg.wf.pos
        have := hfull j (by unfold Probe.maxReprobe; omega)
        rw [ne_eq, seated_free ht (Probe.pos_lt hl k j)] at this
        simpa using this
      rw [this]
      exact ht
  | ran k hk hc h0 x hx hxk hslot init hinit hdata hkeys e he hu hw =>
    rw [hw]
    simp only [List.filterMap_cons, List.filterMap_nil, hc, hk, Bool.false_eq_true, if_false, List.foldl_cons, List.foldl_nil]
    unfold Seating.see
    have hka : ∀ y, (after st.backend k x (Collation.update lib (compile sch) o.row (slotBytes st.backend x) init).1).keyAt y =
        if y = x then k else st.backend.keyAt y := fun y => congrFun (keyAt_after hg.wf k hx _) y
    rw [← seated_slot hg.wf ht h0]
    rcases hslot with hs | hs
    · rw [hs, if_pos (by simp)]
      refine ⟨?_, ht.nz⟩
      intro k' hk' y hy
      rw [hka]
      split
      · next e =>
        rw [e, ← ht.key k' hk' x hx, ((slotOf_eq hg.wf h0).1 hs).2]
      · exact ht.key k' hk' y hy
    · rw [hs, if_neg (by rintro (e | e); exacts [h0 e, e rfl])]
      have hl : 0 < l := hg.wf.pos
      have hx0 : st.backend.keyAt x = 0 := by
        rcases hxk with e | e
        · exact absurd e ((slotOf_none hg.wf).1 hs x hx)
        · exact e
      have hfind : ((candidates l k).find? fun x => decide (x ∉ t.map Prod.snd)) = some x := by
        obtain ⟨j, hj, ej, hprev⟩ := hkeys x hx (by simpa using h0)
        simp only [if_true] at ej hprev
        have hj : j ≤ 10 := hj
        unfold candidates
        rw [List.find?_map]
        have : ((List.range 11).find? ((fun x => decide (x ∉ t.map Prod.snd)) ∘ fun j => (k.toNat + j) % l)) = some j := by
          rw [List.find?_range_eq_some]
          refine ⟨?_, List.mem_range.2 (by omega), ?_⟩
          · show decide ((k.toNat + j) % l ∉ t.map Prod.snd) = true
            rw [← pos_candidates, ej]
            exact decide_eq_true ((seated_free ht hx).1 hx0)
          · intro i hi
            show (!decide ((k.toNat + i) % l ∉ t.map Prod.snd)) = true
            have hp := hprev i hi
            by_cases e : Probe.pos l k i = x
            · rw [if_pos e] at hp; exact absurd rfl hp.2
            · rw [if_neg e, ne_eq, seated_free ht (Probe.pos_lt hl k i), pos_candidates] at hp
              simpa using hp.1
        rw [this, Option.map_some, ← pos_candidates, ej]
      rw [hfind]
      refine ⟨?_, ?_⟩
      · intro k' hk' y hy
        rw [hka, List.mem_append, List.mem_singleton, Prod.mk.injEq, ← ht.key k' hk' y hy]
        split
        · next e =>
          subst e
          rw [hx0]
          constructor
          · intro e; exact .inr ⟨e.symm, rfl⟩
          · rintro (e | e)
            · exact absurd e.symm hk'
            · exact e.1.symm
        · next e =>
          constructor
          · exact .inl
          · rintro (e' | e')
            · exact e'
            · exact absurd e'.2 e
      · intro p hp
        rcases List.mem_append.1 hp with hp | hp
        · exact ht.nz p hp
        · rw [List.mem_singleton.1 hp]; exact ⟨h0, hx⟩

theorem keysOf_append (keys : List Bytes) (a b : List Obs) : keysOf keys (a ++ b) = keysOf keys a ++ keysOf keys b := by
  unfold keysOf
  rw [List.filterMap_append]

theorem seated_writes (lib : Lib) (h : Laid ⟨compile sch, pos⟩ L D) (os : List Obs) : ∀ {st : Store} {t : Seating}, Good sch L pos l st →
    Seated l st.backend t → Seated l (writes lib st os).1.backend ((keysOf sch.keys os).foldl (Seating.see l) t) := by
  induction os with
  | nil => intro st t _ ht; exact ht
  | cons o os ih =>
    intro st t hg ht
    have h1 := seated_write lib h hg o ht
    have h2 := ih (good_write lib h hg o.canceled o.row) h1
    rw [← List.singleton_append, keysOf_append, List.foldl_append]
    exact h2

/-- the slot of a key in a store's table -/
theorem slot_run (lib : Lib) (h : Laid ⟨compile sch, pos⟩ L D) (hl : 0 < l) (os : List Obs) {k : U64} (hk : k ≠ 0) :
    slotOf (writes lib (newStore sch l) os).1.backend k = slotAfter sch.keys l os k :=
  seated_slot (good_writes (l := l) lib h os (good_new h hl)).wf (seated_writes lib h os (good_new h hl) (seated_new hl)) hk

end

end Starbow.Storage
