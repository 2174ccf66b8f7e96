import Verif.Proof.AcceptedAny
import Verif.Props.AcceptedDemo
import Mathlib.Data.Finset.Card
/-
Property theorems C87: how many key values a collation has room for. And C58: which key values an empty collation takes.
-/
namespace Starbow.Props
open Starbow.Collation Starbow.Spec Starbow.Storage Starbow.Server Starbow.Bufmap

/-! ### which keys are refused -/

theorem see_mem {l : Nat} {t : Seating} {k k' : U64} {x : Nat} (h : (k, x) ∈ Seating.see l t k') : (k, x) ∈ t ∨ (k = k' ∧ x ∈ candidates l k) := by
  unfold Seating.see at h
  split at h
  · exact .inl h
  · split at h
    · next y hy =>
      rcases List.mem_append.1 h with h | h
      · exact .inl h
      · rw [List.mem_singleton, Prod.mk.injEq] at h
        obtain ⟨rfl, rfl⟩ := h
        exact .inr ⟨rfl, List.mem_of_find?_eq_some hy⟩
    · exact .inl h

theorem seating_mem {l : Nat} {ks : List U64} {k : U64} {x : Nat} (h : (k, x) ∈ seating l ks) : k ∈ ks ∧ x ∈ candidates l k := by
  induction ks using List.reverseRecOn with
  | nil => simp [seating] at h
  | append_singleton ks k' ih =>
    unfold seating at h
    rw [List.foldl_append] at h
    rcases see_mem (show (k, x) ∈ Seating.see l (seating l ks) k' from h) with h' | ⟨rfl, h'⟩
    · obtain ⟨h1, h2⟩ := ih h'
      exact ⟨by simp [h1], h2⟩
    · exact ⟨by simp, h'⟩

theorem slotAfter_mem {keys : List Bytes} {l : Nat} {os : List Obs} {k : U64} {x : Nat} (h : slotAfter keys l os k = some x) :
    k ∈ keysOf keys os ∧ x ∈ candidates l k := by
  unfold slotAfter Seating.slot at h
  rw [Option.map_eq_some_iff] at h
  obtain ⟨p, hp, rfl⟩ := h
  have h1 : p.1 = k := by simpa using List.find?_some hp
  have h2 := List.mem_of_find?_eq_some hp
  rw [← h1]
  exact seating_mem (show (p.1, p.2) ∈ _ from h2)

/-- **C87**, the exact law: after any calls of Write on a fresh store of `l` slots, a further observation with a key (not 0) is refused for want of room if and
only if its key has no slot yet and each of its candidate slots, its home slot and the ten after it around the end, is the slot of another key. -/
theorem C87_law (lib : Lib) (sch : Schema) (hv : ValidSchema sch) (l : Nat) (hl : 0 < l) (os : List Obs) (r : Row) (k : U64)
    (hk : keyValue r.data sch.keys = some k) (h0 : k ≠ 0) :
    (write lib (writes lib (newStore sch l) os).1 false r).2 = .ret (some .outOfSlots) ↔
      slotAfter sch.keys l os k = none ∧ ∀ x ∈ candidates l k, ∃ k', k' ≠ 0 ∧ slotAfter sch.keys l os k' = some x := by
  obtain ⟨L, D, pos, h, hD⟩ := laid_compile sch hv
  have hg := good_writes (l := l) lib h os (good_new h hl)
  have hslot := fun k (h0 : k ≠ 0) => slot_run lib h hl os (k := k) h0
  have htaken : ∀ j, (∃ k', k' ≠ 0 ∧ slotAfter sch.keys l os k' = some (Probe.pos l k j)) ↔
      (writes lib (newStore sch l) os).1.backend.keyAt (Probe.pos l k j) ≠ 0 := by
    intro j
    constructor
    · rintro ⟨k', h0', hs⟩
      rw [← hslot k' h0'] at hs
      rw [((slotOf_eq hg.wf h0').1 hs).2]
      exact h0'
    · intro hne
      exact ⟨_, hne, by rw [← hslot _ hne]; exact (slotOf_eq hg.wf hne).2 ⟨Probe.pos_lt hl k j, rfl⟩⟩
  have hcand : (∀ x ∈ candidates l k, ∃ k', k' ≠ 0 ∧ slotAfter sch.keys l os k' = some x) ↔
      ∀ j, j ≤ Probe.maxReprobe → (writes lib (newStore sch l) os).1.backend.keyAt (Probe.pos l k j) ≠ 0 := by
    unfold candidates
    constructor
    · intro hx j hj
      refine (htaken j).1 ?_
      rw [pos_candidates]
      exact hx _ (List.mem_map.2 ⟨j, List.mem_range.2 (by unfold Probe.maxReprobe at hj; omega), rfl⟩)
    · intro hj x hx
      obtain ⟨j, hj', rfl⟩ := List.mem_map.1 hx
      rw [← pos_candidates]
      exact (htaken j).2 (hj j (by rw [List.mem_range] at hj'; unfold Probe.maxReprobe; omega))
  rw [hcand, ← hslot k h0]
  cases write_cases lib h hg false r with
  | nokey hk' e => rw [hk] at hk'; simp at hk'
  | refused k' hk' e he hwhy hw =>
    have : k = k' := by rw [hk] at hk'; exact Option.some.inj hk'
    subst this
    rw [hw]
    rcases hwhy with ⟨hc, _⟩ | ⟨_, hz, _⟩ | ⟨_, _, rfl, hn, hfull⟩
    · simp at hc
    · exact absurd hz h0
    · exact ⟨fun _ => ⟨hn, hfull⟩, fun _ => rfl⟩
  | ran k' hk' hc h0' x hx hxk hs init hinit hdata hkeys e he hu hw =>
    have : k = k' := by rw [hk] at hk'; exact Option.some.inj hk'
    subst this
    rw [hw]
    constructor
    · intro he'
      have he' : e = some .outOfSlots := by simpa using he'
      have := he _ he'
      simp [Inner] at this
    · rintro ⟨hn, hfull⟩
      exfalso
      have hx0 : (writes lib (newStore sch l) os).1.backend.keyAt x = 0 := by
        rcases hxk with e | e
        · exact absurd e ((slotOf_none hg.wf).1 hn x hx)
        · exact e
      obtain ⟨j, hj, ej, _⟩ := hkeys x hx (by simpa using h0)
      simp only [if_true] at ej
      exact hfull j hj (by rw [ej]; exact hx0)

/-! ### how many fit -/

theorem candidates_card {l : Nat} (hl : 0 < l) (k : U64) : min l 11 ≤ (candidates l k).toFinset.card := by
  have hinj : Set.InjOn (fun j => (k.toNat + j) % l) (Finset.range (min l 11) : Set Nat) := by
    intro i hi j hj e
    simp only [Finset.coe_range, Set.mem_Iio] at hi hj
    have e : (k.toNat + i) % l = (k.toNat + j) % l := e
    have hi : i < l := by omega
    have hj : j < l := by omega
    have := Nat.ModEq.add_left_cancel' k.toNat (show k.toNat + i ≡ k.toNat + j [MOD l] from e)
    unfold Nat.ModEq at this
    rwa [Nat.mod_eq_of_lt hi, Nat.mod_eq_of_lt hj] at this
  have h1 := Finset.card_image_of_injOn hinj
  rw [Finset.card_range] at h1
  rw [← h1]
  apply Finset.card_le_card
  intro x hx
  rw [Finset.mem_image] at hx
  obtain ⟨j, hj, rfl⟩ := hx
  rw [Finset.mem_range] at hj
  rw [List.mem_toFinset]
  exact List.mem_map.2 ⟨j, List.mem_range.2 (by omega), rfl⟩

theorem seats_nodup (l : Nat) (ks : List U64) : ((seating l ks).map Prod.fst).Nodup ∧ ((seating l ks).map Prod.snd).Nodup := by
  induction ks using List.reverseRecOn with
  | nil => simp [seating]
  | append_singleton ks k' ih =>
    have e : seating l (ks ++ [k']) = Seating.see l (seating l ks) k' := by unfold seating; rw [List.foldl_append]; rfl
    rw [e]
    unfold Seating.see
    split
    · exact ih
    · next hc =>
      push Not at hc
      split
      · next y hy =>
        have hy := List.find?_some hy
        simp only [List.map_append, List.map_cons, List.map_nil]
        refine ⟨?_, ?_⟩
        · rw [List.nodup_append]
          refine ⟨ih.1, by simp, ?_⟩
          rintro a ha b hb rfl
          rw [List.mem_singleton] at hb
          subst hb
          obtain ⟨p, hp, rfl⟩ := List.mem_map.1 ha
          have h2 := hc.2
          unfold Seating.slot at h2
          rw [Option.map_eq_none_iff, List.find?_eq_none] at h2
          exact h2 p hp (by simp)
        · rw [List.nodup_append]
          refine ⟨ih.2, by simp, ?_⟩
          rintro a ha b hb rfl
          rw [List.mem_singleton] at hb
          subst hb
          exact absurd ha (by simpa using hy)
      · exact ih

theorem slot_mem {t : Seating} {k : U64} {x : Nat} (h : t.slot k = some x) : (k, x) ∈ t := by
  unfold Seating.slot at h
  rw [Option.map_eq_some_iff] at h
  obtain ⟨p, hp, rfl⟩ := h
  have h1 : p.1 = k := by simpa using List.find?_some hp
  rw [← h1]
  exact List.mem_of_find?_eq_some hp

/-- a slot has one key -/
theorem seat_one {keys : List Bytes} {l : Nat} {os : List Obs} {a b : U64} {x : Nat} (ha : slotAfter keys l os a = some x)
    (hb : slotAfter keys l os b = some x) : a = b := by
  have h1 := slot_mem ha
  have h2 := slot_mem hb
  have := List.inj_on_of_nodup_map (seats_nodup l (keysOf keys os)).2 h1 h2 rfl
  exact congrArg Prod.fst this

/-- few keys all find slots -/
theorem few_seated {keys : List Bytes} {l : Nat} (hl : 0 < l) {os : List Obs} (hfew : (keysOf keys os).toFinset.card ≤ min l 11) {k : U64} (h0 : k ≠ 0)
    (hk : k ∈ keysOf keys os) : slotAfter keys l os k ≠ none := by
  intro hn
  have hall := seating_none h0 hk hn
  have hall : ∀ x ∈ candidates l k, ∃ k', (k', x) ∈ seating l (keysOf keys os) := by
    intro x hx
    obtain ⟨p, hp, rfl⟩ := List.mem_map.1 (hall x hx)
    exact ⟨p.1, hp⟩
  choose! g hg using hall
  have hmaps : ∀ x ∈ (candidates l k).toFinset, g x ∈ ((keysOf keys os).toFinset.erase k) := by
    intro x hx
    rw [List.mem_toFinset] at hx
    rw [Finset.mem_erase, List.mem_toFinset]
    refine ⟨?_, (seating_mem (hg x hx)).1⟩
    intro e
    have h1 := hg x hx
    rw [e] at h1
    unfold slotAfter Seating.slot at hn
    rw [Option.map_eq_none_iff, List.find?_eq_none] at hn
    exact hn _ h1 (by simp)
  have hinj : Set.InjOn g ((candidates l k).toFinset : Set Nat) := by
    intro x hx y hy e
    simp only [List.coe_toFinset, Set.mem_ofPred_eq] at hx hy
    have h1 := hg x hx
    have h2 := hg y hy
    rw [e] at h1
    exact congrArg Prod.snd (List.inj_on_of_nodup_map (seats_nodup l (keysOf keys os)).1 h1 h2 rfl)
  have hle := Finset.card_le_card_of_injOn g hmaps hinj
  have hmem : k ∈ (keysOf keys os).toFinset := by simp [hk]
  rw [Finset.card_erase_of_mem hmem] at hle
  have hpos : 0 < (keysOf keys os).toFinset.card := Finset.card_pos.2 ⟨k, hmem⟩
  have := candidates_card hl k
  omega

/-- **C87**, partial: as long as no more different keys have been seen than there are slots, nor more than 11, no observation is refused for want of room.
Missing: more than 11 keys, where it fails (`C87_crowd_refuted`, `C87_uz_refuted`). -/
theorem C87_partial (lib : Lib) (sch : Schema) (hv : ValidSchema sch) (l : Nat) (hl : 0 < l) (os : List Obs) (r : Row) (k : U64)
    (hk : keyValue r.data sch.keys = some k) (h0 : k ≠ 0) (hfew : (k :: keysOf sch.keys os).toFinset.card ≤ min l 11) :
    (write lib (writes lib (newStore sch l) os).1 false r).2 ≠ .ret (some .outOfSlots) := by
  intro hfull
  obtain ⟨hn, hall⟩ := (C87_law lib sch hv l hl os r k hk h0).1 hfull
  choose! g hg using hall
  have hmaps : ∀ x ∈ (candidates l k).toFinset, g x ∈ ((k :: keysOf sch.keys os).toFinset.erase k) := by
    intro x hx
    rw [List.mem_toFinset] at hx
    obtain ⟨h1, h2⟩ := hg x hx
    have h3 := (slotAfter_mem h2).1
    rw [Finset.mem_erase, List.mem_toFinset]
    refine ⟨?_, by simp [h3]⟩
    intro e
    rw [e, hn] at h2
    simp at h2
  have hinj : Set.InjOn g ((candidates l k).toFinset : Set Nat) := by
    intro x hx y hy e
    simp only [List.coe_toFinset, Set.mem_ofPred_eq] at hx hy
    have h1 := (hg x hx).2
    have h2 := (hg y hy).2
    rw [e, h2] at h1
    exact (Option.some.inj h1).symm
  have hle := Finset.card_le_card_of_injOn g hmaps hinj
  have hmem : k ∈ (k :: keysOf sch.keys os).toFinset := by simp
  rw [Finset.card_erase_of_mem hmem] at hle
  have hpos : 0 < (k :: keysOf sch.keys os).toFinset.card := Finset.card_pos.2 ⟨k, hmem⟩
  have := candidates_card hl k
  omega

/-- **C87**, the other direction: never more different keys are accepted than there are slots -/
theorem C87_at_most (lib : Lib) (sch : Schema) (hv : ValidSchema sch) (l : Nat) (hl : 0 < l) (os : List Obs)
    (hall : ∀ p ∈ (writes lib (newStore sch l) os).2, p.2 = .ret none) : (keysOf sch.keys os).toFinset.card ≤ l := by
  obtain ⟨L, D, pos, h, hD⟩ := laid_compile sch hv
  have hg := good_writes (l := l) lib h os (good_new h hl)
  have hslot := fun k (h0 : k ≠ 0) => slot_run lib h hl os (k := k) h0
  have hx : ∀ k ∈ keysOf sch.keys os, ∃ x, k ≠ 0 ∧ slotAfter sch.keys l os k = some x := by
    intro k hk
    obtain ⟨o, ho, hko⟩ := List.mem_filterMap.1 hk
    have hko : keyValue o.row.data sch.keys = some k := by
      split at hko
      · simp at hko
      · exact hko
    obtain ⟨_, h0, hs⟩ := ((accepted_law lib h hD hl os).1 hall).1 o ho k hko
    obtain ⟨x, hx⟩ := Option.ne_none_iff_exists'.1 hs
    exact ⟨x, h0, hx⟩
  choose! g hg' using hx
  rw [← Finset.card_range l]
  refine Finset.card_le_card_of_injOn g ?_ ?_
  · intro k hk
    simp only [List.coe_toFinset, Set.mem_ofPred_eq] at hk
    obtain ⟨h0, this⟩ := hg' k hk
    rw [← hslot k h0] at this
    simp only [Finset.coe_range, Set.mem_Iio]
    exact ((slotOf_eq hg.wf h0).1 this).1
  · intro a ha b hb e
    simp only [List.coe_toFinset, Set.mem_ofPred_eq] at ha hb
    obtain ⟨a0, h1⟩ := hg' a ha
    obtain ⟨b0, h2⟩ := hg' b hb
    rw [← hslot _ a0] at h1
    rw [← hslot _ b0] at h2
    rw [← ((slotOf_eq hg.wf a0).1 h1).2, ← ((slotOf_eq hg.wf b0).1 h2).2, e]

/-- **C87**, partial: any number of keys fit if no two of them share a home slot. Missing: keys that share home slots. -/
theorem C87_apart_partial (lib : Lib) (sch : Schema) (hv : ValidSchema sch) (l : Nat) (hl : 0 < l) (os : List Obs) (r : Row) (k : U64)
    (hk : keyValue r.data sch.keys = some k) (h0 : k ≠ 0) (happ : HomesApart sch.keys l (os ++ [⟨r, false⟩])) :
    (write lib (writes lib (newStore sch l) os).1 false r).2 ≠ .ret (some .outOfSlots) := by
  intro hfull
  obtain ⟨hn, hall⟩ := (C87_law lib sch hv l hl os r k hk h0).1 hfull
  obtain ⟨L, D, pos, h, hD⟩ := laid_compile sch hv
  obtain ⟨k', h0', hs⟩ := hall (k.toNat % l) (List.mem_map.2 ⟨0, by simp, rfl⟩)
  have happ' : HomesApart sch.keys l os := fun o ho o' ho' => happ o (by simp [ho]) o' (by simp [ho'])
  have hhome := home_run lib h hl os happ' h0' ((slot_run lib h hl os h0').trans hs)
  obtain ⟨o, ho, hko⟩ := List.mem_filterMap.1 (slotAfter_mem hs).1
  have hko : keyValue o.row.data sch.keys = some k' := by
    split at hko
    · simp at hko
    · exact hko
  have := happ o (by simp [ho]) ⟨r, false⟩ (by simp) k' k hko hk hhome.symm
  rw [this, hn] at hs
  simp at hs

/-- **C87 fails**: whatever the number of slots, if the eleven candidate slots of a key have been taken by others, it is refused; for example by the first
eleven keys seen that have its home slot. -/
theorem C87_crowd_refuted (lib : Lib) (sch : Schema) (hv : ValidSchema sch) (l : Nat) (hl : 11 ≤ l) (os : List Obs) (r : Row) (k : U64)
    (hk : keyValue r.data sch.keys = some k) (h0 : k ≠ 0) (hnd : (keysOf sch.keys os).Nodup) (hlen : (keysOf sch.keys os).length = 11)
    (hhome : ∀ k' ∈ keysOf sch.keys os, k' ≠ 0 ∧ k' ≠ k ∧ k'.toNat % l = k.toNat % l) :
    (write lib (writes lib (newStore sch l) os).1 false r).2 = .ret (some .outOfSlots) := by
  refine (C87_law lib sch hv l (by omega) os r k hk h0).2 ⟨?_, ?_⟩
  · cases hs : slotAfter sch.keys l os k with
    | none => rfl
    | some x => exact absurd rfl (hhome k (slotAfter_mem hs).1).2.1
  · have hcard : (keysOf sch.keys os).toFinset.card = 11 := by rw [List.toFinset_card_of_nodup hnd, hlen]
    have hx : ∀ k' ∈ keysOf sch.keys os, ∃ x, slotAfter sch.keys l os k' = some x := fun k' hk' =>
      Option.ne_none_iff_exists'.1 (few_seated (by omega) (by omega) (hhome k' hk').1 hk')
    choose! g hg using hx
    have hcand : ∀ k' ∈ keysOf sch.keys os, candidates l k' = candidates l k := by
      intro k' hk'
      unfold candidates
      refine List.map_congr_left ?_
      intro j _
      rw [Nat.add_mod, (hhome k' hk').2.2, ← Nat.add_mod]
    have hinj : Set.InjOn g ((keysOf sch.keys os).toFinset : Set U64) := by
      intro a ha b hb e
      simp only [List.coe_toFinset, Set.mem_ofPred_eq] at ha hb
      have h1 := hg a ha
      have h2 := hg b hb
      rw [e] at h1
      exact seat_one h1 h2
    have himg : (keysOf sch.keys os).toFinset.image g = (candidates l k).toFinset := by
      apply Finset.eq_of_subset_of_card_le
      · intro x hx
        rw [Finset.mem_image] at hx
        obtain ⟨k', hk', rfl⟩ := hx
        rw [List.mem_toFinset] at hk' ⊢
        rw [← hcand k' hk']
        exact (slotAfter_mem (hg k' hk')).2
      · rw [Finset.card_image_of_injOn hinj, hcard]
        refine (List.toFinset_card_le _).trans ?_
        unfold candidates
        rw [List.length_map, List.length_range]
    intro x hx
    rw [← List.mem_toFinset, ← himg, Finset.mem_image] at hx
    obtain ⟨k', hk', rfl⟩ := hx
    rw [List.mem_toFinset] at hk'
    exact ⟨k', (hhome k' hk').1, hg k' hk'⟩

/-! ### C58 -/

/-- **C58**, the exact law: an empty store takes an observation that has the key fields if and only if its key is not 0 and its values are numbers wherever a
number is wanted. -/
theorem C58_law (lib : Lib) (sch : Schema) (hv : ValidSchema sch) (l : Nat) (hl : 0 < l) (r : Row) (k : U64) (hk : keyValue r.data sch.keys = some k) :
    (write lib (newStore sch l) false r).2 = .ret none ↔ k ≠ 0 ∧
      ∀ fv ∈ r.data, ∀ m, Declares sch fv.f m → (m ≠ .count ∧ ∀ p, m ≠ .cardinality p) → lib.parseFloat fv.v ≠ none := by
  obtain ⟨L, D, pos, h, hD⟩ := laid_compile sch hv
  have hg := good_new (l := l) h hl
  cases write_cases lib h hg false r with
  | nokey hk' e => rw [hk] at hk'; simp at hk'
  | refused k' hk' e he hwhy hw =>
    have : k = k' := by rw [hk] at hk'; exact Option.some.inj hk'
    subst this
    rw [hw]
    refine ⟨fun h => by simp at h, ?_⟩
    rintro ⟨h0, _⟩
    exfalso
    rcases hwhy with ⟨hc, _⟩ | ⟨_, hz, _⟩ | ⟨_, _, _, hn, hfull⟩
    · simp at hc
    · exact h0 hz
    · obtain ⟨j, hj, hr⟩ := room_new (sch := sch) hl k
      exact hfull j hj hr
  | ran k' hk' hc h0' x hx hxk hslot init hinit hdata hkeys e he hu hw =>
    have : k = k' := by rw [hk] at hk'; exact Option.some.inj hk'
    subst this
    have hnone : Spec.slotOf (newStore sch l).backend k = none := by
      rcases stored_new (sch := sch) lib hl k h0' with ⟨_, hn⟩ | ⟨hne, _⟩
      · exact hn
      · exact absurd rfl hne
    have hi : init = true := by rw [hinit, hnone]; simp
    subst hi
    rw [hw]
    have := update_new_iff lib h hD (hg.hold x hx) r hu
    unfold Numbers at this
    exact ⟨fun he' => ⟨h0', this.1 (by simpa using he')⟩, fun hn => by rw [this.2 hn.2]⟩

theorem high_facts : ∃ k, keyValue (gt ++ [⟨asc "height", asc "high"⟩]) Demo.country.keys = some k := by
  refine ⟨12582601583169150300, ?_⟩
  decide +kernel

/-- instance of `C58_law`: GT alone, and with a height that is no number -/
example (lib : Lib) (h5 : lib.parseFloat (asc "high") = none) :
    (write lib (newStore Demo.country Demo.slots) false ⟨0, gt⟩).2 = .ret none ∧
    (write lib (newStore Demo.country Demo.slots) false ⟨0, gt ++ [⟨asc "height", asc "high"⟩]⟩).2 ≠ .ret none := by
  constructor
  · refine (C58_law lib Demo.country country_valid Demo.slots (by decide) ⟨0, gt⟩ _ gt_uz_facts.1).2 ⟨by decide, ?_⟩
    exact gt_uz_number lib gt (by simp)
  · intro hr
    obtain ⟨k, hk⟩ := high_facts
    obtain ⟨d, hd⟩ : ∃ d, d = gt ++ [⟨asc "height", asc "high"⟩] := ⟨_, rfl⟩
    rw [← hd] at hr hk
    exact ((C58_law lib Demo.country country_valid Demo.slots (by decide) ⟨0, d⟩ k hk).1 hr).2
      ⟨asc "height", asc "high"⟩ (by simp [hd]) .sum (.inr ⟨by simp, _, List.mem_cons_self .., by simp⟩) ⟨by simp, by simp⟩ h5

end Starbow.Props
