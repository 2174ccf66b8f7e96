import Verif.Props.Capacity
import Verif.Props.DisplacedServer
import Verif.Props.ReadPanic
/-
Instances of C87: in the program the twelfth country can be one too many.
-/
namespace Starbow.Props
open Starbow.Collation Starbow.Spec Starbow.Storage Starbow.Server

/-- eleven two-letter codes of countries -/
def elevenCodes : List (List FV) :=
  [asc "GT", asc "GU", asc "GV", asc "GW", asc "UV", asc "UW", asc "UT", asc "UU", asc "UR", asc "US", asc "UP"].map fun c => [⟨asc "country", c⟩]

/-- their keys -/
def elevenKeys : List U64 := [12582601583169150300, 12582601583169150301, 12582601583169150302, 12582601583169150303, 12582586190006355304, 12582586190006355305, 12582586190006355306, 12582586190006355307, 12582586190006355308, 12582586190006355309, 12582586190006355310]

theorem eleven_keys : elevenCodes.map (fun fs => keyValue fs Demo.country.keys) = elevenKeys.map some := by decide +kernel

theorem eleven_keysOf : keysOf Demo.country.keys (elevenCodes.map obsOf) = elevenKeys := by
  have h : elevenCodes.filterMap (fun fs => keyValue fs Demo.country.keys) = elevenKeys := by
    have e : elevenCodes.filterMap (fun fs => keyValue fs Demo.country.keys) =
        (elevenCodes.map fun fs => keyValue fs Demo.country.keys).filterMap id := by rw [List.filterMap_map]; rfl
    rw [e, eleven_keys, List.filterMap_map]
    exact List.filterMap_some
  rw [← h]
  unfold keysOf
  rw [List.filterMap_map]
  rfl

theorem eleven_seats : seating Demo.slots elevenKeys = elevenKeys.zip (List.range' 300 11) := by decide +kernel

theorem eleven_slots (k : U64) : slotAfter Demo.country.keys Demo.slots (elevenCodes.map obsOf) k = Seating.slot (elevenKeys.zip (List.range' 300 11)) k := by
  unfold slotAfter
  rw [eleven_keysOf, eleven_seats]

theorem eleven_none : Seating.slot (elevenKeys.zip (List.range' 300 11)) 12582586190006355300 = none := by decide +kernel

theorem eleven_all : ∀ k ∈ elevenKeys, k ≠ 0 ∧ Seating.slot (elevenKeys.zip (List.range' 300 11)) k ≠ none := by
  have : elevenKeys.all (fun k => decide (k ≠ 0 ∧ Seating.slot (elevenKeys.zip (List.range' 300 11)) k ≠ none)) = true := by decide +kernel
  intro k hk
  exact of_decide_eq_true (List.all_eq_true.1 this k hk)

theorem eleven_full : ∀ x ∈ candidates Demo.slots 12582586190006355300, ∃ k' ∈ elevenKeys, k' ≠ 0 ∧
    Seating.slot (elevenKeys.zip (List.range' 300 11)) k' = some x := by
  have : (candidates Demo.slots 12582586190006355300).all (fun x =>
    elevenKeys.any fun k' => decide (k' ≠ 0 ∧ Seating.slot (elevenKeys.zip (List.range' 300 11)) k' = some x)) = true := by decide +kernel
  intro x hx
  obtain ⟨k', h1, h2⟩ := List.any_eq_true.1 (List.all_eq_true.1 this x hx)
  exact ⟨k', h1, of_decide_eq_true h2⟩

theorem eleven_facts : (∀ fs ∈ elevenCodes, Plainly fs) ∧
    (∀ fs ∈ elevenCodes, ∀ k, keyValue fs Demo.country.keys = some k → k ≠ 0 ∧ slotAfter Demo.country.keys Demo.slots (elevenCodes.map obsOf) k ≠ none) ∧
    (∀ fs ∈ elevenCodes, ∀ fv ∈ fs, fv.f ≠ asc "height" ∧ fv.f ≠ asc "iata" ∧ fv.f ≠ asc "tz") ∧
    slotAfter Demo.country.keys Demo.slots (elevenCodes.map obsOf) 12582586190006355300 = none ∧
    (∀ x ∈ candidates Demo.slots 12582586190006355300, ∃ k' ∈ keysOf Demo.country.keys (elevenCodes.map obsOf), k' ≠ 0 ∧
      slotAfter Demo.country.keys Demo.slots (elevenCodes.map obsOf) k' = some x) ∧
    keyValue [⟨asc "country", asc "UZ"⟩] Demo.country.keys = some 12582586190006355300 := by
  refine ⟨by decide +kernel, ?_, by decide +kernel, (eleven_slots _).trans eleven_none, ?_, by decide +kernel⟩
  · intro fs hfs k hk
    rw [eleven_slots]
    refine eleven_all k ?_
    have : some k ∈ elevenCodes.map fun fs => keyValue fs Demo.country.keys := List.mem_map.2 ⟨fs, hfs, hk⟩
    rw [eleven_keys, List.mem_map] at this
    obtain ⟨k', hk', e⟩ := this
    rw [← Option.some.inj e]
    exact hk'
  · intro x hx
    obtain ⟨k', h1, h2, h3⟩ := eleven_full x hx
    exact ⟨k', by rw [eleven_keysOf]; exact h1, h2, (eleven_slots k').trans h3⟩

theorem eleven_accepted (env : Env) : AllAccepted env elevenCodes := by
  obtain ⟨f1, f2, f3, _⟩ := eleven_facts
  have hC := C86_server env demoColls demoColls_valid (oneByOne elevenCodes) (oneByOne_correct f1)
  simp only [demoColls_stores, oneByOne_obs] at hC
  refine hC.2 ?_
  intro c hc fs hfs hk
  simp only [demoColls, List.mem_cons, List.not_mem_nil, or_false] at hc
  rcases hc with rfl | rfl
  · refine ⟨?_, ?_, ?_, ?_⟩
    · intro e
      exact (f2 fs hfs 0 e).1 rfl
    · intro k hk
      exact (f2 fs hfs k hk).2
    · intro fv hfv m hd hm
      rcases country_declares hd with ⟨_, e⟩ | ⟨e, _⟩ | ⟨_, e⟩
      · exact absurd e hm.1
      · exact absurd e (f3 fs hfs fv hfv).1
      · exact absurd e (hm.2 10)
    · intro k _ _ fv hfv p hd
      rcases country_declares hd with ⟨_, e⟩ | ⟨_, e⟩ | ⟨e, _⟩
      · simp at e
      · simp at e
      · exact absurd e (f3 fs hfs fv hfv).2.1
  · exfalso
    obtain ⟨fv, hfv, e⟩ := hk (asc "tz") (by simp [Demo.tz])
    exact (f3 fs hfs fv hfv).2.2 e

/-- posting UZ when it finds no slot -/
theorem uz_refused (env : Env) {obs : List (List FV)} (hpl : ∀ fs ∈ obs, Plainly fs) (hacc : AllAccepted env obs)
    (hn : slotAfter Demo.country.keys Demo.slots (obs.map obsOf) 12582586190006355300 = none)
    (hfull : ∀ x ∈ candidates Demo.slots 12582586190006355300, ∃ k' ∈ keysOf Demo.country.keys (obs.map obsOf), k' ≠ 0 ∧
      slotAfter Demo.country.keys Demo.slots (obs.map obsOf) k' = some x) :
    (Server.serve env (afterPosts env obs) (post (asc "0;country=UZ" ++ [0x0a]))).2 = .refused 500 := by
  obtain ⟨a', os, b', e, hcoll, hobs, hall⟩ := steps_made env (oneByOne obs) [] (newStore Demo.country Demo.slots) [newStore Demo.tz Demo.slots]
    (oneByOne_correct hpl) hacc
  obtain ⟨L, D, pos, h, hD⟩ := laid_compile Demo.country country_valid
  have ha' : a' = [] := by
    cases a' with
    | nil => rfl
    | cons s a' => simp at hcoll
  subst ha'
  rw [List.nil_append, List.nil_append] at e
  rw [oneByOne_obs] at hobs
  have hslot : ∀ k, slotAfter Demo.country.keys Demo.slots (obs.map obsOf) k = slotAfter Demo.country.keys Demo.slots os k := by
    intro k
    unfold slotAfter
    rw [keysOf_data (fun o ho k hk => ((((accepted_law env.lib h hD (by decide) os).1 hall).1 o ho k hk).1)), hobs]
  have hw := (C87_law env.lib Demo.country country_valid Demo.slots (by decide) os ⟨0, [⟨asc "country", asc "UZ"⟩]⟩ 12582586190006355300
    eleven_facts.2.2.2.2.2 (by decide)).2 ⟨by rw [← hslot]; exact hn, by
      intro x hx
      obtain ⟨k', _, h1, h2⟩ := hfull x hx
      exact ⟨k', h1, by rw [← hslot]; exact h2⟩⟩
  have hp : parseRow (noCR (asc "0;country=UZ")) = .val (.ok ⟨0, [⟨asc "country", asc "UZ"⟩]⟩) := by decide +kernel
  have hline : LineOk (asc "0;country=UZ") := ⟨by decide +kernel, by decide +kernel⟩
  have hst : (write env.lib (writes env.lib (newStore Demo.country Demo.slots) os).1 false ⟨0, [⟨asc "country", asc "UZ"⟩]⟩).2 ≠ .ret none := by
    rw [hw]; simp
  have hserve := C43_store_fails env [] b' _ _ hline _ hp (by simp) hst
  unfold afterPosts
  rw [show Demo.stores = [newStore Demo.country Demo.slots, newStore Demo.tz Demo.slots] from rfl, e]
  rw [List.nil_append] at hserve
  rw [hserve, hw]
  rfl

/-- **C87 fails** in the program, over HTTP: after posts of eleven countries, all accepted, the post of a twelfth is refused with status 500, in a collation of
5000 slots. -/
theorem C87_uz_refuted (env : Env) : Demo.slots = 5000 ∧ elevenCodes.length = 11 ∧ AllAccepted env elevenCodes ∧
    (Server.serve env (afterPosts env elevenCodes) (post (asc "0;country=UZ" ++ [0x0a]))).2 = .refused 500 := by
  obtain ⟨f1, f2, f3, f4, f5, f6⟩ := eleven_facts
  have hacc := eleven_accepted env
  exact ⟨rfl, rfl, hacc, uz_refused env f1 hacc f4 f5⟩

/-- instance of `C87_partial`: ten countries, and UZ is not refused for want of room -/
example (lib : Lib) : (write lib (writes lib (newStore Demo.country Demo.slots) ((elevenCodes.take 10).map obsOf)).1 false ⟨0, [⟨asc "country", asc "UZ"⟩]⟩).2 ≠
    .ret (some .outOfSlots) :=
  C87_partial lib Demo.country country_valid Demo.slots (by decide) _ ⟨0, [⟨asc "country", asc "UZ"⟩]⟩ 12582586190006355300 eleven_facts.2.2.2.2.2 (by decide)
    (by decide +kernel)

/-- instance of `C87_law`: eleven countries, and it is -/
example (lib : Lib) : (write lib (writes lib (newStore Demo.country Demo.slots) (elevenCodes.map obsOf)).1 false ⟨0, [⟨asc "country", asc "UZ"⟩]⟩).2 =
    .ret (some .outOfSlots) :=
  (C87_law lib Demo.country country_valid Demo.slots (by decide) _ ⟨0, [⟨asc "country", asc "UZ"⟩]⟩ 12582586190006355300 eleven_facts.2.2.2.2.2 (by decide)).2
    ⟨eleven_facts.2.2.2.1, fun x hx => by
      obtain ⟨k', _, h⟩ := eleven_facts.2.2.2.2.1 x hx
      exact ⟨k', h⟩⟩

end Starbow.Props
