import Verif.Props.CountLaw
/-
Property C88: the count of a key kept in one of the first slots goes down.
-/
namespace Starbow.Props
open Starbow.Collation Starbow.Spec Starbow.Storage Starbow.Server Starbow.Bufmap

/-- an observation of nothing but country ION -/
def ion : List FV := [⟨asc "country", asc "ION"⟩]

theorem ion_facts : Plainly ion ∧ keyValue ion Demo.country.keys = some 14390734045735915001 ∧ (∀ fv ∈ ion, fv.f = asc "country") := by decide +kernel

theorem ion_parse (env : Env) (hord : ∀ l, (env.ord l).Perm l) : Query.roughParse env.ord (countryQuery (asc "ION")) = .ok (countQuery ion) := by
  rw [roughParse_ord env.ord (q := countQuery ion) (by decide +kernel)]
  unfold countQuery
  simp only
  rw [List.perm_singleton.1 (hord _)]

/-- the first key seen gets its home slot and, seen again, keeps it -/
theorem ion_seat (n : Nat) (hn : 0 < n) : slotAfter Demo.country.keys Demo.slots ((List.replicate n ion).map obsOf) 14390734045735915001 = some 1 := by
  have hk : ∀ n, keysOf Demo.country.keys ((List.replicate n ion).map obsOf) = List.replicate n 14390734045735915001 := by
    intro n
    have hi : (if (obsOf ion).canceled then none else keyValue (obsOf ion).row.data Demo.country.keys) = some 14390734045735915001 := by
      rw [if_neg (by simp [obsOf])]; exact ion_facts.2.1
    rw [List.map_replicate]
    unfold keysOf
    induction n with
    | zero => rfl
    | succ n ih => rw [List.replicate_succ, List.filterMap_cons_some (f := fun o : Obs => if o.canceled then none else keyValue o.row.data Demo.country.keys) hi, ih]; rfl
  unfold slotAfter
  rw [hk]
  obtain ⟨m, rfl⟩ : ∃ m, n = m + 1 := ⟨n - 1, by omega⟩
  have h : ∀ m, seating Demo.slots (List.replicate (m + 1) 14390734045735915001) = [(14390734045735915001, 1)] := by
    intro m
    induction m with
    | zero => decide +kernel
    | succ m ih =>
      unfold seating at ih ⊢
      rw [List.replicate_succ', List.foldl_append, ih]
      decide +kernel
  rw [h m]
  decide +kernel

theorem ion_accepted (env : Env) (n : Nat) : AllAccepted env (List.replicate n ion) := by
  obtain ⟨f1, f2, f3⟩ := ion_facts
  have hall : ∀ fs ∈ List.replicate n ion, fs = ion := fun fs h => (List.mem_replicate.1 h).2
  have hC := C86_server env demoColls demoColls_valid (oneByOne (List.replicate n ion)) (oneByOne_correct fun fs h => by rw [hall fs h]; exact f1)
  simp only [demoColls_stores, oneByOne_obs] at hC
  refine hC.2 ?_
  intro c hc fs hfs hk
  have hn : 0 < n := by rcases List.mem_replicate.1 hfs with ⟨h, _⟩; omega
  obtain rfl := hall fs hfs
  simp only [demoColls, List.mem_cons, List.not_mem_nil, or_false] at hc
  rcases hc with rfl | rfl
  · refine ⟨?_, ?_, ?_, ?_⟩
    · simp only
      rw [f2]; decide
    · intro k hk
      simp only at hk ⊢
      rw [f2] at hk
      rw [← Option.some.inj hk, ion_seat n hn]; simp
    · intro fv hfv m hd hm
      rcases country_declares hd with ⟨_, e⟩ | ⟨e, _⟩ | ⟨_, e⟩
      · exact absurd e hm.1
      · rw [f3 fv hfv] at e; exact absurd e (by decide)
      · exact absurd e (hm.2 10)
    · intro k _ _ fv hfv p hd
      rcases country_declares hd with ⟨_, e⟩ | ⟨_, e⟩ | ⟨e, _⟩
      · simp at e
      · simp at e
      · rw [f3 fv hfv] at e; exact absurd e (by decide)
  · exfalso
    obtain ⟨fv, hfv, e⟩ := hk (asc "tz") (by simp [Demo.tz])
    rw [f3 fv hfv] at e; exact absurd e (by decide)

/-- after any number of posts of country ION, all accepted, its count is answered modulo 256: its slot is 1, and one byte of the count is read -/
theorem ion_count (env : Env) (hord : ∀ l, (env.ord l).Perm l) (n : Nat) (hn : 0 < n) :
    (Server.serve env (afterPosts env (List.replicate n ion)) (askFor (asc "country") (countryQuery (asc "ION")))).2 = .ok (echo ion ++ countLine env (n % 256)) := by
  obtain ⟨f1, f2, f3⟩ := ion_facts
  have hall : ∀ fs ∈ List.replicate n ion, fs = ion := fun fs h => (List.mem_replicate.1 h).2
  have := (C48_server_law env Demo.country country_valid (by decide) country_name Demo.slots (by decide) [] [newStore Demo.tz Demo.slots] (by simp)
    (oneByOne (List.replicate n ion)) (oneByOne_correct fun fs h => by rw [hall fs h]; exact f1) (ion_accepted env n) (countryQuery (asc "ION")) ion (ion_parse env hord)
    14390734045735915001 f2 (by decide)).2 1 (by rw [oneByOne_obs]; exact ion_seat n hn)
  rw [oneByOne_obs, country_size, if_neg (by decide)] at this
  refine Eq.trans this ?_
  rw [List.filter_eq_self.2 (fun fs h => by rw [hall fs h]; simp [f2]), List.length_replicate]
  rfl

/-- **C88 refuted** for counts of keys in the first slots: in the program, after 255 posts of country ION, all accepted, asking for its count is answered with 255; after one more, accepted too,
with 0. (Over HTTP, one request at a time, which is one of the interleavings of C88: C68_alone.) -/
theorem C88_count_refuted (env : Env) (hord : ∀ l, (env.ord l).Perm l) :
    AllAccepted env (List.replicate 256 ion) ∧
    (Server.serve env (afterPosts env (List.replicate 255 ion)) (askFor (asc "country") (countryQuery (asc "ION")))).2 = .ok (echo ion ++ countLine env 255) ∧
    (Server.serve env (afterPosts env (List.replicate 256 ion)) (askFor (asc "country") (countryQuery (asc "ION")))).2 = .ok (echo ion ++ countLine env 0) :=
  ⟨ion_accepted env 256, ion_count env hord 255 (by decide), ion_count env hord 256 (by decide)⟩

end Starbow.Props
