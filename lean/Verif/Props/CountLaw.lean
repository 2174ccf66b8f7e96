import Verif.Props.DisplacedServer
import Verif.Props.DisplacedDemo
import Verif.Props.EndToEnd
/-
Property theorems C48: the count of a key value over HTTP, wherever the key is kept.
-/
namespace Starbow.Props
open Starbow.Collation Starbow.Spec Starbow.Storage Starbow.Server Starbow.Bufmap

/-- **C48**, the exact law for the whole server. Start with any stores, one of them a fresh store for the collation. After any history of accepted
posts of correctly written observations and any other requests, with `n` the number of posted observations with the key of the criteria, `x` the slot of
that key (`slotAfter`: linear probing), `s` the size of a record and `m` the number of record measures, asking for count(*) is answered
* by the criteria alone if the key has no slot;
* not at all (the request panics) if x*(s+1) > l*s;
* else by the criteria and the number n mod 256^(x - 8(m-1)): only the first x bytes of the record are read. -/
theorem C48_server_law (env : Env) (sch : Schema) (hv : ValidSchema sch) (hd : sch.recordMeasures ≠ []) (hn : GoodName sch.name)
    (l : Nat) (hl : 0 < l) (a b : List Store) (ha : ∀ s ∈ a, s.coll.name ≠ sch.name)
    (steps : List Step) (hc : ∀ s ∈ steps, s.Correct)
    (hacc : List.Forall₂ Step.Accepted steps (serveAll env (a ++ newStore sch l :: b) (steps.map Step.request)).2)
    (text : Bytes) (crit : List FV) (hq : Query.roughParse env.ord text = .ok (countQuery crit))
    (k : U64) (hk : keyValue crit sch.keys = some k) (h0 : k ≠ 0) :
    (slotAfter sch.keys l ((observations steps).map obsOf) k = none →
      (Server.serve env (serveAll env (a ++ newStore sch l :: b) (steps.map Step.request)).1 (askFor sch.name text)).2 = .ok (echo crit)) ∧
    (∀ x, slotAfter sch.keys l ((observations steps).map obsOf) k = some x →
      (Server.serve env (serveAll env (a ++ newStore sch l :: b) (steps.map Step.request)).1 (askFor sch.name text)).2 =
        if x * ((compile sch).size.toNat + 1) > l * (compile sch).size.toNat then .panic
        else .ok (echo crit ++ countLine env (((observations steps).filter fun fs => keyValue fs sch.keys = some k).length %
          256 ^ (x - 8 * (sch.recordMeasures.length - 1))))) := by
  obtain ⟨a', os, b', e, hcoll, hobs, hall⟩ := steps_made env steps a (newStore sch l) b hc hacc
  obtain ⟨L, D, pos, h, hD⟩ := laid_compile sch hv
  have hslot : slotAfter sch.keys l ((observations steps).map obsOf) k = slotAfter sch.keys l os k := by
    unfold slotAfter
    rw [keysOf_data (fun o ho k hk => ((((accepted_law env.lib h hD hl os).1 hall).1 o ho k hk).1)), hobs]
  have hrows : (rowsWith sch.keys k os).length = ((observations steps).filter fun fs => keyValue fs sch.keys = some k).length := by
    unfold rowsWith
    rw [← hobs]
    simp only [List.filter_map, List.length_map]
    rfl
  have hname : (writes env.lib (newStore sch l) os).1.coll.name = sch.name := by rw [writes_coll]; exact compile_name sch
  obtain ⟨c1, c2⟩ := C48_law env.lib sch hv hd l hl os crit k hk h0
  rw [rowsFor_accepted env.lib (newStore sch l) os sch.keys k hall] at c1 c2
  rw [e, ask_serve env a' b' _ sch.name text hn (names_of_colls hcoll ha) hname _ hq, hslot, queryStores, if_pos hname, ← slot_run env.lib h hl os h0]
  constructor
  · intro hnone
    by_cases hz : (rowsWith sch.keys k os).length = 0
    · rw [c1 hz]
      exact congrArg Reply.ok (render_none env crit)
    · obtain ⟨x, _, hs, _⟩ := c2 (by omega)
      rw [hnone] at hs
      simp at hs
  · intro x hx
    have hpos : 0 < (rowsWith sch.keys k os).length := by
      rcases stored_run env.lib h hl h0 os with ⟨_, hs⟩ | ⟨hr, _⟩
      · rw [hx] at hs; simp at hs
      · rw [rowsFor_accepted env.lib (newStore sch l) os sch.keys k hall] at hr
        exact List.length_pos_iff.2 hr
    obtain ⟨y, _, hs, hread⟩ := c2 hpos
    rw [hx] at hs
    have := Option.some.inj hs
    subst this
    rw [hread, hrows]
    split_ifs with hp
    · rfl
    · exact congrArg Reply.ok (render_count env crit _)

/-- **C48**, the whole server, partial, wherever the keys are kept: if all posted observations with the key of the criteria agree with them on the key fields
and the slot of the key (`slotAfter`) is neither among the first (8 per record measure) nor among the last, the answer is the number of
observations posted that agree with the criteria on the key fields. Here other keys may share home slots. Missing: those slots and keys with equal hashes,
where it fails (`C48_server_law`, C49). -/
theorem C48_server_slot_partial (env : Env) (sch : Schema) (hv : ValidSchema sch) (hd : sch.recordMeasures ≠ []) (hn : GoodName sch.name)
    (l : Nat) (hl : 0 < l) (a b : List Store) (ha : ∀ s ∈ a, s.coll.name ≠ sch.name)
    (steps : List Step) (hc : ∀ s ∈ steps, s.Correct)
    (hacc : List.Forall₂ Step.Accepted steps (serveAll env (a ++ newStore sch l :: b) (steps.map Step.request)).2)
    (text : Bytes) (crit : List FV) (hq : Query.roughParse env.ord text = .ok (countQuery crit))
    (k : U64) (hk : keyValue crit sch.keys = some k) (h0 : k ≠ 0)
    (hagree : ∀ fs ∈ observations steps, keyValue fs sch.keys = some k → AgreeOn sch.keys fs crit)
    (x : Nat) (hx : slotAfter sch.keys l ((observations steps).map obsOf) k = some x)
    (hlow : 8 * sch.recordMeasures.length ≤ x) (hhigh : x * ((compile sch).size.toNat + 1) ≤ l * (compile sch).size.toNat) :
    (Server.serve env (serveAll env (a ++ newStore sch l :: b) (steps.map Step.request)).1 (askFor sch.name text)).2 =
      .ok (echo crit ++ countLine env ((observations steps).filter fun fs => AgreeOn sch.keys fs crit).length) := by
  rw [(C48_server_law env sch hv hd hn l hl a b ha steps hc hacc text crit hq k hk h0).2 x hx, if_neg (by omega)]
  have hf : ((observations steps).filter fun fs => keyValue fs sch.keys = some k) = ((observations steps).filter fun fs => AgreeOn sch.keys fs crit) := by
    apply List.filter_congr
    intro fs hfs
    rw [decide_eq_decide]
    exact ⟨hagree fs hfs, fun h2 => by rw [C28_key sch.keys fs crit h2, hk]⟩
  rw [hf]
  obtain ⟨n, hn⟩ : ∃ n, ((observations steps).filter fun fs => AgreeOn sch.keys fs crit).length = n := ⟨_, rfl⟩
  rw [hn]
  unfold countLine
  congr 6
  apply BitVec.eq_of_toNat_eq
  rw [BitVec.toNat_ofNat, BitVec.toNat_ofNat]
  have hlen : 0 < sch.recordMeasures.length := List.length_pos_iff.2 hd
  have : (2 : Nat) ^ 64 ∣ 256 ^ (x - 8 * (sch.recordMeasures.length - 1)) := by
    rw [show (256 : Nat) = 2 ^ 8 by decide, ← pow_mul]
    exact pow_dvd_pow 2 (by omega)
  exact Nat.mod_mod_of_dvd n this

theorem uzCount_parse (env : Env) (hord : ∀ l, (env.ord l).Perm l) :
    Query.roughParse env.ord (countryQuery (asc "UZ")) = .ok (countQuery [⟨asc "country", asc "UZ"⟩]) := by
  rw [roughParse_ord env.ord (q := countQuery [⟨asc "country", asc "UZ"⟩]) (by decide +kernel)]
  unfold countQuery
  simp only
  rw [List.perm_singleton.1 (hord _)]

/-- count(*) of UZ when it is in slot 301 -/
theorem uz_count (env : Env) (hord : ∀ l, (env.ord l).Perm l) {obs : List (List FV)} (hpl : ∀ fs ∈ obs, Plainly fs)
    (hacc : AllAccepted env obs) (hs : slotAfter Demo.country.keys Demo.slots (obs.map obsOf) 12582586190006355300 = some 301)
    (hagree : ∀ fs ∈ obs, keyValue fs Demo.country.keys = some 12582586190006355300 → AgreeOn Demo.country.keys fs [⟨asc "country", asc "UZ"⟩])
    {n : Nat} (hm : (obs.filter fun fs => AgreeOn Demo.country.keys fs [⟨asc "country", asc "UZ"⟩]).length = n) :
    (Server.serve env (afterPosts env obs) (askFor (asc "country") (countryQuery (asc "UZ")))).2 =
      .ok (echo [⟨asc "country", asc "UZ"⟩] ++ countLine env n) := by
  have := C48_server_slot_partial env Demo.country country_valid (by decide) country_name Demo.slots (by decide) [] [newStore Demo.tz Demo.slots] (by simp)
    (oneByOne obs) (oneByOne_correct hpl) hacc (countryQuery (asc "UZ")) [⟨asc "country", asc "UZ"⟩] (uzCount_parse env hord) 12582586190006355300
    gtUz_facts.2.2.2.2.2.2.2 (by decide) (by rw [oneByOne_obs]; exact hagree) 301 (by rw [oneByOne_obs]; exact hs) (by decide) (by rw [country_size]; decide)
  rw [oneByOne_obs, hm] at this
  exact this

/-- instance of `C48_server_slot_partial`: UZ displaced by GT to slot 301. After posts of GT, of UZ and of UZ again the count of UZ is 2. -/
example (env : Env) (hord : ∀ l, (env.ord l).Perm l)
    (h5 : env.lib.parseFloat (asc "5") = some (F64.ofNat 5)) (h3 : env.lib.parseFloat (asc "3") = some (F64.ofNat 3)) :
    (Server.serve env (afterPosts env gtUz) (askFor (asc "country") (countryQuery (asc "UZ")))).2 =
      .ok (echo [⟨asc "country", asc "UZ"⟩] ++ countLine env 2) := by
  obtain ⟨f1, f2, f3, f4, f5, f6, f7, f8⟩ := gtUz_facts
  have hagree : ∀ fs ∈ gtUz, keyValue fs Demo.country.keys = some 12582586190006355300 → AgreeOn Demo.country.keys fs [⟨asc "country", asc "UZ"⟩] := by
    decide +kernel
  exact uz_count env hord f1 (gtUz_accepted env h5 h3) f3 hagree (by decide +kernel)

end Starbow.Props
