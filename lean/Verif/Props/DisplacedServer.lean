import Verif.Props.Displaced
import Verif.Props.ServerStatsSeq
import Verif.Props.AcceptedAny
/-
Property theorems C59: the statistics of a key over HTTP, wherever it is kept.
-/
namespace Starbow.Props
open Starbow.Collation Starbow.Spec Starbow.Storage Starbow.Server

/-- only the key fields matter for the slots -/
theorem keysOf_data {keys : List Bytes} {os : List Obs} (hc : ∀ o ∈ os, ∀ k, keyValue o.row.data keys = some k → o.canceled = false) :
    keysOf keys os = keysOf keys ((os.map fun o => o.row.data).map obsOf) := by
  induction os with
  | nil => rfl
  | cons o os ih =>
    have ih := ih fun o' ho' => hc o' (by simp [ho'])
    unfold keysOf at ih ⊢
    rw [List.map_cons, List.map_cons, List.filterMap_cons, List.filterMap_cons, ih]
    have : (if o.canceled = true then none else keyValue o.row.data keys) =
        (if (obsOf o.row.data).canceled = true then none else keyValue (obsOf o.row.data).row.data keys) := by
      show _ = (if false = true then none else keyValue o.row.data keys)
      cases hk : keyValue o.row.data keys with
      | none => simp
      | some k => rw [hc o (by simp) k hk]
    rw [this]

/-- **C59**, the exact law for the whole server and all keys: start with any stores, one of them a fresh store for the collation. After any history of accepted
posts of correctly written observations and any other requests, with `x` the slot of a key value (`slotAfter`: linear probing) and `s` the size of a record,
every query about the key value is answered
* with no values if it has no slot;
* else not at all (the request panics) if x*(s+1) > l*s;
* else from the first x bytes, continued by zeros, of the record of exactly the posted observations with that key, in order (what it says is C25) if x is
the home slot, and of the record that treated each of these as its first if it is not (what it says is `C59_firsts`). -/
theorem C59_server_law (env : Env) (sch : Schema) (hv : ValidSchema sch) (hn : GoodName sch.name)
    (l : Nat) (hl : 0 < l) (a b : List Store) (ha : ∀ s ∈ a, s.coll.name ≠ sch.name)
    (steps : List Step) (hc : ∀ s ∈ steps, s.Correct)
    (hacc : List.Forall₂ Step.Accepted steps (serveAll env (a ++ newStore sch l :: b) (steps.map Step.request)).2)
    (crit : List FV) (k : U64) (hk : keyValue crit sch.keys = some k) (h0 : k ≠ 0) :
    (slotAfter sch.keys l ((observations steps).map obsOf) k = none → ∀ text sel, Query.roughParse env.ord text = .ok ⟨sel, crit⟩ →
      (Server.serve env (serveAll env (a ++ newStore sch l :: b) (steps.map Step.request)).1 (askFor sch.name text)).2 = .ok (render env crit [])) ∧
    (∀ x, slotAfter sch.keys l ((observations steps).map obsOf) k = some x →
      ∃ rows buf, rows.map Row.data = ((observations steps).filter fun fs => keyValue fs sch.keys = some k) ∧ buf.length = (compile sch).size.toNat ∧
      (x = k.toNat % l → RecordOf env.lib (compile sch) rows buf) ∧ (x ≠ k.toNat % l → FirstsOf env.lib (compile sch) rows buf) ∧
      ∀ text sel, Query.roughParse env.ord text = .ok ⟨sel, crit⟩ →
        (Server.serve env (serveAll env (a ++ newStore sch l :: b) (steps.map Step.request)).1 (askFor sch.name text)).2 =
          if x * ((compile sch).size.toNat + 1) > l * (compile sch).size.toNat then .panic
          else resultReply env crit (Collation.read env.lib (compile sch) sel (buf.take x ++ List.replicate (buf.length - x) 0#8))) := by
  obtain ⟨a', os, b', e, hcoll, hobs, hall⟩ := steps_made env steps a (newStore sch l) b hc hacc
  obtain ⟨L, D, pos, h, hD⟩ := laid_compile sch hv
  have hslot : slotAfter sch.keys l ((observations steps).map obsOf) k = slotAfter sch.keys l os k := by
    unfold slotAfter
    rw [keysOf_data (fun o ho k hk => ((((accepted_law env.lib h hD hl os).1 hall).1 o ho k hk).1)), hobs]
  have hrows : (rowsWith sch.keys k os).map Row.data = ((observations steps).filter fun fs => keyValue fs sch.keys = some k) := by
    unfold rowsWith
    rw [← hobs]
    simp only [List.filter_map, List.map_map]
    rfl
  obtain ⟨w1, w2⟩ := C59_law env.lib sch hv l hl os hall k h0
  have hserve : ∀ text sel, Query.roughParse env.ord text = .ok ⟨sel, crit⟩ →
      (Server.serve env (serveAll env (a ++ newStore sch l :: b) (steps.map Step.request)).1 (askFor sch.name text)).2 =
        queryStores env sch.name ⟨sel, crit⟩ ((writes env.lib (newStore sch l) os).1 :: b') := by
    intro text sel hq
    rw [e, ask_serve env a' b' _ sch.name text hn (names_of_colls hcoll ha) (by rw [writes_coll]; exact compile_name sch) _ hq]
  have hname : (writes env.lib (newStore sch l) os).1.coll.name = sch.name := by rw [writes_coll]; exact compile_name sch
  rw [hslot]
  constructor
  · intro hnone text sel hq
    rw [hserve text sel hq, queryStores, if_pos hname, w1 hnone _ hk]
    rfl
  · intro x hx
    obtain ⟨buf, b1, b2, b3, b4⟩ := w2 x hx
    refine ⟨_, buf, hrows, b1, b2, b3, ?_⟩
    intro text sel hq
    rw [hserve text sel hq, queryStores, if_pos hname, b4 _ hk]
    split_ifs with hp
    · rfl
    · simp only
      unfold answer resultReply
      obtain ⟨o, ho⟩ : ∃ o, Collation.read env.lib (compile sch) sel (buf.take x ++ List.replicate (buf.length - x) 0#8) = o := ⟨_, rfl⟩
      rw [ho]
      cases o with
      | panic => rfl
      | val r => obtain ⟨res, e⟩ := r; cases e <;> rfl

end Starbow.Props
