import Verif.Props.DisplacedServer
import Verif.Props.ReadPanic
/-
Property theorems C83: exactly when a query panics, wherever the key is kept.
-/
namespace Starbow.Props
open Starbow.Collation Starbow.Spec Starbow.Storage Starbow.Server Starbow.Bufmap

/-- the first byte of the counter of `f` tells whether the record reports a uniquecount -/
theorem counter_byte (lib : Lib) {s : Schema} {L : List (Owner × Cell)} {D : List (Bytes × Measure)} {pos : Int}
    (h : Laid ⟨compile s, pos⟩ L D) {F : List Bytes} {buf : Bytes} (hb : Hold ⟨compile s, pos⟩ L F buf) {f : Bytes} {r : Cell}
    (hr : readerAt (compile s) f (asc "uniquecount") = some r) {p : Int} (hm : r.m = .cardinality p) :
    buf.getD r.low.toNat 0 ≠ 0 ↔ ask lib (compile s) buf f (asc "uniquecount") ≠ .val ([], some .incompatibleVersion) := by
  obtain ⟨_, _, o, w, hw, e1, e2, hser, hcm⟩ := h.reader _ _ r hr
  obtain ⟨c1, c2, c3, c4, c5⟩ := h.cell o w hw
  have hwm : w.m = .cardinality p := by
    rcases hcm with hcm | ⟨_, _, h3, _⟩
    · rw [hcm, hm]
    · rw [hm] at h3; simp [Measure.stat] at h3
  have ho : o = .disc f := by
    rw [hwm] at c5
    cases o with
    | row => simp [Owner.takes] at c5
    | cont g => simp [Owner.takes, Measure.continuousInput] at c5
    | disc g => exact congrArg Owner.disc (show f = g from hser).symm
  subst ho
  have hin := inRec h hw
  have hlen : buf.length = (compile s).size.toNat := hb.len
  have hbyte : buf.getD r.low.toNat 0 = (slice buf w.low.toNat w.high.toNat).getD 0 0 := by
    rw [← e1, List.getD_eq_getElem?_getD, List.getD_eq_getElem?_getD, slice_getElem?, if_pos (by omega), Nat.add_zero]
  have hread : ask lib (compile s) buf f (asc "uniquecount") =
      reply f (asc "uniquecount") (readerFn lib (.cardinality p) (slice buf w.low.toNat w.high.toNat)) := by
    have hinr : InRec (compile s).size.toNat r := by
      have i1 := hin.low; have i2 := hin.le; have i3 := hin.high
      exact ⟨by rw [← e1]; exact i1, by rw [← e1, ← e2]; exact i2, by rw [← e2]; exact i3⟩
    rw [ask_reply lib hr, cell_read_eq lib hinr hlen, e1, e2, hm]
  rw [hbyte, hread]
  rcases hb.ok _ w hw f p rfl hwm with ⟨_, hz⟩ | ⟨c, hwf, hcp, he⟩
  · rw [hz]
    obtain ⟨n, hn⟩ : ∃ n, w.m.size.toNat = n + 1 := ⟨w.m.size.toNat - 1, by omega⟩
    rw [hn, List.replicate_succ]
    refine ⟨fun hne => absurd rfl hne, fun hne => absurd ?_ hne⟩
    have hwb : Hll.withBytes (0#8 :: List.replicate n 0#8) = .val (.error .incompatibleVersion) := by
      unfold Hll.withBytes
      rw [if_neg (by simp), if_pos (by simp [Hll.version])]
    rw [readerFn, hwb]
    rfl
  · obtain ⟨n, _, hn⟩ := card_read lib (p := p) hwf
    rw [he, hn, enc_eq]
    refine ⟨fun _ => ?_, fun _ => by simp⟩
    simp [reply]

/-- **C83**, the exact law. After an accepted history of writes to a fresh store, the query for the uniquecount of a field `f` of a key value panics if and
only if the key value has a slot, `x` say (`slotAfter`: linear probing), and either x*(s+1) > l*s for records of `s` bytes, or the first x bytes of a record
end within the header of the counter of f and some observation with this key had the field f. -/
theorem C83_law (lib : Lib) (sch : Schema) (hv : ValidSchema sch) (l : Nat) (hl : 0 < l) (os : List Obs)
    (hall : ∀ p ∈ (writes lib (newStore sch l) os).2, p.2 = .ret none) (crit : List FV) (k : U64) (hk : keyValue crit sch.keys = some k) (h0 : k ≠ 0)
    (f : Bytes) :
    Storage.read lib (writes lib (newStore sch l) os).1 (uniqueQuery f crit) = .panic ↔
      ∃ x, slotAfter sch.keys l os k = some x ∧
        (l * (compile sch).size.toNat < x * ((compile sch).size.toNat + 1) ∨
          (∃ a p, CounterAt sch f a p ∧ Cuts x a p) ∧ ∃ r ∈ rowsWith sch.keys k os, ∃ fv ∈ r.data, fv.f = f) := by
  obtain ⟨L, D, pos, h, hD⟩ := laid_compile sch hv
  have hg := good_writes (l := l) lib h os (good_new h hl)
  have hsl := slot_run lib h hl os h0
  obtain ⟨w1, w2⟩ := C59_law lib sch hv l hl os hall k h0
  cases hx : slotAfter sch.keys l os k with
  | none =>
    rw [w1 hx _ hk]
    refine ⟨fun h => by simp [noRecord] at h, ?_⟩
    rintro ⟨x, hx', _⟩
    simp at hx'
  | some x =>
    have hs := hsl.trans hx
    have hxl := ((slotOf_eq hg.wf h0).1 hs).1
    obtain ⟨r1, r2⟩ := slot_record lib h hD hl os hall h0 hx
    have hhold := hg.hold x hxl
    rw [read_present lib h hg (q := uniqueQuery f crit) hk h0 hs]
    obtain ⟨buf, hbuf⟩ : ∃ buf, slotBytes (writes lib (newStore sch l) os).1.backend x = buf := ⟨_, rfl⟩
    rw [hbuf] at r1 r2 hhold ⊢
    have hres : ∀ c : Cell, readerAt (compile sch) f (asc "uniquecount") = some c → ∀ p, c.m = .cardinality p →
        (buf.getD c.low.toNat 0 ≠ 0 ↔ ∃ r ∈ rowsWith sch.keys k os, ∃ fv ∈ r.data, fv.f = f) := by
      intro c hc p hm
      rw [counter_byte lib h hhold hc hm]
      have hdec : Declares sch f (.cardinality p) := by
        obtain ⟨_, hd, _⟩ := h.reader _ _ c hc
        rw [hm] at hd
        exact (hD f _).1 hd
      have hany : (∃ r ∈ rowsWith sch.keys k os, ∃ fv ∈ r.data, fv.f = f) ↔ valuesOf f (rowsWith sch.keys k os) ≠ [] := by
        rw [Ne, values_nil]; push Not; rfl
      rw [hany]
      by_cases hxh : x = k.toNat % l
      · have r1 := r1 hxh
        cases hrows : rowsWith sch.keys k os with
        | nil =>
          rw [hrows] at r1
          have r1 : FirstsOf lib (compile sch) [] buf := r1
          rw [(firsts_unique lib sch hv [] buf r1 f p hdec).2 rfl]
          simp [valuesOf]
        | cons r rows =>
          rw [hrows] at r1
          obtain ⟨u1, u2⟩ := C25_uniquecount_law lib sch hv f p hdec r rows buf r1
          rw [valuesOf_cons]
          rcases List.eq_nil_or_concat (valuesOf f [r]) with e | ⟨vs, v, e⟩
          · obtain ⟨u3, u4⟩ := u2 e
            rw [u4, e, u3]
            simp
          · rw [List.concat_eq_append] at e
            obtain ⟨q, c0, c, n, _, _, _, _, ha⟩ := u1 vs v e
            rw [ha, e]
            simp
      · obtain ⟨u1, u2⟩ := firsts_unique lib sch hv _ buf (r2 hxh) f p hdec
        rcases List.eq_nil_or_concat (valuesOf f (rowsWith sch.keys k os)) with e | ⟨vs, v, e⟩
        · rw [u2 e, e]; simp
        · rw [List.concat_eq_append] at e
          obtain ⟨q, c0, c, n, _, _, _, _, ha⟩ := u1 vs v e
          rw [ha, e]
          simp
    have hread : Collation.read lib (compile sch) (uniqueQuery f crit).fieldMeasures (seen x buf) =
        ask lib (compile sch) (seen x buf) f (asc "uniquecount") := rfl
    rw [hread]
    have hans : answer (ask lib (compile sch) (seen x buf) f (asc "uniquecount")) = .panic ↔
        ask lib (compile sch) (seen x buf) f (asc "uniquecount") = .panic := by
      unfold answer
      rcases ask lib (compile sch) (seen x buf) f (asc "uniquecount") with v | _ <;> simp
    constructor
    · intro hp
      refine ⟨x, rfl, ?_⟩
      split at hp
      · next hc => exact .inl hc
      · right
        rw [hans] at hp
        cases hr : readerAt (compile sch) f (asc "uniquecount") with
        | none => rw [ask_none lib hr] at hp; simp at hp
        | some c =>
          rw [ask_reply lib hr, reply_panic] at hp
          obtain ⟨p, h1, h2, h3, h4⟩ := (cell_panic lib h hhold x hr).1 hp
          exact ⟨⟨c.low, p, ⟨c, hr, rfl, h1⟩, h2, h3⟩, (hres c hr p h1).1 h4⟩
    · rintro ⟨x', hx', hwhy⟩
      have := Option.some.inj hx'
      subst this
      rcases hwhy with hc | ⟨⟨a, p, ⟨c, hr, rfl, hm⟩, hcut⟩, hany⟩
      · rw [if_pos hc]
      · split
        · rfl
        · rw [hans, ask_reply lib hr, reply_panic]
          exact (cell_panic lib h hhold x hr).2 ⟨p, hm, hcut.1, hcut.2, (hres c hr p hm).2 hany⟩

/-- **C83**, partial: any query of any key value, after any writes. If the key value has no slot, or a slot `x` that is none of the last and with which every
counter asked for starts late enough or early enough in the record not to be cut, the query does not panic. Missing: the other slots, where it panics
(`C83_law`, `C83_panics`). -/
theorem C83_slot_partial (lib : Lib) (sch : Schema) (hv : ValidSchema sch) (l : Nat) (hl : 0 < l) (os : List Obs)
    (q : Query) (k : U64) (hk : keyValue q.criteria sch.keys = some k) (h0 : k ≠ 0)
    (hok : ∀ x, slotAfter sch.keys l os k = some x → x * ((compile sch).size.toNat + 1) ≤ l * (compile sch).size.toNat ∧
      ∀ f a p, (f, asc "uniquecount") ∈ pairs q.fieldMeasures → CounterAt sch f a p → ¬ Cuts x a p) :
    Storage.read lib (writes lib (newStore sch l) os).1 q ≠ .panic := by
  intro hp
  obtain ⟨x, hx, hs, hwhy⟩ := C83_when lib sch hv l hl os q k hk h0 hp
  obtain ⟨L, D, pos, h, hD⟩ := laid_compile sch hv
  rw [slot_run lib h hl os h0] at hs
  obtain ⟨o1, o2⟩ := hok x hs
  rcases hwhy with hc | ⟨f, a, p, h1, h2, h3⟩
  · omega
  · exact o2 f a p h1 h2 h3

/-- **C83**, the exact law for the whole server: start with any stores, one of them a fresh store for the collation. After any history of accepted posts of
correctly written observations and any other requests, the query for the uniquecount of a field `f` of a key value panics if and only if the key value has
a slot, `x` say (`slotAfter`: linear probing), and either x*(s+1) > l*s for records of `s` bytes, or the first x bytes of a record end within the header of
the counter of f and some posted observation with this key had the field f. -/
theorem C83_server_law (env : Env) (sch : Schema) (hv : ValidSchema sch) (hn : GoodName sch.name)
    (l : Nat) (hl : 0 < l) (a b : List Store) (ha : ∀ s ∈ a, s.coll.name ≠ sch.name)
    (steps : List Step) (hc : ∀ s ∈ steps, s.Correct)
    (hacc : List.Forall₂ Step.Accepted steps (serveAll env (a ++ newStore sch l :: b) (steps.map Step.request)).2)
    (crit : List FV) (k : U64) (hk : keyValue crit sch.keys = some k) (h0 : k ≠ 0) (f text : Bytes)
    (hq : Query.roughParse env.ord text = .ok (uniqueQuery f crit)) :
    (Server.serve env (serveAll env (a ++ newStore sch l :: b) (steps.map Step.request)).1 (askFor sch.name text)).2 = .panic ↔
      ∃ x, slotAfter sch.keys l ((observations steps).map obsOf) k = some x ∧
        (l * (compile sch).size.toNat < x * ((compile sch).size.toNat + 1) ∨
          (∃ a p, CounterAt sch f a p ∧ Cuts x a p) ∧ ∃ fs ∈ observations steps, keyValue fs sch.keys = some k ∧ ∃ fv ∈ fs, fv.f = f) := by
  obtain ⟨a', os, b', e, hcoll, hobs, hall⟩ := steps_made env steps a (newStore sch l) b hc hacc
  obtain ⟨L, D, pos, h, hD⟩ := laid_compile sch hv
  have hslot : slotAfter sch.keys l ((observations steps).map obsOf) k = slotAfter sch.keys l os k := by
    unfold slotAfter
    rw [keysOf_data (fun o ho k hk => ((((accepted_law env.lib h hD hl os).1 hall).1 o ho k hk).1)), hobs]
  have hany : (∃ fs ∈ observations steps, keyValue fs sch.keys = some k ∧ ∃ fv ∈ fs, fv.f = f) ↔
      ∃ r ∈ rowsWith sch.keys k os, ∃ fv ∈ r.data, fv.f = f := by
    have hrows : (rowsWith sch.keys k os).map Row.data = ((observations steps).filter fun fs => keyValue fs sch.keys = some k) := by
      unfold rowsWith
      rw [← hobs]
      simp only [List.filter_map, List.map_map]
      rfl
    constructor
    · rintro ⟨fs, hfs, hkf, hfv⟩
      have : fs ∈ (rowsWith sch.keys k os).map Row.data := by rw [hrows]; exact List.mem_filter.2 ⟨hfs, decide_eq_true hkf⟩
      obtain ⟨r, hr, rfl⟩ := List.mem_map.1 this
      exact ⟨r, hr, hfv⟩
    · rintro ⟨r, hr, hfv⟩
      have : r.data ∈ (rowsWith sch.keys k os).map Row.data := List.mem_map_of_mem hr
      rw [hrows, List.mem_filter] at this
      exact ⟨r.data, this.1, of_decide_eq_true this.2, hfv⟩
  have hname : (writes env.lib (newStore sch l) os).1.coll.name = sch.name := by rw [writes_coll]; exact compile_name sch
  rw [e, ask_serve env a' b' _ sch.name text hn (names_of_colls hcoll ha) hname _ hq, hslot, hany,
    ← C83_law env.lib sch hv l hl os hall crit k hk h0 f, queryStores, if_pos hname]
  rcases Storage.read env.lib (writes env.lib (newStore sch l) os).1 (uniqueQuery f crit) with r | _ | _
  · obtain ⟨res, e⟩ := r; cases e <;> simp
  · simp
  · simp

/-! ### instances -/

/-- an observation of Poland without an airport -/
def polandOnly : Row := ⟨0, [⟨asc "country", asc "Poland"⟩]⟩

theorem polandOnly_write (lib : Lib) : (write lib (newStore Demo.country Demo.slots) false polandOnly).2 = .ret none :=
  (write_first lib country_valid (by decide) polandOnly (show _ = some 150797932587210125 by decide +kernel) (by decide) (by
    intro fv hfv m hd hm
    exfalso
    simp only [polandOnly, List.mem_cons, List.not_mem_nil, or_false] at hfv
    subst hfv
    rcases country_declares hd with ⟨e, _⟩ | ⟨e, _⟩ | ⟨e, _⟩ <;> exact absurd e (by dsimp only; decide))).1

theorem first_all {lib : Lib} {sch : Schema} {l : Nat} {r : Row} (hw : (write lib (newStore sch l) false r).2 = .ret none) :
    ∀ p ∈ (writes lib (newStore sch l) [⟨r, false⟩]).2, p.2 = .ret none := by
  intro p hp
  rw [writes, writes, List.mem_singleton] at hp
  rw [hp]
  exact hw

/-- instances of `C83_law`, both ways: Poland's slot 125 cuts the counter of iata, which starts at byte 120. The query panics if an airport was observed, and
does not if none was. -/
example (lib : Lib) :
    Storage.read lib (writes lib (newStore Demo.country Demo.slots) [⟨polandRow, false⟩]).1 (uniqueQuery (asc "iata") [⟨asc "country", asc "Poland"⟩]) = .panic ∧
    Storage.read lib (writes lib (newStore Demo.country Demo.slots) [⟨polandOnly, false⟩]).1 (uniqueQuery (asc "iata") [⟨asc "country", asc "Poland"⟩]) ≠ .panic := by
  constructor
  · refine (C83_law lib Demo.country country_valid Demo.slots (by decide) _ (first_all (poland_write lib).1) [⟨asc "country", asc "Poland"⟩]
      150797932587210125 (by decide +kernel) (by decide) (asc "iata")).2 ⟨125, by decide +kernel, .inr ⟨⟨120, 10, demo_counters.1, by decide, by decide⟩, ?_⟩⟩
    exact ⟨polandRow, by decide +kernel, by decide +kernel⟩
  · intro hp
    obtain ⟨x, hx, hwhy⟩ := (C83_law lib Demo.country country_valid Demo.slots (by decide) _ (first_all (polandOnly_write lib)) [⟨asc "country", asc "Poland"⟩]
      150797932587210125 (by decide +kernel) (by decide) (asc "iata")).1 hp
    have hx' : slotAfter Demo.country.keys Demo.slots [⟨polandOnly, false⟩] 150797932587210125 = some 125 := by decide +kernel
    rw [hx'] at hx
    have := Option.some.inj hx
    subst this
    rcases hwhy with h | ⟨_, r, hr, fv, hfv, e⟩
    · rw [country_size] at h; exact absurd h (by decide)
    · have hr' : rowsWith Demo.country.keys 150797932587210125 [⟨polandOnly, false⟩] = [polandOnly] := by decide +kernel
      rw [hr', List.mem_singleton] at hr
      subst hr
      rw [show polandOnly.data = [⟨asc "country", asc "Poland"⟩] from rfl, List.mem_singleton] at hfv
      subst hfv
      exact absurd e (by decide)

/-- instance of `C83_slot_partial`: UZ, kept in slot 301 after GT took slot 300 -/
example (lib : Lib) (q : Query) (hk : keyValue q.criteria Demo.country.keys = some 12582586190006355300) :
    Storage.read lib (writes lib (newStore Demo.country Demo.slots)
      [⟨⟨0, [⟨asc "country", asc "GT"⟩]⟩, false⟩, ⟨⟨0, [⟨asc "country", asc "UZ"⟩]⟩, false⟩]).1 q ≠ .panic := by
  refine C83_slot_partial lib Demo.country country_valid Demo.slots (by decide) _ q _ hk (by decide) ?_
  intro x hx
  have hx' : slotAfter Demo.country.keys Demo.slots [⟨⟨0, [⟨asc "country", asc "GT"⟩]⟩, false⟩, ⟨⟨0, [⟨asc "country", asc "UZ"⟩]⟩, false⟩]
    12582586190006355300 = some 301 := by decide +kernel
  rw [hx'] at hx
  have := Option.some.inj hx
  subst this
  refine ⟨by rw [country_size]; decide, ?_⟩
  rintro f a p _ ⟨r, hr, hlow, hm⟩ ⟨h1, h2⟩
  have hd : Declares Demo.country f (.cardinality p) := by
    obtain ⟨L, D, pos, h, hD⟩ := laid_compile Demo.country country_valid
    obtain ⟨_, hd, _⟩ := h.reader _ _ r hr
    rw [hm] at hd
    exact (hD f _).1 hd
  have hf : f = asc "iata" ∧ p = 10 := by
    rcases country_declares hd with ⟨_, e⟩ | ⟨_, e⟩ | ⟨e1, e⟩
    all_goals first | (exact ⟨e1, by injection e⟩) | (exfalso; simp at e)
  obtain ⟨rfl, rfl⟩ := hf
  have := demo_counters.1
  obtain ⟨r', hr', hlow', _⟩ := this
  rw [hr] at hr'
  rw [Option.some.inj hr'] at hlow
  omega

end Starbow.Props
