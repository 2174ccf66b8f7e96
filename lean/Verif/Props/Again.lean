import Verif.Props.Extremes
import Verif.Props.PrecisionDemo
/-
Property theorems C95: what has been counted is not counted again.
-/
namespace Starbow.Props
open Starbow.Collation Starbow.Spec Starbow.Storage Starbow.Server

theorem mem_valuesOf_iff {f v : Bytes} {rows : List Row} : v ∈ valuesOf f rows ↔ ∃ fs ∈ rows.map Row.data, ⟨f, v⟩ ∈ fs := by
  unfold valuesOf
  rw [List.mem_filterMap]
  constructor
  · rintro ⟨⟨g, u⟩, hm, h⟩
    obtain ⟨r, hr, hm⟩ := List.mem_flatMap.1 hm
    simp only at h
    split_ifs at h with e
    · obtain rfl := Option.some.inj h
      exact ⟨r.data, List.mem_map_of_mem hr, e ▸ hm⟩
  · rintro ⟨fs, hfs, hm⟩
    obtain ⟨r, hr, rfl⟩ := List.mem_map.1 hfs
    exact ⟨⟨f, v⟩, List.mem_flatMap.2 ⟨r, hr, hm⟩, by simp⟩

/-- two records with the same values of a field have the same uniquecount, if their first observations carry the field once -/
theorem unique_same (lib : Lib) {s : Schema} (hv : ValidSchema s) {f : Bytes} {p : Int} (hd : Declares s f (.cardinality p)) {r r' : Row} {t t' : List Row}
    {buf buf' : Bytes} (hr : RecordOf lib (compile s) (r :: t) buf) (hr' : RecordOf lib (compile s) (r' :: t') buf') {v v' : Bytes}
    (h1 : valuesOf f [r] = [v]) (h1' : valuesOf f [r'] = [v']) (hsame : ∀ x, x ∈ valuesOf f (r :: t) ↔ x ∈ valuesOf f (r' :: t')) :
    ∃ n, ask lib (compile s) buf f (asc "uniquecount") = .val ([⟨f, asc "uniquecount", F64.ofInt n⟩], none) ∧
      ask lib (compile s) buf' f (asc "uniquecount") = .val ([⟨f, asc "uniquecount", F64.ofInt n⟩], none) := by
  obtain ⟨q, h4, h18, hall⟩ := card_ask_all lib hv hd
  obtain ⟨c0, c, n, a1, a2, a3, a4⟩ := hall r t buf hr v h1
  obtain ⟨c0', c', n', b1, b2, b3, b4⟩ := hall r' t' buf' hr' v' h1'
  rw [a1] at b1
  have b1 := Out.val.inj b1
  subst b1
  have hpq : (precision q).toNat = q.toNat := by
    unfold precision
    rw [BitVec.toNat_ofInt]
    omega
  have hcc := C12_set_semantics (precision q) (by omega) (by omega) ((valuesOf f (r :: t)).map some) ((valuesOf f (r' :: t')).map some) (by
    intro x
    rw [live_somes, live_somes]
    exact hsame x) c0 c c' a1 a2 b2
  subst hcc
  rw [a3] at b3
  exact ⟨n, a4, by rw [b4, Out.val.inj b3]⟩

/-- **C95**, for a key in its home slot behind the first record and before the truncated part (as in C59), if the first observation with the key carries the
field exactly once: observations of the key that carry, for the field, only values that observations of the key carried before do not change the answer to
uniquecount. -/
theorem C95_again_partial (env : Env) (sch : Schema) (hv : ValidSchema sch) (hn : GoodName sch.name)
    (l : Nat) (hl : 0 < l) (a b : List Store) (ha : ∀ s ∈ a, s.coll.name ≠ sch.name)
    (steps more : List Step) (hc : ∀ s ∈ steps ++ more, s.Correct)
    (hacc : List.Forall₂ Step.Accepted (steps ++ more) (serveAll env (a ++ newStore sch l :: b) ((steps ++ more).map Step.request)).2)
    (crit : List FV) (k : U64) (hk : keyValue crit sch.keys = some k) (h0 : k ≠ 0)
    (hhome : slotAfter sch.keys l ((observations steps).map obsOf) k = some (k.toNat % l))
    (hsize : (compile sch).size.toNat ≤ k.toNat % l) (hroom : k.toNat % l * ((compile sch).size.toNat + 1) ≤ l * (compile sch).size.toNat)
    (f : Bytes) (p : Int) (hd : Declares sch f (.cardinality p))
    (hone : ∀ fs rest, ((observations steps).filter fun fs => keyValue fs sch.keys = some k) = fs :: rest →
      ∃ v, (fs.filterMap fun fv => if fv.f = f then some fv.v else none) = [v])
    (hold : ∀ fs ∈ observations more, keyValue fs sch.keys = some k → ∀ v, ⟨f, v⟩ ∈ fs →
      ∃ fs' ∈ observations steps, keyValue fs' sch.keys = some k ∧ ⟨f, v⟩ ∈ fs')
    (text text' : Bytes) (hq : Query.roughParse env.ord text = .ok ⟨[⟨f, [asc "uniquecount"]⟩], crit⟩)
    (hq' : Query.roughParse env.ord text' = .ok ⟨[⟨f, [asc "uniquecount"]⟩], crit⟩) :
    ∃ n, (Server.serve env (serveAll env (a ++ newStore sch l :: b) (steps.map Step.request)).1 (askFor sch.name text)).2 =
        .ok (echo crit ++ measureLine env (asc "uniquecount") f (F64.ofInt n)) ∧
      (Server.serve env (serveAll env (a ++ newStore sch l :: b) ((steps ++ more).map Step.request)).1 (askFor sch.name text')).2 =
        .ok (echo crit ++ measureLine env (asc "uniquecount") f (F64.ofInt n)) := by
  obtain ⟨rows, buf, a1, a2, a3, -, a4⟩ := (C59_server_law env sch hv hn l hl a b ha steps (fun s hs => hc s (List.mem_append_left _ hs))
    (accepted_first env _ hacc) crit k hk h0).2 _ hhome
  obtain ⟨rows', buf', b1, b2, b3, -, b4⟩ := (C59_server_law env sch hv hn l hl a b ha (steps ++ more) hc
    hacc crit k hk h0).2 (k.toNat % l) (by
      rw [observations_both, List.map_append]
      exact slotAfter_more _ _ _ _ _ hhome)
  have a4 := a4 _ _ hq
  have b4 := b4 _ _ hq'
  rw [if_neg (Nat.not_lt.2 hroom), List.take_of_length_le (by rw [a2]; exact hsize), a2, Nat.sub_eq_zero_of_le hsize, List.replicate_zero,
    List.append_nil] at a4
  rw [if_neg (Nat.not_lt.2 hroom), List.take_of_length_le (by rw [b2]; exact hsize), b2, Nat.sub_eq_zero_of_le hsize, List.replicate_zero,
    List.append_nil] at b4
  have hne : ((observations steps).filter fun fs => keyValue fs sch.keys = some k) ≠ [] := by
    have hmem := (slotAfter_mem hhome).1
    unfold keysOf at hmem
    obtain ⟨o, ho, hko⟩ := List.mem_filterMap.1 hmem
    obtain ⟨fs, hfs, rfl⟩ := List.mem_map.1 ho
    have : keyValue fs sch.keys = some k := by simpa [obsOf] using hko
    exact List.ne_nil_of_mem (List.mem_filter.2 ⟨hfs, by simpa using this⟩)
  obtain ⟨fs, old, hcons⟩ := List.exists_cons_of_ne_nil hne
  obtain ⟨v, hv1⟩ := hone fs old hcons
  have a1' := a1
  have b1' := b1
  rw [hcons] at a1'
  rw [observations_both, List.filter_append, hcons] at b1'
  obtain ⟨r, rest, rfl, c1, c2⟩ := List.map_eq_cons_iff.1 a1'
  obtain ⟨r', rest', rfl, d1, d2⟩ := List.map_eq_cons_iff.1 b1'
  have hv2 : ∀ {r : Row}, r.data = fs → valuesOf f [r] = [v] := by
    intro r hr
    unfold valuesOf
    rw [List.flatMap_singleton, hr]
    exact hv1
  obtain ⟨n, e1, e2⟩ := unique_same env.lib hv hd (a3 rfl) (b3 rfl) (hv2 c1) (hv2 d1) (by
    intro x
    rw [mem_valuesOf_iff, mem_valuesOf_iff, a1, b1, observations_both]
    simp only [List.mem_filter, List.mem_append, decide_eq_true_eq]
    constructor
    · rintro ⟨g, ⟨h1, h2⟩, h3⟩
      exact ⟨g, ⟨.inl h1, h2⟩, h3⟩
    · rintro ⟨g, ⟨h1 | h1, h2⟩, h3⟩
      · exact ⟨g, ⟨h1, h2⟩, h3⟩
      · obtain ⟨g', h4, h5, h6⟩ := hold g h1 h2 x h3
        exact ⟨g', ⟨h4, h5⟩, h6⟩)
  unfold ask at e1 e2
  rw [a4, b4, e1, e2]
  exact ⟨n, congrArg Reply.ok (render_one env _ _ _ _), congrArg Reply.ok (render_one env _ _ _ _)⟩

/-! ### in the program -/

/-- an observation that carries two airports -/
def frBoth : List FV := [⟨asc "country", asc "FR"⟩, ⟨asc "iata", asc "CDG"⟩, ⟨asc "iata", asc "TLS"⟩]

def airText : Bytes := asc "select uniquecount(iata) where country='FR'"

theorem airText_parse (env : Env) (hord : ∀ l, (env.ord l).Perm l) : AsksFR env airText [⟨asc "iata", [asc "uniquecount"]⟩] := by
  unfold AsksFR airText
  rw [roughParse_ord env.ord (q := ⟨[⟨asc "iata", [asc "uniquecount"]⟩], [⟨asc "country", asc "FR"⟩]⟩) (by decide +kernel), List.perm_singleton.1 (hord _)]

theorem air_declares : Declares Demo.country (asc "iata") (.cardinality 10) := .inr ⟨by decide, _, List.mem_cons_of_mem _ (List.mem_cons_self ..), by simp⟩

theorem again_ok : OfFR [frBoth, frIata (asc "CDG")] ∧ OfFR [frBoth] ∧ (∀ fs ∈ [frBoth, frIata (asc "CDG")], Plainly fs) ∧
    (∀ fs ∈ [frBoth, frIata (asc "CDG")], ∀ fv ∈ fs, fv.f ≠ asc "height") ∧ (∃ fv ∈ frBoth, fv.f = asc "iata") := by decide +kernel

/-- two values that select different registers are counted as 3 by a counter of precision 10 -/
theorem two_is_three (log : F64 → F64) (hl : LogOk log) : ∃ c0 c, Hll.new 10#8 = .val c0 ∧ runHll c0 ([asc "TLS", asc "CDG"].map some) = .val c ∧
    Hll.count log c = .val 3 := by
  have he : emptyRegisters 10 ((live ([asc "TLS", asc "CDG"].map some)).map fun v => fnv1 (nats v)) = 1022 := by decide +kernel
  have h10 : (10#8).toNat = 10 := rfl
  have hT := (Hll.threshold_eq 10#8 (by decide) (by decide)).2.1
  have hT' : (10 : ℝ) ≤ (linearThreshold (10#8).toNat : ℝ) := by exact_mod_cast hT
  have hx : linearEstimate 10 1022 = 1024 * (Real.log (1024 / 1023) + Real.log (1023 / 1022)) := by
    unfold linearEstimate
    rw [← Real.log_mul (by norm_num) (by norm_num)]; norm_num
  have u1 := Real.log_le_sub_one_of_pos (x := 1024 / 1023) (by norm_num)
  have v1 := Real.one_sub_inv_le_log_of_pos (x := 1024 / 1023) (by norm_num)
  have u2 := Real.log_le_sub_one_of_pos (x := 1023 / 1022) (by norm_num)
  have v2 := Real.one_sub_inv_le_log_of_pos (x := 1023 / 1022) (by norm_num)
  norm_num at u1 v1 u2 v2
  rw [h10] at hT'
  obtain ⟨c0, c, n, g0, g, g1, g2, g3⟩ := C14_linear_partial log hl 10#8 (by decide) (by decide) ([asc "TLS", asc "CDG"].map some) (by
    rw [h10, he]; decide) (by
    rw [h10, he, hx]; refine le_trans ?_ hT'; norm_num; linarith)
  rw [h10, he, hx] at g2 g3
  have h1 : (2 : ℝ) < n := by norm_num at g2; linarith
  have h2 : (n : ℝ) < 4 := by norm_num at g3; linarith
  have h1' : 2 < n := by exact_mod_cast h1
  have h2' : n < 4 := by exact_mod_cast h2
  obtain rfl : n = 3 := by omega
  exact ⟨c0, c, g0, g, g1⟩

/-- the law of C25 for the airports of FR -/
theorem air_read (env : Env) {r : Row} {rows : List Row} {buf : Bytes} (hr : RecordOf env.lib (compile Demo.country) (r :: rows) buf) {vs ws : List Bytes} {v : Bytes}
    (h1 : valuesOf (asc "iata") [r] = vs ++ [v]) (h2 : valuesOf (asc "iata") rows = ws) {c0 c : Hll.Counter} {n : Int} (e0 : Hll.new 10#8 = .val c0)
    (e : runHll c0 ((v :: ws).map some) = .val c) (hn : Hll.count env.lib.log c = .val n) :
    resultReply env [⟨asc "country", asc "FR"⟩] (Collation.read env.lib (compile Demo.country) [⟨asc "iata", [asc "uniquecount"]⟩] buf) =
      .ok (echo [⟨asc "country", asc "FR"⟩] ++ measureLine env (asc "uniquecount") (asc "iata") (F64.ofInt n)) := by
  obtain ⟨q, d0, d, m, hq, f0, f, fm, ha⟩ := (C25_uniquecount_law env.lib Demo.country country_valid (asc "iata") 10 air_declares r rows buf hr).1 vs v h1
  obtain rfl : q = 10 := by
    rcases country_declares hq with ⟨_, e⟩ | ⟨_, e⟩ | ⟨_, e⟩
    · simp at e
    · simp at e
    · simpa using e
  rw [show BitVec.ofInt 8 10 = 10#8 from rfl, e0] at f0
  obtain rfl := Out.val.inj f0
  rw [h2, e] at f
  obtain rfl := Out.val.inj f
  rw [hn] at fm
  obtain rfl := Out.val.inj fm
  unfold ask at ha
  rw [ha]
  exact congrArg Reply.ok (render_one env _ _ _ _)

/-- **C95 refuted**, if the first observation carries several values: in the program, after an observation of FR with the airports CDG and TLS,
uniquecount(iata) is answered with 2; after another one with CDG, with 3. -/
theorem C95_refuted (env : Env) (hord : ∀ l, (env.ord l).Perm l) (hlog : LogOk env.lib.log) :
    AllAccepted env [frBoth] ∧ AllAccepted env [frBoth, frIata (asc "CDG")] ∧
    (Server.serve env (afterPosts env [frBoth]) (askFor (asc "country") airText)).2 =
      .ok (echo [⟨asc "country", asc "FR"⟩] ++ measureLine env (asc "uniquecount") (asc "iata") (F64.ofInt 2)) ∧
    (Server.serve env (afterPosts env [frBoth, frIata (asc "CDG")]) (askFor (asc "country") airText)).2 =
      .ok (echo [⟨asc "country", asc "FR"⟩] ++ measureLine env (asc "uniquecount") (asc "iata") (F64.ofInt 3)) := by
  obtain ⟨a1, a2, a3, a4, a5⟩ := again_ok
  have p1 : ∀ fs ∈ [frBoth], Plainly fs := fun fs hfs => a3 fs (by simp at hfs; simp [hfs])
  have b1 : AllAccepted env [frBoth] := by
    refine (ofFR_accepted env a2 p1).2 ⟨fun fs hfs fv hfv e => absurd e (a4 fs (by simp at hfs; simp [hfs]) fv hfv), ?_⟩
    rintro g rest e -
    obtain ⟨rfl, -⟩ := List.cons.inj e
    exact a5
  have b2 : AllAccepted env [frBoth, frIata (asc "CDG")] := by
    refine (ofFR_accepted env a1 a3).2 ⟨fun fs hfs fv hfv e => absurd e (a4 fs hfs fv hfv), ?_⟩
    rintro g rest e -
    obtain ⟨rfl, -⟩ := List.cons.inj e
    exact a5
  have hboth : ∀ {r : Row}, r.data = frBoth → valuesOf (asc "iata") [r] = [asc "CDG"] ++ [asc "TLS"] := by
    intro r hr
    unfold valuesOf
    rw [List.flatMap_singleton, hr]
    decide +kernel
  refine ⟨b1, b2, ?_, ?_⟩
  · obtain ⟨rows, buf, e1, e2, e3⟩ := ofFR_answer env a2 p1 (by simp) b1
    rw [e3 _ _ (airText_parse env hord)]
    obtain ⟨r, rest, rfl, c1, c2⟩ := List.map_eq_cons_iff.1 e1
    obtain rfl := List.map_eq_nil_iff.1 c2
    obtain ⟨c0, c, g0, g, gn⟩ := C14_single_is_two env.lib.log hlog 10#8 (by decide) (by decide) ([asc "TLS"].map some) (asc "TLS") (by rw [live_somes]; simp)
      (by rw [live_somes]; simp)
    exact air_read env e2 (hboth c1) (ws := []) rfl g0 g gn
  · obtain ⟨rows, buf, e1, e2, e3⟩ := ofFR_answer env a1 a3 (by simp) b2
    rw [e3 _ _ (airText_parse env hord)]
    obtain ⟨r, rest, rfl, c1, c2⟩ := List.map_eq_cons_iff.1 e1
    obtain ⟨r', rest', rfl, d1, d2⟩ := List.map_eq_cons_iff.1 c2
    obtain rfl := List.map_eq_nil_iff.1 d2
    obtain ⟨c0, c, g0, g, gn⟩ := two_is_three env.lib.log hlog
    refine air_read env e2 (hboth c1) (ws := [asc "CDG"]) ?_ g0 g gn
    unfold valuesOf
    rw [List.flatMap_singleton, d1]
    decide +kernel

theorem thrice_ok : OfFR [frIata (asc "CDG"), frIata (asc "TLS"), frIata (asc "CDG")] ∧
    (∀ fs ∈ [frIata (asc "CDG"), frIata (asc "TLS"), frIata (asc "CDG")], Plainly fs) ∧
    (∀ fs ∈ [frIata (asc "CDG"), frIata (asc "TLS"), frIata (asc "CDG")], ∀ fv ∈ fs, fv.f ≠ asc "height") ∧
    (∃ fv ∈ frIata (asc "CDG"), fv.f = asc "iata") := by decide +kernel

/-- instance: the hypotheses of `C95_again_partial` hold in the program for the airports CDG and TLS of FR, posted, and then CDG again -/
theorem ex_again (env : Env) (hord : ∀ l, (env.ord l).Perm l) :
    ∃ n, (Server.serve env (serveAll env ([] ++ newStore Demo.country Demo.slots :: [newStore Demo.tz Demo.slots])
        ((oneByOne [frIata (asc "CDG"), frIata (asc "TLS")]).map Step.request)).1 (askFor (asc "country") airText)).2 =
        .ok (echo [⟨asc "country", asc "FR"⟩] ++ measureLine env (asc "uniquecount") (asc "iata") (F64.ofInt n)) ∧
      (Server.serve env (serveAll env ([] ++ newStore Demo.country Demo.slots :: [newStore Demo.tz Demo.slots])
        ((oneByOne [frIata (asc "CDG"), frIata (asc "TLS")] ++ oneByOne [frIata (asc "CDG")]).map Step.request)).1 (askFor (asc "country") airText)).2 =
        .ok (echo [⟨asc "country", asc "FR"⟩] ++ measureLine env (asc "uniquecount") (asc "iata") (F64.ofInt n)) := by
  obtain ⟨a1, a3, a4, a5⟩ := thrice_ok
  have hsp : oneByOne [frIata (asc "CDG"), frIata (asc "TLS"), frIata (asc "CDG")] =
      oneByOne [frIata (asc "CDG"), frIata (asc "TLS")] ++ oneByOne [frIata (asc "CDG")] := rfl
  have b1 : AllAccepted env [frIata (asc "CDG"), frIata (asc "TLS"), frIata (asc "CDG")] := by
    refine (ofFR_accepted env a1 a3).2 ⟨fun fs hfs fv hfv e => absurd e (a4 fs hfs fv hfv), ?_⟩
    rintro g rest e -
    obtain ⟨rfl, -⟩ := List.cons.inj e
    exact a5
  unfold AllAccepted at b1
  rw [hsp] at b1
  refine C95_again_partial env Demo.country country_valid country_name Demo.slots (by decide) [] [newStore Demo.tz Demo.slots] (by simp)
    _ _ (by rw [← hsp]; exact oneByOne_correct a3) b1 [⟨asc "country", asc "FR"⟩] 12582602682680778473
    fr_key (by decide) (by rw [oneByOne_obs]; decide +kernel) (by rw [country_size]; decide) (by rw [country_size]; decide) (asc "iata") 10 air_declares ?_ ?_
    airText airText (airText_parse env hord) (airText_parse env hord)
  · intro fs rest h
    rw [oneByOne_obs, show ([frIata (asc "CDG"), frIata (asc "TLS")].filter fun fs => keyValue fs Demo.country.keys = some 12582602682680778473) =
      [frIata (asc "CDG"), frIata (asc "TLS")] by decide +kernel] at h
    obtain ⟨rfl, -⟩ := List.cons.inj h
    exact ⟨asc "CDG", by decide +kernel⟩
  · intro fs hfs _ v hv
    rw [oneByOne_obs, List.mem_singleton] at hfs
    subst hfs
    refine ⟨frIata (asc "CDG"), ?_, ?_, hv⟩
    · rw [oneByOne_obs]; simp
    · decide +kernel

end Starbow.Props
