import Verif.Props.ReadmeData
import Verif.Props.OrderDemo
import Verif.Props.HllEst
import Verif.Props.ServerStatsSeq
import Verif.Props.ServerMeasures
/-
The example of README.md ("Example Queries"): the airports of the United States posted to the program. Property theorem C15: the codes of 1315 airports are counted as 38.
-/
namespace Starbow.Props
open Starbow.Collation Starbow.Spec Starbow.Storage Starbow.Server Starbow.Bufmap

/-! ### lists of airports -/

/-- what is used of an airport: its height is not absurd, its time zone is in the list, and its code has no special characters -/
def Airport.Ok (a : Airport) : Prop := a.height.natAbs < 1000000000000000 ∧ a.tz < 8 ∧ a.code.length ≤ 4 ∧ ∀ b ∈ a.code, b ≠ 0x0a ∧ b ≠ 0x7c

instance (a : Airport) : Decidable a.Ok := by unfold Airport.Ok; infer_instance

theorem digitBytes_digit (n x : Nat) : (digitBytes n x).length ≤ n ∧ ∀ b ∈ digitBytes n x, b ≠ 0x0a ∧ b ≠ 0x7c ∧ b ≠ 0x0d := by
  induction n generalizing x with
  | zero => simp [digitBytes]
  | succ n ih =>
    rw [digitBytes]
    have hd : ∀ d, d < 10 → (BitVec.ofNat 8 (48 + d) ≠ 0x0a ∧ BitVec.ofNat 8 (48 + d) ≠ 0x7c ∧ BitVec.ofNat 8 (48 + d) ≠ 0x0d) := by decide
    refine ⟨?_, ?_⟩
    · rw [List.length_append, List.length_singleton]
      split
      · simp
      · have := (ih (x / 10)).1; omega
    · intro b hb
      rcases List.mem_append.1 hb with hb | hb
      · split at hb
        · simp at hb
        · exact (ih _).2 b hb
      · rw [List.mem_singleton.1 hb]
        exact hd _ (Nat.mod_lt _ (by decide))

theorem decimalText_ok (h : Int) : (decimalText h).length ≤ 21 ∧ ∀ b ∈ decimalText h, b ≠ 0x0a ∧ b ≠ 0x7c := by
  unfold decimalText
  have := digitBytes_digit 20 h.natAbs
  split
  · refine ⟨by simp; omega, ?_⟩
    intro b hb
    rcases List.mem_cons.1 hb with rfl | hb
    · decide
    · exact ⟨(this.2 b hb).1, (this.2 b hb).2.1⟩
  · exact ⟨by omega, fun b hb => ⟨(this.2 b hb).1, (this.2 b hb).2.1⟩⟩

/-- the time zones: no special characters, not 0 as keys, and no two with the same home slot -/
theorem zones_ok : ∀ i, i < 8 → (timeZones.getD i []).length ≤ 30 ∧ (∀ b ∈ timeZones.getD i [], b ≠ 0x0a ∧ b ≠ 0x7c ∧ b ≠ 0x0d) ∧ timeZones.getD i [] ≠ [] := by
  decide +kernel

theorem zones_keys : ∀ i, i < 8 → ∃ k, keyValue [⟨asc "tz", timeZones.getD i []⟩] Demo.tz.keys = some k ∧ k ≠ 0 ∧
    ∀ j, j < 8 → ∀ k', keyValue [⟨asc "tz", timeZones.getD j []⟩] Demo.tz.keys = some k' → k.toNat % Demo.slots = k'.toNat % Demo.slots → i = j := by
  have h : ∀ i, i < 8 → ∀ j, j < 8 → (keyValue [⟨asc "tz", timeZones.getD i []⟩] Demo.tz.keys).isSome ∧
      keyValue [⟨asc "tz", timeZones.getD i []⟩] Demo.tz.keys ≠ some 0 ∧
      ((keyValue [⟨asc "tz", timeZones.getD i []⟩] Demo.tz.keys).map (fun k => k.toNat % Demo.slots) =
        (keyValue [⟨asc "tz", timeZones.getD j []⟩] Demo.tz.keys).map (fun k => k.toNat % Demo.slots) → i = j) := by decide +kernel
  intro i hi
  obtain ⟨k, hk⟩ := Option.isSome_iff_exists.1 (h i hi i hi).1
  refine ⟨k, hk, fun e => (h i hi i hi).2.1 (by rw [hk, e]), ?_⟩
  intro j hj k' hk' e
  refine (h i hi j hj).2.2 ?_
  rw [hk, hk', Option.map_some, Option.map_some, e]

theorem Airport.values (a : Airport) : valueOf a.fields (asc "country") = some (asc "United States") ∧ valueOf a.fields (asc "tz") = some (timeZones.getD a.tz []) := by
  unfold Airport.fields valueOf
  have h1 : asc "iata" ≠ asc "tz" := by decide +kernel
  have h2 : asc "height" ≠ asc "tz" := by decide +kernel
  have h3 : asc "country" ≠ asc "tz" := by decide +kernel
  constructor
  · rw [List.find?_cons_of_pos (by simp)]; rfl
  · rw [List.find?_cons_of_neg (by simpa using h3), List.find?_cons_of_neg (by simpa using h1), List.find?_cons_of_neg (by simpa using h2), List.find?_cons_of_pos (by simp)]; rfl

/-- the criterion of the queries -/
def usCrit : List FV := [⟨asc "country", asc "United States"⟩]

theorem us_key : keyValue usCrit Demo.country.keys = some 7703773663817012642 := by decide +kernel

theorem Airport.agree (a : Airport) : AgreeOn Demo.country.keys a.fields usCrit := by
  intro key hkey
  have : key = asc "country" := by simpa [Demo.country] using hkey
  subst this
  rw [a.values.1]
  decide +kernel

theorem Airport.key (a : Airport) : keyValue a.fields Demo.country.keys = some 7703773663817012642 := by
  rw [C28_key Demo.country.keys _ _ a.agree, us_key]

theorem Airport.zone (a : Airport) : AgreeOn Demo.tz.keys a.fields [⟨asc "tz", timeZones.getD a.tz []⟩] := by
  intro key hkey
  have : key = asc "tz" := by simpa [Demo.tz] using hkey
  subst this
  rw [a.values.2]
  unfold valueOf
  rw [List.find?_cons_of_pos (by simp)]; rfl

theorem Airport.correct (a : Airport) (h : a.Ok) : a.line.Correct := by
  obtain ⟨_, h1, h2, h3⟩ := h
  obtain ⟨d1, d2⟩ := decimalText_ok a.height
  obtain ⟨z1, z2, z3⟩ := zones_ok a.tz h1
  have hts : (∀ b ∈ asc "1478566442000000", Digit b) ∧ (asc "1478566442000000").length = 16 ∧ decimalValue (asc "1478566442000000") * 1000 < 2 ^ 63 ∧
      asc "1478566442000000" ≠ [] ∧ 0x0a ∉ asc "1478566442000000" := by decide +kernel
  have hcol : ∀ s ∈ [asc "country", asc "United States", asc "iata", asc "height", asc "tz"], (0x0a ∉ s) ∧ (0x7c ∉ s) ∧ (0x3d ∉ s) ∧ s.length ≤ 20 := by decide +kernel
  have hc := hcol (asc "country") (by simp)
  have hu := hcol (asc "United States") (by simp)
  have hi := hcol (asc "iata") (by simp)
  have hh := hcol (asc "height") (by simp)
  have ht := hcol (asc "tz") (by simp)
  have htext : a.line.text = asc "1478566442000000" ++ (0x7c :: (asc "country" ++ 0x3d :: asc "United States")) ++ (0x7c :: (asc "iata" ++ 0x3d :: a.code)) ++
      (0x7c :: (asc "height" ++ 0x3d :: decimalText a.height)) ++ (0x7c :: (asc "tz" ++ 0x3d :: timeZones.getD a.tz [])) := by
    have he : asc "=" = [0x3d] := by decide +kernel
    simp [Airport.line, Line.text, obsLine, Airport.fields, fieldText, he]
  refine ⟨hts.2.2.2.1, hts.1, by show (asc "1478566442000000").length ≤ 20; rw [hts.2.1]; decide, hts.2.2.1, by show ¬ Digit 0x7c; decide, by show (0x7c : Byte) ≠ 0x3d; decide, ?_, ?_, ?_, ?_⟩
  · intro f hf
    have hf : f ∈ a.fields := hf
    simp only [Airport.fields, List.mem_cons, List.not_mem_nil, or_false] at hf
    rcases hf with rfl | rfl | rfl | rfl
    · exact ⟨hc.2.1, hc.2.2.1, hu.2.1⟩
    · exact ⟨hi.2.1, hi.2.2.1, fun hm => (h3 _ hm).2 rfl⟩
    · exact ⟨hh.2.1, hh.2.2.1, fun hm => (d2 _ hm).2 rfl⟩
    · exact ⟨ht.2.1, ht.2.2.1, fun hm => (z2 _ hm).2.1 rfl⟩
  · rw [htext]
    have n1 : (0x0a : Byte) ≠ 0x7c := by decide
    have n2 : (0x0a : Byte) ≠ 0x3d := by decide
    simp only [List.mem_append, List.mem_cons, not_or]
    exact ⟨⟨⟨⟨hts.2.2.2.2, n1, hc.1, n2, hu.1⟩, n1, hi.1, n2, fun hm => (h3 _ hm).1 rfl⟩, n1, hh.1, n2, fun hm => (d2 _ hm).1 rfl⟩, n1, ht.1, n2, fun hm => (z2 _ hm).1 rfl⟩
  · rw [htext, List.getLast?_append_of_ne_nil _ (by simp), List.getLast?_cons_of_ne_nil (by simp), List.getLast?_append_of_ne_nil _ (by simp), List.getLast?_cons_of_ne_nil z3]
    intro e
    exact (z2 _ (List.mem_of_getLast? e)).2.2 rfl
  · rw [htext]
    simp only [List.length_append, List.length_cons]
    omega

/-! ### posting them -/

/-- one request for each airport -/
def airportSteps (as : List Airport) : List Step := as.map fun a => .posted [a.line]

theorem airports_obs (as : List Airport) : observations (airportSteps as) = as.map Airport.fields := by
  induction as with
  | nil => rfl
  | cons a as ih =>
    show [a.fields] ++ observations (airportSteps as) = a.fields :: as.map Airport.fields
    rw [ih]
    rfl

theorem airports_correct {as : List Airport} (h : ∀ a ∈ as, a.Ok) : ∀ s ∈ airportSteps as, s.Correct := by
  intro s hs
  obtain ⟨a, ha, rfl⟩ := List.mem_map.1 hs
  intro l hl
  rw [List.mem_singleton.1 hl]
  exact a.correct (h a ha)

theorem airports_accepted (env : Env) (hp : ∀ h : Int, h.natAbs < 1000000000000000 → env.lib.parseFloat (decimalText h) ≠ none) {as : List Airport} (h : ∀ a ∈ as, a.Ok) :
    List.Forall₂ Step.Accepted (airportSteps as) (serveAll env Demo.stores ((airportSteps as).map Step.request)).2 := by
  have hC := C86_apart env demoColls demoColls_valid (airportSteps as) (airports_correct h) (by
    rw [airports_obs]
    intro c hc x hx y hy kx ky hkx hky e
    obtain ⟨a, ha, rfl⟩ := List.mem_map.1 hx
    obtain ⟨b, hb, rfl⟩ := List.mem_map.1 hy
    simp only [demoColls, List.mem_cons, List.not_mem_nil, or_false] at hc
    rcases hc with rfl | rfl
    · intro key hkey
      rw [a.agree key hkey, b.agree key hkey]
    · obtain ⟨k, h1, _, h2⟩ := zones_keys a.tz (h a ha).2.1
      simp only at hkx hky e ⊢
      rw [C28_key Demo.tz.keys _ _ a.zone, h1] at hkx
      rw [C28_key Demo.tz.keys _ _ b.zone] at hky
      obtain rfl := Option.some.inj hkx
      have hab := h2 b.tz (h b hb).2.1 ky hky e
      intro key hkey
      rw [a.zone key hkey, b.zone key hkey, hab])
  rw [demoColls_stores, airports_obs] at hC
  refine hC.2 ?_
  intro c hc fs hfs hk
  obtain ⟨a, ha, rfl⟩ := List.mem_map.1 hfs
  simp only [demoColls, List.mem_cons, List.not_mem_nil, or_false] at hc
  have hfld : ∀ fv ∈ a.fields, fv.f = asc "height" → fv.v = decimalText a.height := by
    intro fv hfv e
    simp only [Airport.fields, List.mem_cons, List.not_mem_nil, or_false] at hfv
    rcases hfv with rfl | rfl | rfl | rfl
    · exact absurd e (by dsimp only; decide +kernel)
    · exact absurd e (by dsimp only; decide +kernel)
    · rfl
    · exact absurd e (by dsimp only; decide +kernel)
  have hfirst : ∀ fv ∈ a.fields, ∀ (keys : List Bytes) (g rest), ((as.map Airport.fields).filter fun x => AgreeOn keys x a.fields) = g :: rest → ∃ x ∈ g, x.f = fv.f := by
    intro fv hfv keys g rest e
    have hg : g ∈ (as.map Airport.fields).filter fun x => AgreeOn keys x a.fields := by rw [e]; simp
    obtain ⟨b, _, rfl⟩ := List.mem_map.1 (List.mem_filter.1 hg).1
    simp only [Airport.fields, List.mem_cons, List.not_mem_nil, or_false] at hfv ⊢
    rcases hfv with rfl | rfl | rfl | rfl
    · exact ⟨_, .inl rfl, rfl⟩
    · exact ⟨_, .inr (.inl rfl), rfl⟩
    · exact ⟨_, .inr (.inr (.inl rfl)), rfl⟩
    · exact ⟨_, .inr (.inr (.inr rfl)), rfl⟩
  rcases hc with rfl | rfl
  · refine ⟨by simp only; rw [a.key]; decide, ?_, fun fv hfv p hd g rest e => hfirst fv hfv _ g rest e⟩
    intro fv hfv m hd hm
    rcases country_declares hd with ⟨_, e⟩ | ⟨e, _⟩ | ⟨_, e⟩
    · exact absurd e hm.1
    · rw [hfld fv hfv e]; exact hp _ (h a ha).1
    · exact absurd e (hm.2 10)
  · obtain ⟨k, h1, h0, _⟩ := zones_keys a.tz (h a ha).2.1
    refine ⟨by simp only; rw [C28_key Demo.tz.keys _ _ a.zone, h1]; simpa using h0, ?_, fun fv hfv p hd g rest e => hfirst fv hfv _ g rest e⟩
    intro fv hfv m hd hm
    rcases tz_declares hd with ⟨_, e⟩ | ⟨_, e⟩
    · exact absurd e hm.1
    · exact absurd e (hm.2 8)

/-! ### what is answered -/

/-- any query for the United States is answered from the record of all their airports, in order -/
theorem airports_record (env : Env) (hp : ∀ h : Int, h.natAbs < 1000000000000000 → env.lib.parseFloat (decimalText h) ≠ none) {as : List Airport} (h : ∀ a ∈ as, a.Ok) (hne : as ≠ []) :
    ∃ rows buf, rows.map Row.data = as.map Airport.fields ∧ RecordOf env.lib (compile Demo.country) rows buf ∧
      ∀ text sel, Query.roughParse env.ord text = .ok ⟨sel, usCrit⟩ →
        (Server.serve env (serveAll env Demo.stores ((airportSteps as).map Step.request)).1 (askFor (asc "country") text)).2 =
          resultReply env usCrit (Collation.read env.lib (compile Demo.country) sel buf) := by
  have hfil : ((observations (airportSteps as)).filter fun fs => AgreeOn Demo.country.keys fs usCrit) = as.map Airport.fields := by
    rw [airports_obs, List.filter_eq_self]
    intro fs hfs
    obtain ⟨a, _, rfl⟩ := List.mem_map.1 hfs
    exact decide_eq_true a.agree
  have := C59_server_partial env Demo.country country_valid country_name Demo.slots (by decide) [] [newStore Demo.tz Demo.slots] (by simp) (airportSteps as)
    (airports_correct h) (airports_accepted env hp h) usCrit (by
      intro x hx y hy kx ky _ _ _
      rw [airports_obs] at hx hy
      have hall : ∀ x ∈ usCrit :: as.map Airport.fields, AgreeOn Demo.country.keys x usCrit := by
        intro x hx
        rcases List.mem_cons.1 hx with rfl | hx
        · intro _ _; rfl
        · obtain ⟨a, _, rfl⟩ := List.mem_map.1 hx
          exact a.agree
      intro key hkey
      rw [hall x hx key hkey, hall y hy key hkey]) 7703773663817012642 us_key (by decide) (by rw [country_size]; decide) (by rw [country_size]; decide) (by
        rw [hfil]; simpa using hne)
  rw [hfil] at this
  exact this

theorem airports_values (f : Bytes) (g : Airport → Bytes) (hg : ∀ a : Airport, a.fields.filterMap (fun fv => if fv.f = f then some fv.v else none) = [g a]) {rows : List Row}
    {as : List Airport} (h : rows.map Row.data = as.map Airport.fields) : valuesOf f rows = as.map g := by
  unfold valuesOf
  induction rows generalizing as with
  | nil =>
    cases as with
    | nil => rfl
    | cons a as => simp at h
  | cons r rows ih =>
    cases as with
    | nil => simp at h
    | cons a as =>
      rw [List.map_cons, List.map_cons, List.cons.injEq] at h
      rw [List.flatMap_cons, List.filterMap_append, ih h.2, h.1, hg, List.map_cons]
      rfl

theorem iata_values (a : Airport) : a.fields.filterMap (fun fv => if fv.f = asc "iata" then some fv.v else none) = [a.code] := by
  have h : ∀ s ∈ [asc "country", asc "height", asc "tz"], s ≠ asc "iata" := by decide +kernel
  unfold Airport.fields
  simp only [List.filterMap_cons, List.filterMap_nil]
  rw [if_neg (h _ (by simp)), if_neg (h _ (by simp)), if_neg (h _ (by simp))]
  rfl

theorem height_values (a : Airport) : a.fields.filterMap (fun fv => if fv.f = asc "height" then some fv.v else none) = [decimalText a.height] := by
  have h : ∀ s ∈ [asc "country", asc "iata", asc "tz"], s ≠ asc "height" := by decide +kernel
  unfold Airport.fields
  simp only [List.filterMap_cons, List.filterMap_nil]
  rw [if_neg (h _ (by simp)), if_neg (h _ (by simp)), if_neg (h _ (by simp))]
  rfl

end Starbow.Props
