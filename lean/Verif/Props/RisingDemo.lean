import Verif.Props.RisingMore
import Verif.Props.ServerAlone
/-
Properties C94, C95 and C96 under concurrent requests: instances in the program's own configuration.
-/
namespace Starbow.Props
open Starbow.Collation Starbow.Spec Starbow.Storage Starbow.Server Starbow.ServerConc Starbow.BufmapConc Starbow.Cell Starbow.Probe

/-- the demo program has handled the requests `reqs` with the answers `reps`, one after the other -/
structure Handled (env : Env) (σ : ServerConc.State) (S : List Store) (reqs : List Request) (reps : List Reply) : Prop where
  run : ServerConc.Steps env demoConfs ServerConc.init σ
  agrees : Agrees demoConfs σ S
  pc : σ.pc 0 = .idle
  idle : ∀ s, (σ.stores s).m.pc 0 = .idle
  reqs : σ.reqs = reqs
  reps : ∀ (j : Nat) (r : Reply), reps[j]? = some r → (j, r) ∈ σ.replies
  unwrapped : Unwrapped σ

theorem handled_none (env : Env) : Handled env ServerConc.init Demo.stores [] [] := by
  refine ⟨.refl _, demo_agrees, rfl, fun _ => rfl, rfl, ?_, ?_⟩
  · intro j r h; simp at h
  · intro s i buf d h; simp [ServerConc.init, StoreConc.init, BufmapConc.init] at h

theorem handled_more (env : Env) {σ : ServerConc.State} {S : List Store} {reqs : List Request} {reps : List Reply} (h : Handled env σ S reqs reps)
    (hlen : reps.length = reqs.length) (req : Request) (S' : List Store) (rep : Reply) (hs : Server.serve env S req = (S', rep)) (h1 : rep ≠ .panic) (h2 : rep ≠ .hang) :
    ∃ σ', ServerConc.Steps env demoConfs σ σ' ∧ Handled env σ' S' (reqs ++ [req]) (reps ++ [rep]) := by
  have hpos : ∀ c ∈ demoConfs, 0 < c.slots := by
    intro c hc
    simp only [demoConfs, List.mem_cons, List.not_mem_nil, or_false] at hc
    rcases hc with rfl | rfl <;> (show 0 < Demo.slots; decide)
  obtain ⟨σ', a1, a2, a3, a4, a5, a6, a7⟩ := C68_alone env demoConfs hpos σ h.run 0 h.pc h.idle S h.agrees req S' rep hs h1 h2
  refine ⟨σ', a1, h.run.trans a1, a2, by rw [a5, h.pc], fun s => by rw [a6, h.idle], by rw [a3, h.reqs], ?_, ?_⟩
  · intro j r hj
    rw [a4, h.reqs]
    by_cases e : j < reps.length
    · rw [List.getElem?_append_left e] at hj
      exact List.mem_append_left _ (h.reps j r hj)
    · rw [List.getElem?_append_right (by omega)] at hj
      have : j - reps.length = 0 := by
        by_contra hne
        rw [List.getElem?_eq_none (by simp; omega)] at hj
        exact absurd hj (by simp)
      rw [this] at hj
      obtain rfl := Option.some.inj hj
      exact List.mem_append_right _ (List.mem_singleton.2 (by rw [show j = reqs.length by omega]))
  · intro s i buf d hm
    rcases a7 s i true buf d hm with h' | rfl
    · exact h.unwrapped s i buf d h'
    · decide

theorem ok_fair {a : Bytes} : Reply.ok a ≠ .panic ∧ Reply.ok a ≠ .hang := ⟨by simp, by simp⟩

/-- all the observations are of the key value of "FR": no other key value has its home slot -/
theorem fr_apart {obs : List (List FV)} (h : ∀ fs ∈ obs, keyValue fs Demo.country.keys = some 12582602682680778473) :
    ∀ fs ∈ obs, ∀ k', keyValue fs Demo.country.keys = some k' → k' ≠ 12582602682680778473 →
      (12582602682680778473 : U64).toNat % Demo.slots ∉ candidates Demo.slots k' := by
  intro fs hfs k' hk' hne
  rw [h fs hfs] at hk'
  exact absurd (Option.some.inj hk').symm hne

theorem demo_first : ∀ s' c', s' < 0 → demoConfs[s']? = some c' → c'.coll.name ≠ Demo.country.name := by
  intro s' c' h
  omega

/-- height 5 of "FR", max(height)?, height 3 of "FR", max(height)? -/
def risingSteps : List Step := [.posted [heightIn (asc "FR") (asc "5")], .other (askFor Demo.country.name exText),
  .posted [heightIn (asc "FR") (asc "3")], .other (askFor Demo.country.name exText)]

theorem other_correct (text : Bytes) : (Step.other (askFor Demo.country.name text)).Correct := by
  intro h
  have : (askFor Demo.country.name text).path ≠ asc "/obs" := by
    show (asc "/collation/country" : Bytes) ≠ asc "/obs"
    decide +kernel
  exact this h.1

theorem rising_correct : ∀ st ∈ risingSteps, st.Correct := by
  intro st hst
  simp only [risingSteps, List.mem_cons, List.not_mem_nil, or_false] at hst
  rcases hst with rfl | rfl | rfl | rfl
  · exact ex_correct _ (by simp [exSteps])
  · exact other_correct _
  · exact ex_correct _ (by simp [exSteps])
  · exact other_correct _

/-- instance of C94_concurrent_partial: there is a run of the demo program that meets all its hypotheses, with σ₁ after the first height, σ₀ after the first query and σ after the second
query; it follows that the second number is not less than the first. -/
example (env : Env) (hord : ∀ l, (env.ord l).Perm l) (hld : ParsesDoubles env.lib) {x y : F64} (hx : env.lib.parseFloat (asc "5") = some x)
    (hy : env.lib.parseFloat (asc "3") = some y) (hxn : x ≠ .nan) (hyn : y ≠ .nan) :
    ∃ σ₁ σ₀ σ v w, ServerConc.Steps env demoConfs ServerConc.init σ₁ ∧ ServerConc.Steps env demoConfs σ₁ σ₀ ∧ ServerConc.Steps env demoConfs σ₀ σ ∧ Unwrapped σ ∧
      σ.reqs = risingSteps.map Step.request ∧ σ₁.reqs.length ≤ 1 ∧ σ₀.reqs.length ≤ 3 ∧ Acked σ₁ 0 ∧ Acked σ 2 ∧
      (1, Reply.ok (echo [⟨asc "country", asc "FR"⟩] ++ measureLine env (asc "max") (asc "height") v)) ∈ σ₀.replies ∧
      (3, Reply.ok (echo [⟨asc "country", asc "FR"⟩] ++ measureLine env (asc "max") (asc "height") w)) ∈ σ.replies ∧ F64.le v w = true := by
  have hq : Query.roughParse env.ord exText = .ok ⟨[⟨asc "height", [asc "max"]⟩], [⟨asc "country", asc "FR"⟩]⟩ := by
    rw [roughParse_ord env.ord (q := ⟨[⟨asc "height", [asc "max"]⟩], [⟨asc "country", asc "FR"⟩]⟩) (by decide +kernel), List.perm_singleton.1 (hord _)]
  obtain ⟨v, w, q1, q2, -⟩ := ex_extreme env hord hld hx hy hxn hyn
  have hacc := ex_accepted env hx hy
  obtain ⟨S₀, hS₀⟩ : ∃ S₀, S₀ = [] ++ newStore Demo.country Demo.slots :: [newStore Demo.tz Demo.slots] := ⟨_, rfl⟩
  have hdemo : Demo.stores = S₀ := by rw [hS₀]; rfl
  rw [← hS₀] at q1 q2 hacc
  obtain ⟨hp1, hacc⟩ := List.forall₂_cons.1 hacc
  obtain ⟨hp2, -⟩ := List.forall₂_cons.1 hacc
  obtain ⟨S₁, hS₁⟩ : ∃ S₁, S₁ = (Server.serve env S₀ (Step.posted [heightIn (asc "FR") (asc "5")]).request).1 := ⟨_, rfl⟩
  obtain ⟨S₂, hS₂⟩ : ∃ S₂, S₂ = (Server.serve env S₁ (Step.posted [heightIn (asc "FR") (asc "3")]).request).1 := ⟨_, rfl⟩
  have p1 : Server.serve env S₀ (Step.posted [heightIn (asc "FR") (asc "5")]).request = (S₁, .ok []) := by rw [hS₁]; exact Prod.ext rfl hp1
  have p2 : Server.serve env S₁ (Step.posted [heightIn (asc "FR") (asc "3")]).request = (S₂, .ok []) := by
    rw [hS₂]; refine Prod.ext rfl ?_; rw [hS₁]; exact hp2
  have q1 : Server.serve env S₁ (askFor Demo.country.name exText) = (S₁, .ok (echo [⟨asc "country", asc "FR"⟩] ++ measureLine env (asc "max") (asc "height") v)) := by
    refine Prod.ext (asked_same env _ _ _ country_name) ?_
    rw [hS₁]; exact q1
  have q2 : Server.serve env S₂ (askFor Demo.country.name exText) = (S₂, .ok (echo [⟨asc "country", asc "FR"⟩] ++ measureLine env (asc "max") (asc "height") w)) := by
    refine Prod.ext (asked_same env _ _ _ country_name) ?_
    rw [hS₂, hS₁]; exact q2
  have h0 := handled_none env
  rw [hdemo] at h0
  obtain ⟨σ₁, a1, a2⟩ := handled_more env h0 rfl _ _ _ p1 ok_fair.1 ok_fair.2
  obtain ⟨σ₀, b1, b2⟩ := handled_more env a2 rfl _ _ _ q1 ok_fair.1 ok_fair.2
  obtain ⟨τ, c1, c2⟩ := handled_more env b2 rfl _ _ _ p2 ok_fair.1 ok_fair.2
  obtain ⟨σ, d1, d2⟩ := handled_more env c2 rfl _ _ _ q2 ok_fair.1 ok_fair.2
  have hobs : (observations risingSteps).filter (fun fs => AgreeOn Demo.country.keys fs [⟨asc "country", asc "FR"⟩]) =
      [(heightIn (asc "FR") (asc "5")).fs, (heightIn (asc "FR") (asc "3")).fs] := by decide +kernel
  obtain ⟨v', w', e1, e2, e3, -⟩ := C94_concurrent_partial env hld demoConfs 0 Demo.country Demo.slots rfl country_valid country_name (by decide) demo_first
    σ₁ σ₀ σ σ a1 b1 (c1.trans d1) (.refl _) d2.unwrapped risingSteps (by rw [d2.reqs]; rfl) rising_correct (by
      intro j ls hj
      match j with
      | 0 => exact d2.reps 0 _ rfl
      | 1 => simp [risingSteps] at hj
      | 2 => exact d2.reps 2 _ rfl
      | 3 => simp [risingSteps] at hj
      | j + 4 => simp [risingSteps] at hj)
    1 3 (by rw [a2.reqs]; simp) (by rw [b2.reqs]; simp) exText exText rfl rfl (asc "height") .max (.inl rfl) maxAsk_declares [⟨asc "country", asc "FR"⟩] hq hq
    12582602682680778473 fr_key (by decide) (by decide +kernel) (0, 0) (heightIn (asc "FR") (asc "5")).fs rfl (by decide +kernel) (a2.reps 0 _ rfl) (by
      rintro ⟨j, p⟩ fs ho - hne
      rw [a2.reqs]
      match j, p with
      | 0, 0 => exact absurd rfl hne
      | 0, p + 1 => exact absurd ho (by simp [obsAt, risingSteps, Step.posts])
      | j + 1, p => show 1 ≤ j + 1; omega)
    (fr_apart (by decide +kernel)) (by rw [country_size]; decide) (by
      rw [hobs]
      unfold numbersIn heightIn
      simp only [List.flatten_cons, List.flatten_nil, List.append_nil, List.cons_append, List.nil_append, List.filterMap_cons, List.filterMap_nil]
      rw [if_neg (by decide +kernel), if_pos (by decide +kernel), hx, hy]
      simp [hxn, hyn]) _ _ (b2.reps 1 _ rfl) (d2.reps 3 _ rfl)
  refine ⟨σ₁, σ₀, σ, v', w', a1, b1, c1.trans d1, d2.unwrapped, by rw [d2.reqs]; rfl, by rw [a2.reqs]; simp, by rw [b2.reqs]; simp, a2.reps 0 _ rfl, d2.reps 2 _ rfl,
    ?_, ?_, e3 rfl⟩
  · rw [← show (Reply.ok (echo [⟨asc "country", asc "FR"⟩] ++ measureLine env (asc "max") (asc "height") v)) =
      .ok (echo [⟨asc "country", asc "FR"⟩] ++ measureLine env (asc "max") (asc "height") v') from e1]
    exact b2.reps 1 _ rfl
  · rw [← show (Reply.ok (echo [⟨asc "country", asc "FR"⟩] ++ measureLine env (asc "max") (asc "height") w)) =
      .ok (echo [⟨asc "country", asc "FR"⟩] ++ measureLine env (asc "max") (asc "height") w') from e2]
    exact d2.reps 3 _ rfl

/-- airports CDG and TLS of "FR", uniquecount(iata)?, airport CDG again, uniquecount(iata)? -/
def againSteps : List Step := [.posted [⟨asc "0", 0x3b, frIata (asc "CDG")⟩], .posted [⟨asc "0", 0x3b, frIata (asc "TLS")⟩],
  .other (askFor Demo.country.name airText), .posted [⟨asc "0", 0x3b, frIata (asc "CDG")⟩], .other (askFor Demo.country.name airText)]

theorem againSteps_correct : ∀ st ∈ againSteps, st.Correct := by
  have h := oneByOne_correct (obs := [frIata (asc "CDG"), frIata (asc "TLS")]) (by decide +kernel)
  intro st hst
  simp only [againSteps, List.mem_cons, List.not_mem_nil, or_false] at hst
  rcases hst with rfl | rfl | rfl | rfl | rfl
  · exact h _ (by simp [oneByOne])
  · exact h _ (by simp [oneByOne])
  · exact other_correct _
  · exact h _ (by simp [oneByOne])
  · exact other_correct _

/-- instance of C95_concurrent_partial: there is a run of the demo program that meets all its hypotheses, with σ₁ after the first airport, σm after the second, σ₀ after the first query and σ
after the second query; the second is answered with the number of the first. -/
example (env : Env) (hord : ∀ l, (env.ord l).Perm l) :
    ∃ σ₁ σm σ₀ σ n, ServerConc.Steps env demoConfs ServerConc.init σ₁ ∧ ServerConc.Steps env demoConfs σ₁ σm ∧ ServerConc.Steps env demoConfs σm σ₀ ∧
      ServerConc.Steps env demoConfs σ₀ σ ∧ Unwrapped σ ∧ σ.reqs = againSteps.map Step.request ∧ Acked σ₁ 0 ∧ Acked σm 1 ∧ Acked σ 3 ∧
      (2, Reply.ok (echo [⟨asc "country", asc "FR"⟩] ++ measureLine env (asc "uniquecount") (asc "iata") (F64.ofInt n))) ∈ σ₀.replies ∧
      (4, Reply.ok (echo [⟨asc "country", asc "FR"⟩] ++ measureLine env (asc "uniquecount") (asc "iata") (F64.ofInt n))) ∈ σ.replies := by
  obtain ⟨n, q1, q2⟩ := ex_again env hord
  obtain ⟨a1, a3, a4, a5⟩ := thrice_ok
  have hacc : AllAccepted env [frIata (asc "CDG"), frIata (asc "TLS"), frIata (asc "CDG")] := by
    refine (ofFR_accepted env a1 a3).2 ⟨fun fs hfs fv hfv e => absurd e (a4 fs hfs fv hfv), ?_⟩
    rintro g rest e -
    obtain ⟨rfl, -⟩ := List.cons.inj e
    exact a5
  unfold AllAccepted at hacc
  obtain ⟨S₀, hS₀⟩ : ∃ S₀, S₀ = [] ++ newStore Demo.country Demo.slots :: [newStore Demo.tz Demo.slots] := ⟨_, rfl⟩
  have hdemo : Demo.stores = S₀ := by rw [hS₀]; rfl
  rw [← hS₀] at q1 q2
  rw [hdemo] at hacc
  obtain ⟨hp1, hacc⟩ := List.forall₂_cons.1 hacc
  obtain ⟨hp2, hacc⟩ := List.forall₂_cons.1 hacc
  obtain ⟨hp3, -⟩ := List.forall₂_cons.1 hacc
  obtain ⟨r₁, hr₁⟩ : ∃ r, r = (Step.posted [⟨asc "0", 0x3b, frIata (asc "CDG")⟩]).request := ⟨_, rfl⟩
  obtain ⟨r₂, hr₂⟩ : ∃ r, r = (Step.posted [⟨asc "0", 0x3b, frIata (asc "TLS")⟩]).request := ⟨_, rfl⟩
  obtain ⟨S₁, hS₁⟩ : ∃ S₁, S₁ = (Server.serve env S₀ r₁).1 := ⟨_, rfl⟩
  obtain ⟨S₂, hS₂⟩ : ∃ S₂, S₂ = (Server.serve env S₁ r₂).1 := ⟨_, rfl⟩
  obtain ⟨S₃, hS₃⟩ : ∃ S₃, S₃ = (Server.serve env S₂ r₁).1 := ⟨_, rfl⟩
  have p1 : Server.serve env S₀ r₁ = (S₁, .ok []) := by rw [hS₁]; exact Prod.ext rfl (by rw [hr₁]; exact hp1)
  have p2 : Server.serve env S₁ r₂ = (S₂, .ok []) := by
    rw [hS₂]; refine Prod.ext rfl ?_; rw [hS₁, hr₁, hr₂]; exact hp2
  have p3 : Server.serve env S₂ r₁ = (S₃, .ok []) := by
    rw [hS₃]; refine Prod.ext rfl ?_; rw [hS₂, hS₁, hr₁, hr₂]; exact hp3
  have q1 : Server.serve env S₂ (askFor Demo.country.name airText) =
      (S₂, .ok (echo [⟨asc "country", asc "FR"⟩] ++ measureLine env (asc "uniquecount") (asc "iata") (F64.ofInt n))) := by
    refine Prod.ext (asked_same env _ _ _ country_name) ?_
    rw [hS₂, hS₁, hr₁, hr₂]; exact q1
  have q2 : Server.serve env S₃ (askFor Demo.country.name airText) =
      (S₃, .ok (echo [⟨asc "country", asc "FR"⟩] ++ measureLine env (asc "uniquecount") (asc "iata") (F64.ofInt n))) := by
    refine Prod.ext (asked_same env _ _ _ country_name) ?_
    rw [hS₃, hS₂, hS₁, hr₁, hr₂]; exact q2
  have h0 := handled_none env
  rw [hdemo] at h0
  obtain ⟨σ₁, a1, a2⟩ := handled_more env h0 rfl _ _ _ p1 ok_fair.1 ok_fair.2
  obtain ⟨σm, m1, m2⟩ := handled_more env a2 rfl _ _ _ p2 ok_fair.1 ok_fair.2
  obtain ⟨σ₀, b1, b2⟩ := handled_more env m2 rfl _ _ _ q1 ok_fair.1 ok_fair.2
  obtain ⟨τ, c1, c2⟩ := handled_more env b2 rfl _ _ _ p3 ok_fair.1 ok_fair.2
  obtain ⟨σ, d1, d2⟩ := handled_more env c2 rfl _ _ _ q2 ok_fair.1 ok_fair.2
  have hreqs : σ.reqs = againSteps.map Step.request := by rw [d2.reqs, hr₁, hr₂]; rfl
  obtain ⟨n', e1, e2⟩ := C95_concurrent_partial env demoConfs 0 Demo.country Demo.slots rfl country_valid country_name (by decide) demo_first
    σ₁ σm σ₀ σ σ a1 m1 b1 (c1.trans d1) (.refl _) d2.unwrapped againSteps hreqs againSteps_correct (by
      intro j ls hj
      match j with
      | 0 => exact d2.reps 0 _ rfl
      | 1 => exact d2.reps 1 _ rfl
      | 2 => simp [againSteps] at hj
      | 3 => exact d2.reps 3 _ rfl
      | 4 => simp [againSteps] at hj
      | j + 5 => simp [againSteps] at hj)
    2 4 (by rw [m2.reqs]; simp) (by rw [b2.reqs]; simp) airText airText rfl rfl (asc "iata") 10 air_declares [⟨asc "country", asc "FR"⟩]
    (airText_parse env hord) (airText_parse env hord)
    12582602682680778473 fr_key (by decide) (by decide +kernel) (0, 0) (frIata (asc "CDG")) rfl (by decide +kernel) (a2.reps 0 _ rfl) (by
      rintro ⟨j, p⟩ fs ho - hne
      rw [a2.reqs]
      match j, p with
      | 0, 0 => exact absurd rfl hne
      | 0, p + 1 => exact absurd ho (by simp [obsAt, againSteps, Step.posts])
      | j + 1, p => show 1 ≤ j + 1; omega)
    (fr_apart (by decide +kernel)) (by rw [country_size]; decide) (asc "CDG") (by decide +kernel) (by
      intro fs hfs _ v hv
      have hobs : observations againSteps = [frIata (asc "CDG"), frIata (asc "TLS"), frIata (asc "CDG")] := rfl
      rw [hobs] at hfs
      simp only [List.mem_cons, List.not_mem_nil, or_false] at hfs
      rcases hfs with rfl | rfl | rfl
      · exact ⟨(0, 0), _, rfl, by decide +kernel, m2.reps 0 _ rfl, hv⟩
      · exact ⟨(1, 0), _, rfl, by decide +kernel, m2.reps 1 _ rfl, hv⟩
      · exact ⟨(0, 0), _, rfl, by decide +kernel, m2.reps 0 _ rfl, hv⟩)
    _ _ (b2.reps 2 _ rfl) (d2.reps 4 _ rfl)
  refine ⟨σ₁, σm, σ₀, σ, n', a1, m1, b1, c1.trans d1, d2.unwrapped, hreqs, a2.reps 0 _ rfl, m2.reps 1 _ rfl, d2.reps 3 _ rfl, ?_, ?_⟩
  · rw [← show (Reply.ok (echo [⟨asc "country", asc "FR"⟩] ++ measureLine env (asc "uniquecount") (asc "iata") (F64.ofInt n))) =
      .ok (echo [⟨asc "country", asc "FR"⟩] ++ measureLine env (asc "uniquecount") (asc "iata") (F64.ofInt n')) from e1]
    exact b2.reps 2 _ rfl
  · rw [← show (Reply.ok (echo [⟨asc "country", asc "FR"⟩] ++ measureLine env (asc "uniquecount") (asc "iata") (F64.ofInt n))) =
      .ok (echo [⟨asc "country", asc "FR"⟩] ++ measureLine env (asc "uniquecount") (asc "iata") (F64.ofInt n')) from e2]
    exact d2.reps 4 _ rfl

/-- height 5 of "FR", height 3 of "FR", min(height), mean(height), max(height)? -/
def fitSteps : List Step := [.posted [heightIn (asc "FR") (asc "5")], .posted [heightIn (asc "FR") (asc "3")], .other (askFor Demo.country.name fitText)]

theorem fitSteps_correct : ∀ st ∈ fitSteps, st.Correct := by
  intro st hst
  simp only [fitSteps, List.mem_cons, List.not_mem_nil, or_false] at hst
  rcases hst with rfl | rfl | rfl
  · exact ex_correct _ (by simp [exSteps])
  · exact ex_correct _ (by simp [exSteps])
  · exact other_correct _

/-- instance of C96_concurrent_partial: there is a run of the demo program that meets all its hypotheses, with σ₁ after the first height, σ₀ after the second and σ after the query. -/
example (env : Env) (hord : ∀ l, (env.ord l).Perm l) (hld : ParsesDoubles env.lib) (h5 : env.lib.parseFloat (asc "5") = some (F64.ofNat 5))
    (h3 : env.lib.parseFloat (asc "3") = some (F64.ofNat 3)) :
    ∃ σ₁ σ₀ σ lo m hi, ServerConc.Steps env demoConfs ServerConc.init σ₁ ∧ ServerConc.Steps env demoConfs σ₁ σ₀ ∧ ServerConc.Steps env demoConfs σ₀ σ ∧
      Unwrapped σ ∧ σ.reqs = fitSteps.map Step.request ∧ Acked σ₁ 0 ∧ Acked σ₀ 1 ∧
      (2, Reply.ok (echo [⟨asc "country", asc "FR"⟩] ++ measureLine env (asc "min") (asc "height") lo ++ measureLine env (asc "mean") (asc "height") m ++
          measureLine env (asc "max") (asc "height") hi)) ∈ σ.replies ∧ F64.le lo m = true ∧ F64.le m hi = true := by
  obtain ⟨lo, m, hi, q1, -⟩ := ex_fit env hord hld h5 h3
  have hacc := ex_accepted env h5 h3
  obtain ⟨S₀, hS₀⟩ : ∃ S₀, S₀ = [] ++ newStore Demo.country Demo.slots :: [newStore Demo.tz Demo.slots] := ⟨_, rfl⟩
  have hdemo : Demo.stores = S₀ := by rw [hS₀]; rfl
  rw [← hS₀] at q1 hacc
  obtain ⟨hp1, hacc⟩ := List.forall₂_cons.1 hacc
  obtain ⟨hp2, -⟩ := List.forall₂_cons.1 hacc
  obtain ⟨S₁, hS₁⟩ : ∃ S₁, S₁ = (Server.serve env S₀ (Step.posted [heightIn (asc "FR") (asc "5")]).request).1 := ⟨_, rfl⟩
  obtain ⟨S₂, hS₂⟩ : ∃ S₂, S₂ = (Server.serve env S₁ (Step.posted [heightIn (asc "FR") (asc "3")]).request).1 := ⟨_, rfl⟩
  have p1 : Server.serve env S₀ (Step.posted [heightIn (asc "FR") (asc "5")]).request = (S₁, .ok []) := by rw [hS₁]; exact Prod.ext rfl hp1
  have p2 : Server.serve env S₁ (Step.posted [heightIn (asc "FR") (asc "3")]).request = (S₂, .ok []) := by
    rw [hS₂]; refine Prod.ext rfl ?_; rw [hS₁]; exact hp2
  have q1 : Server.serve env S₂ (askFor Demo.country.name fitText) = (S₂, .ok (echo [⟨asc "country", asc "FR"⟩] ++ measureLine env (asc "min") (asc "height") lo ++
      measureLine env (asc "mean") (asc "height") m ++ measureLine env (asc "max") (asc "height") hi)) := by
    refine Prod.ext (asked_same env _ _ _ country_name) ?_
    rw [hS₂, hS₁]; exact q1
  have h0 := handled_none env
  rw [hdemo] at h0
  obtain ⟨σ₁, a1, a2⟩ := handled_more env h0 rfl _ _ _ p1 ok_fair.1 ok_fair.2
  obtain ⟨σ₀, b1, b2⟩ := handled_more env a2 rfl _ _ _ p2 ok_fair.1 ok_fair.2
  obtain ⟨σ, d1, d2⟩ := handled_more env b2 rfl _ _ _ q1 ok_fair.1 ok_fair.2
  have hobs : (observations fitSteps).filter (fun fs => AgreeOn Demo.country.keys fs [⟨asc "country", asc "FR"⟩]) =
      [(heightIn (asc "FR") (asc "5")).fs, (heightIn (asc "FR") (asc "3")).fs] := by decide +kernel
  have hnum : [F64.ofNat 5, F64.ofNat 3] = numbersIn env.lib (asc "height") ((observations fitSteps).filter fun fs => AgreeOn Demo.country.keys fs [⟨asc "country", asc "FR"⟩]) := by
    rw [hobs]
    unfold numbersIn heightIn
    simp only [List.flatten_cons, List.flatten_nil, List.append_nil, List.cons_append, List.nil_append, List.filterMap_cons, List.filterMap_nil]
    rw [if_neg (by decide +kernel), if_pos trivial, if_pos trivial, h5, h3]
  have five : ∃ q, value (F64.ofNat 5) = some q := Option.isSome_iff_exists.1 (by decide +kernel)
  have three : ∃ q, value (F64.ofNat 3) = some q := Option.isSome_iff_exists.1 (by decide +kernel)
  obtain ⟨g1, g2, g3⟩ := fit_declares
  obtain ⟨lo', m', hi', e1, e2, e3⟩ := C96_concurrent_partial env hld demoConfs 0 Demo.country Demo.slots rfl country_valid country_name (by decide) demo_first
    σ₁ σ₀ σ σ a1 b1 d1 (.refl _) d2.unwrapped fitSteps (by rw [d2.reqs]; rfl) fitSteps_correct (by
      intro j ls hj
      match j with
      | 0 => exact d2.reps 0 _ rfl
      | 1 => exact d2.reps 1 _ rfl
      | 2 => simp [fitSteps] at hj
      | j + 3 => simp [fitSteps] at hj)
    2 (by rw [b2.reqs]; simp) fitText rfl (asc "height") g1 g2 g3 [⟨asc "country", asc "FR"⟩] (fitText_parse env hord)
    12582602682680778473 fr_key (by decide) (by decide +kernel) (0, 0) (heightIn (asc "FR") (asc "5")).fs rfl (by decide +kernel) (a2.reps 0 _ rfl) (by
      rintro ⟨j, p⟩ fs ho - hne
      rw [a2.reqs]
      match j, p with
      | 0, 0 => exact absurd rfl hne
      | 0, p + 1 => exact absurd ho (by simp [obsAt, fitSteps, Step.posts])
      | j + 1, p => show 1 ≤ j + 1; omega)
    (fr_apart (by decide +kernel)) (by rw [country_size]; decide) (by decide +kernel) _ hnum (by simp) (by
      intro x hx
      simp only [List.mem_cons, List.not_mem_nil, or_false] at hx
      rcases hx with rfl | rfl <;> assumption) (by
      intro x hx y hy
      simp only [List.mem_cons, List.not_mem_nil, or_false] at hx hy
      rcases hx with rfl | rfl <;> rcases hy with rfl | rfl <;> exact Option.isSome_iff_exists.1 (by decide +kernel)) _ (d2.reps 2 _ rfl)
  refine ⟨σ₁, σ₀, σ, lo', m', hi', a1, b1, d1, d2.unwrapped, by rw [d2.reqs]; rfl, a2.reps 0 _ rfl, b2.reps 1 _ rfl, ?_, e2, e3⟩
  rw [← show (Reply.ok (echo [⟨asc "country", asc "FR"⟩] ++ measureLine env (asc "min") (asc "height") lo ++
      measureLine env (asc "mean") (asc "height") m ++ measureLine env (asc "max") (asc "height") hi)) =
      .ok (echo [⟨asc "country", asc "FR"⟩] ++ measureLine env (asc "min") (asc "height") lo' ++
      measureLine env (asc "mean") (asc "height") m' ++ measureLine env (asc "max") (asc "height") hi') from e1]
  exact d2.reps 2 _ rfl

end Starbow.Props
