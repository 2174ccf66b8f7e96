import Verif.Props.RisingDemo
/-
Property C66 for uniquecount under concurrent requests: an instance in the program's own configuration.
-/
namespace Starbow.Props
open Starbow.Collation Starbow.Spec Starbow.Storage Starbow.Server Starbow.ServerConc Starbow.BufmapConc Starbow.Cell Starbow.Probe

/-- airports CDG and TLS of "FR", uniquecount(iata)? -/
def airSteps : List Step := [.posted [⟨asc "0", 0x3b, frIata (asc "CDG")⟩], .posted [⟨asc "0", 0x3b, frIata (asc "TLS")⟩],
  .other (askFor Demo.country.name airText)]

theorem airSteps_correct : ∀ st ∈ airSteps, st.Correct := by
  intro st hst
  refine againSteps_correct st ?_
  simp only [airSteps, againSteps, List.mem_cons, List.not_mem_nil, or_false] at hst ⊢
  tauto

/-- instance of C66_uniquecount_partial: there is a run of the demo program that meets all its hypotheses, with σ₁ after the first airport, σ₀ after the second and σ after the query; it follows
that the answer is the count of a fresh counter to which the two codes were added. -/
example (env : Env) (hord : ∀ l, (env.ord l).Perm l) :
    ∃ σ₁ σ₀ σ q c₀ c n, ServerConc.Steps env demoConfs ServerConc.init σ₁ ∧ ServerConc.Steps env demoConfs σ₁ σ₀ ∧ ServerConc.Steps env demoConfs σ₀ σ ∧
      Unwrapped σ ∧ σ.reqs = airSteps.map Step.request ∧ Acked σ₁ 0 ∧ Acked σ₀ 1 ∧
      Hll.new (BitVec.ofInt 8 q) = .val c₀ ∧ runHll c₀ [some (asc "CDG"), some (asc "TLS")] = .val c ∧ Hll.count env.lib.log c = .val n ∧
      (2, Reply.ok (echo [⟨asc "country", asc "FR"⟩] ++ measureLine env (asc "uniquecount") (asc "iata") (F64.ofInt n))) ∈ σ.replies := by
  obtain ⟨n, q1, -⟩ := ex_again env hord
  obtain ⟨a1, a3, a4, a5⟩ := thrice_ok
  have hacc : AllAccepted env [frIata (asc "CDG"), frIata (asc "TLS"), frIata (asc "CDG")] := by
    refine (ofFR_accepted env a1 a3).2 ⟨fun fs hfs fv hfv e => absurd e (a4 fs hfs fv hfv), ?_⟩
    rintro g rest e -
    obtain ⟨rfl, -⟩ := List.cons.inj e
    exact a5
  unfold AllAccepted at hacc
  obtain ⟨S₀, hS₀⟩ : ∃ S₀, S₀ = [] ++ newStore Demo.country Demo.slots :: [newStore Demo.tz Demo.slots] := ⟨_, rfl⟩
  have hdemo : Demo.stores = S₀ := by rw [hS₀]; rfl
  rw [← hS₀] at q1
  rw [hdemo] at hacc
  obtain ⟨hp1, hacc⟩ := List.forall₂_cons.1 hacc
  obtain ⟨hp2, -⟩ := List.forall₂_cons.1 hacc
  obtain ⟨r₁, hr₁⟩ : ∃ r, r = (Step.posted [⟨asc "0", 0x3b, frIata (asc "CDG")⟩]).request := ⟨_, rfl⟩
  obtain ⟨r₂, hr₂⟩ : ∃ r, r = (Step.posted [⟨asc "0", 0x3b, frIata (asc "TLS")⟩]).request := ⟨_, rfl⟩
  obtain ⟨S₁, hS₁⟩ : ∃ S₁, S₁ = (Server.serve env S₀ r₁).1 := ⟨_, rfl⟩
  obtain ⟨S₂, hS₂⟩ : ∃ S₂, S₂ = (Server.serve env S₁ r₂).1 := ⟨_, rfl⟩
  have p1 : Server.serve env S₀ r₁ = (S₁, .ok []) := by rw [hS₁]; exact Prod.ext rfl (by rw [hr₁]; exact hp1)
  have p2 : Server.serve env S₁ r₂ = (S₂, .ok []) := by
    rw [hS₂]; refine Prod.ext rfl ?_; rw [hS₁, hr₁, hr₂]; exact hp2
  have q1 : Server.serve env S₂ (askFor Demo.country.name airText) =
      (S₂, .ok (echo [⟨asc "country", asc "FR"⟩] ++ measureLine env (asc "uniquecount") (asc "iata") (F64.ofInt n))) := by
    refine Prod.ext (asked_same env _ _ _ country_name) ?_
    rw [hS₂, hS₁, hr₁, hr₂]; exact q1
  have h0 := handled_none env
  rw [hdemo] at h0
  obtain ⟨σ₁, a1, a2⟩ := handled_more env h0 rfl _ _ _ p1 ok_fair.1 ok_fair.2
  obtain ⟨σ₀, b1, b2⟩ := handled_more env a2 rfl _ _ _ p2 ok_fair.1 ok_fair.2
  obtain ⟨σ, d1, d2⟩ := handled_more env b2 rfl _ _ _ q1 ok_fair.1 ok_fair.2
  have hreqs : σ.reqs = airSteps.map Step.request := by rw [d2.reqs, hr₁, hr₂]; rfl
  have hobs : observations airSteps = [frIata (asc "CDG"), frIata (asc "TLS")] := rfl
  have hvals : ((((observations airSteps).filter fun fs => AgreeOn Demo.country.keys fs [⟨asc "country", asc "FR"⟩]).flatten).filterMap fun fv =>
      if fv.f = asc "iata" then some fv.v else none) = [asc "CDG", asc "TLS"] := by
    rw [hobs]
    decide +kernel
  obtain ⟨q, c₀, c, n', -, e2, e3, e4, e5⟩ := C66_uniquecount_partial env demoConfs 0 Demo.country Demo.slots rfl country_valid country_name (by decide) demo_first
    σ₁ σ₀ σ a1 b1 d1 d2.unwrapped airSteps hreqs airSteps_correct (by
      intro j ls hj
      match j with
      | 0 => exact b2.reps 0 _ rfl
      | 1 => exact b2.reps 1 _ rfl
      | 2 => simp [airSteps] at hj
      | j + 3 => simp [airSteps] at hj)
    2 (by rw [b2.reqs]; simp) airText rfl (asc "iata") 10 air_declares [⟨asc "country", asc "FR"⟩]
    (airText_parse env hord)
    12582602682680778473 fr_key (by decide) (by decide +kernel) (0, 0) (frIata (asc "CDG")) rfl (by decide +kernel) (a2.reps 0 _ rfl) (by
      rintro ⟨j, p⟩ fs ho - hne
      rw [a2.reqs]
      match j, p with
      | 0, 0 => exact absurd rfl hne
      | 0, p + 1 => exact absurd ho (by simp [obsAt, airSteps, Step.posts])
      | j + 1, p => show 1 ≤ j + 1; omega)
    (fr_apart (by decide +kernel)) (by rw [country_size]; decide) _ (d2.reps 2 _ rfl) (asc "CDG") (by decide +kernel)
  refine ⟨σ₁, σ₀, σ, q, c₀, c, n', a1, b1, d1, d2.unwrapped, hreqs, a2.reps 0 _ rfl, b2.reps 1 _ rfl, e2, ?_, e4, ?_⟩
  · rw [hvals] at e3
    exact e3
  · rw [← show (Reply.ok (echo [⟨asc "country", asc "FR"⟩] ++ measureLine env (asc "uniquecount") (asc "iata") (F64.ofInt n))) = _ from e5]
    exact d2.reps 2 _ rfl

end Starbow.Props
