import Verif.Props.TogetherRace
import Verif.Props.UnknownRaceDemo
import Verif.Props.UntouchedRaceDemo
import Verif.Props.ReadPanic
/-
C92 under concurrent requests: an instance in the program's own configuration.
-/
namespace Starbow.Props
open Starbow.Collation Starbow.Spec Starbow.Storage Starbow.Server Starbow.ServerConc Starbow.Cell Starbow.Probe

theorem applied_serve (lib : Lib) (c : Collator) : ∀ (rows : List Row) (buf b : Bytes) (i0 : Bool), applyRows lib c buf i0 rows = (b, .val none) →
    (Spec.serve lib c buf i0 rows).1 = b
  | [], buf, b, i0, h => by
    rw [applyRows] at h
    exact (Prod.mk.inj h).1
  | r :: rows, buf, b, i0, h => by
    rw [applyRows] at h
    rw [Spec.serve]
    simp only
    rcases hu : Collation.update lib c r buf i0 with ⟨b₁, o⟩
    rw [hu] at h
    rcases o with (_ | e) | _
    · exact applied_serve lib c rows b₁ b false h
    · exact absurd (Prod.mk.inj h).2 (by simp)
    · exact absurd (Prod.mk.inj h).2 (by simp)

/-- a record can be asked anything without a panic -/
theorem record_fair (env : Env) (s : Schema) (hv : ValidSchema s) {rows : List Row} {buf : Bytes} (h : RecordOf env.lib (compile s) rows buf) (crit : List FV) (fml : List FM) :
    resultReply env crit (Collation.read env.lib (compile s) fml buf) ≠ .panic ∧ resultReply env crit (Collation.read env.lib (compile s) fml buf) ≠ .hang := by
  have hne : Collation.read env.lib (compile s) fml buf ≠ .panic := by
    intro hp
    rw [C27_read] at hp
    obtain ⟨p, -, h1⟩ := together_panic _ _ _ hp
    have h2 := (C25_never_panics env.lib s hv true rows p.1 p.2).2
    rw [applied_serve env.lib (compile s) rows _ _ true h] at h2
    exact h2 h1
  rcases hr : Collation.read env.lib (compile s) fml buf with ⟨r, _ | e⟩ | _
  · simp [resultReply]
  · simp [resultReply]
  · exact absurd hr hne

theorem three_run (env : Env) {S₀ : List Store} (h0 : Handled env ServerConc.init S₀ [] [])
    (hacc : List.Forall₂ Step.Accepted (oneByOne [frHeight (asc "5")]) (serveAll env S₀ ((oneByOne [frHeight (asc "5")]).map Step.request)).2) (text : Bytes) (rep : Reply)
    (hrep : (Server.serve env (serveAll env S₀ ((oneByOne [frHeight (asc "5")]).map Step.request)).1 (askFor Demo.country.name text)).2 = rep)
    (h1 : rep ≠ .panic) (h2 : rep ≠ .hang) :
    ∃ σ, ServerConc.Steps env demoConfs ServerConc.init σ ∧ σ.reqs = [(Step.posted [⟨asc "0", 0x3b, frHeight (asc "5")⟩]).request, askFor Demo.country.name text] ∧
      (1, rep) ∈ σ.replies := by
  obtain ⟨hp, -⟩ := List.forall₂_cons.1 hacc
  obtain ⟨r, hr⟩ : ∃ r, r = (Step.posted [⟨asc "0", 0x3b, frHeight (asc "5")⟩]).request := ⟨_, rfl⟩
  obtain ⟨S₁, hS₁⟩ : ∃ S₁, S₁ = (Server.serve env S₀ r).1 := ⟨_, rfl⟩
  have p : Server.serve env S₀ r = (S₁, .ok []) := by rw [hS₁]; exact Prod.ext rfl (by rw [hr]; exact hp)
  have q : Server.serve env S₁ (askFor Demo.country.name text) = (S₁, rep) := by
    refine Prod.ext (asked_same env _ _ _ country_name) ?_
    rw [hS₁, hr]; exact hrep
  obtain ⟨σ₀, -, b⟩ := handled_more env h0 rfl _ _ _ p ok_fair.1 ok_fair.2
  obtain ⟨σ, -, c⟩ := handled_more env b rfl _ _ _ q h1 h2
  exact ⟨σ, c.run, by rw [c.reqs, hr]; rfl, c.reps 1 _ rfl⟩

/-- instance of C92_concurrent: the program takes a height of FR and is asked for three measures; there are runs in which it is asked for one of them, and its answers in those make up the answer. -/
example (env : Env) (hord : env.ord = id) (hx : env.lib.parseFloat (asc "5") ≠ none) :
    ∃ σ all r, ServerConc.Steps env demoConfs ServerConc.init σ ∧ (1, all) ∈ σ.replies ∧
      PutTogether (echo [⟨asc "country", asc "FR"⟩]) [(asc "*", asc "count"), (asc "height", asc "mean"), (asc "height", asc "max")] r all ∧
      ∀ p ∈ [(asc "*", asc "count"), (asc "height", asc "mean"), (asc "height", asc "max")], ∃ σ', ServerConc.Steps env demoConfs ServerConc.init σ' ∧
        σ'.reqs = σ.reqs.set 1 (askFor Demo.country.name (asc "select " ++ p.2 ++ asc "(" ++ p.1 ++ asc ") where country='FR'")) ∧
        (∀ s, (σ'.stores s).m = (σ.stores s).m) ∧ σ'.replies = σ.replies.map fun x => if x.1 = 1 then (1, r p) else x := by
  have h1 : Query.roughParse id (asc "select count(*), mean(height), max(height) where country='FR'") =
    .ok ⟨[⟨asc "*", [asc "count"]⟩, ⟨asc "height", [asc "mean", asc "max"]⟩], [⟨asc "country", asc "FR"⟩]⟩ := by decide +kernel
  have h2 : ∀ p ∈ [(asc "*", asc "count"), (asc "height", asc "mean"), (asc "height", asc "max")],
      Query.roughParse id (asc "select " ++ p.2 ++ asc "(" ++ p.1 ++ asc ") where country='FR'") = .ok (single p [⟨asc "country", asc "FR"⟩]) := by decide +kernel
  have hof : OfFR [frHeight (asc "5")] ∧ (∀ fs ∈ [frHeight (asc "5")], Plainly fs) ∧ (∀ fs ∈ [frHeight (asc "5")], ∀ fv ∈ fs, fv.f ≠ asc "iata") ∧
      (∀ fs ∈ [frHeight (asc "5")], ∀ fv ∈ fs, fv.f = asc "height" → fv.v = asc "5") := by decide +kernel
  have hacc : AllAccepted env [frHeight (asc "5")] := by
    refine (ofFR_accepted env hof.1 hof.2.1).2 ⟨?_, ?_⟩
    · intro fs hfs fv hfv e
      rw [hof.2.2.2 fs hfs fv hfv e]
      exact hx
    · rintro g rest - ⟨fs, hfs, fv, hfv, e⟩
      exact absurd e (hof.2.2.1 fs hfs fv hfv)
  obtain ⟨rows, buf, e1, e2, e3⟩ := ofFR_answer env hof.1 hof.2.1 (by simp) hacc
  have e4 := e3 _ _ (show Query.roughParse env.ord _ = _ by rw [hord]; exact h1)
  obtain ⟨rep, hrep⟩ : ∃ rep, rep = resultReply env [⟨asc "country", asc "FR"⟩] (Collation.read env.lib (compile Demo.country)
    [⟨asc "*", [asc "count"]⟩, ⟨asc "height", [asc "mean", asc "max"]⟩] buf) := ⟨_, rfl⟩
  rw [← hrep] at e4
  rw [afterPosts_all] at e4
  rw [allAccepted_all] at hacc
  have hfair : rep ≠ .panic ∧ rep ≠ .hang := by
    rw [hrep]
    exact record_fair env Demo.country country_valid e2 _ _
  obtain ⟨σ, b1, b2, b3⟩ := three_run env (handled_none env) hacc _ _ e4 hfair.1 hfair.2
  obtain ⟨r, c1, c2⟩ := C92_concurrent env demoConfs σ b1 Demo.country.name country_name _ _ (by rw [hord]; exact h1) (by decide +kernel)
    (fun p => asc "select " ++ p.2 ++ asc "(" ++ p.1 ++ asc ") where country='FR'") (by
      intro p hp
      rw [hord]
      exact h2 p hp) 1 (by rw [b2]; rfl) rep b3
  exact ⟨σ, rep, r, b1, b3, c1, c2⟩

end Starbow.Props
