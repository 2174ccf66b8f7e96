import Verif.Props.UnknownRace
import Verif.Props.AnswerRace
import Verif.Props.RisingDemo
/-
C91 and C82 under concurrent requests: instances in the program's own configuration.
-/
namespace Starbow.Props
open Starbow.Collation Starbow.Spec Starbow.Storage Starbow.Server Starbow.ServerConc Starbow.Cell

theorem handled_first (env : Env) {S₀ : List Store} (h0 : Handled env ServerConc.init S₀ [] []) (fs : List FV)
    (hacc : List.Forall₂ Step.Accepted (oneByOne [fs]) (serveAll env S₀ ((oneByOne [fs]).map Step.request)).2) :
    ∃ σ S₁, Handled env σ S₁ ((oneByOne [fs]).map Step.request) [.ok []] := by
  obtain ⟨hp, -⟩ := List.forall₂_cons.1 hacc
  obtain ⟨r, hr⟩ : ∃ r, r = (Step.posted [⟨asc "0", 0x3b, fs⟩]).request := ⟨_, rfl⟩
  obtain ⟨S₁, hS₁⟩ : ∃ S₁, S₁ = (Server.serve env S₀ r).1 := ⟨_, rfl⟩
  have p : Server.serve env S₀ r = (S₁, .ok []) := by rw [hS₁]; exact Prod.ext rfl (by rw [hr]; exact hp)
  obtain ⟨σ, -, a⟩ := handled_more env h0 rfl _ _ _ p ok_fair.1 ok_fair.2
  refine ⟨σ, S₁, ?_⟩
  rw [hr] at a
  exact a

/-- the program takes `country=FR;colour=red;height=5` -/
theorem red_handled (env : Env) (hx : env.lib.parseFloat (asc "5") ≠ none) :
    ∃ σ S₁, Handled env σ S₁ ((oneByOne [redFR]).map Step.request) [.ok []] := by
  obtain ⟨h1, -⟩ := red_ok
  have hof : OfFR [redFR] ∧ (∀ fv ∈ redFR, fv.f ≠ asc "iata") ∧ (∀ fv ∈ redFR, fv.f = asc "height" → fv.v = asc "5") := by decide +kernel
  have hpl : ∀ fs ∈ [redFR], Plainly fs := fun fs h => by rw [List.mem_singleton.1 h]; exact h1
  have hacc : AllAccepted env [redFR] := by
    refine (ofFR_accepted env hof.1 hpl).2 ⟨?_, ?_⟩
    · intro fs hfs fv hfv e
      rw [List.mem_singleton.1 hfs] at hfv
      rw [hof.2.2 fv hfv e]
      exact hx
    · rintro g rest - ⟨fs, hfs, fv, hfv, e⟩
      rw [List.mem_singleton.1 hfs] at hfv
      exact absurd e (hof.2.1 fv hfv)
  unfold AllAccepted at hacc
  exact handled_first env (handled_none env) redFR hacc

/-- instance of C91_concurrent: a run of the program on `country=FR;colour=red;height=5`, which is accepted, has its counterpart on `shape=x;country=FR;height=5;size=3`. -/
example (env : Env) (hx : env.lib.parseFloat (asc "5") ≠ none) :
    ∃ R M, (0, Reply.ok []) ∈ R ∧ CanReach env programConfs (oneByOne [redFR]) R M ∧ CanReach env programConfs (oneByOne [xFR]) R M := by
  obtain ⟨h1, h2, h3, _⟩ := red_ok
  have hpl : ∀ fs ∈ [redFR], Plainly fs := fun fs h => by rw [List.mem_singleton.1 h]; exact h1
  obtain ⟨σ, S₁, h⟩ := red_handled env hx
  have hreach : CanReach env programConfs (oneByOne [redFR]) σ.replies fun s => (σ.stores s).m := ⟨σ, h.run, h.reqs, rfl, fun _ => rfl⟩
  refine ⟨_, _, h.reps 0 _ rfl, hreach, ?_⟩
  exact (C91_concurrent env programConfs _ _ (oneByOne_correct hpl) (oneByOne_correct fun fs h => by rw [List.mem_singleton.1 h]; exact h2)
    (.cons (.posted (by simp only [List.map_cons, List.map_nil]; rw [h3])) .nil) _ _).1 hreach

/-- instance of C82_concurrent: the same run, if Go iterates over fields in the order of the text, has its counterpart if it iterates the other way round -/
example (env : Env) (hx : env.lib.parseFloat (asc "5") ≠ none) (hord : env.ord = id) :
    ∃ σ σ', ServerConc.Steps env demoConfs ServerConc.init σ ∧ (0, Reply.ok []) ∈ σ.replies ∧
      ServerConc.Steps { env with ord := List.reverse } demoConfs ServerConc.init σ' ∧ σ'.reqs = σ.reqs ∧
      List.Forall₂ (fun a b => b.1 = a.1 ∧ SameButOrder env a.2 b.2) σ.replies σ'.replies := by
  obtain ⟨σ, S₁, h⟩ := red_handled env hx
  obtain ⟨σ', h1, h2, -, h4⟩ := C82_concurrent env List.reverse (fun l => by rw [hord]; exact .refl _) (fun l => l.reverse_perm) demoConfs σ h.run
  exact ⟨σ, σ', h.run, h.reps 0 _ rfl, h1, h2, h4⟩

end Starbow.Props
