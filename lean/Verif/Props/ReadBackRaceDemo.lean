import Verif.Props.ReadBackRace
import Verif.Props.UntouchedRaceDemo
/-
C81 under concurrent requests: an instance in the program's own configuration.
-/
namespace Starbow.Props
open Starbow.Collation Starbow.Spec Starbow.Storage Starbow.Server Starbow.ServerConc Starbow.Cell Starbow.Probe

/-- instance of C81_concurrent: there is a run of the demo program with a successful answer about the height of "FR", and what a reader makes of its results is one list of lines. -/
example (env : Env) (hfmt : PrintsNumbers env) (hord : ∀ l, (env.ord l).Perm l) (hld : ParsesDoubles env.lib) {x : F64} (hx : env.lib.parseFloat (asc "5") = some x)
    (hxn : x ≠ .nan) :
    ∃ σ body rest, ServerConc.Steps env (serverOf programConfs) ServerConc.init σ ∧ σ.reqs = untouchedSteps.map Step.request ∧ (1, Reply.ok body) ∈ σ.replies ∧
      rest ≠ [] ∧ body = echo [⟨asc "country", asc "FR"⟩] ++ rest ∧ ∃ res : List FMV, res ≠ [] ∧ ∀ ls, Reads rest ls ↔ ls = res.map (resultOf env) := by
  obtain ⟨hacc, q1, q2⟩ := five_answers env hord hld hx hxn
  rw [afterPosts_all] at q1 q2
  rw [allAccepted_all] at hacc
  obtain ⟨σ₀, σ, b1, e1, hu, hreqs, hlen, r0, r2, r1, r3⟩ := untouched_run env (handled_none env) hacc q1 q2
  have hne := measureLine_more env [⟨asc "country", asc "FR"⟩] (asc "max") (asc "height") x
  obtain ⟨rest, hrest⟩ : ∃ r, r = measureLine env (asc "max") (asc "height") x := ⟨_, rfl⟩
  rw [← hrest] at r1 hne
  have hrun : ServerConc.Steps env (serverOf programConfs) ServerConc.init σ := b1.trans e1
  obtain ⟨q, s, c, res, h1, -, -, -, -, ⟨rest', h2, h3⟩, -⟩ := C81_concurrent env hfmt hord programConfs
    (by intro c hc; simp only [programConfs, List.mem_cons, List.not_mem_nil, or_false] at hc; rcases hc with rfl | rfl
        · exact country_valid
        · exact tz_valid) σ hrun 1 (askFor Demo.country.name maxText) (by rw [hreqs]; rfl) (by decide +kernel) _ r1
  have hq : Query.roughParse env.ord maxText = .ok q := h1
  rw [maxText_parse env hord] at hq
  injection hq with hq
  subst hq
  obtain rfl := List.append_cancel_left h2
  have hne' : rest ≠ [] := by
    rintro rfl
    exact absurd hne (by simp)
  refine ⟨σ, _, rest, hrun, hreqs, r1, hne', rfl, res, ?_, h3⟩
  rintro rfl
  have := (h3 []).2 rfl
  exact hne' (by simpa using this.2)

end Starbow.Props
