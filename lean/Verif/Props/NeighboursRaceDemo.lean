import Verif.Props.NeighboursRace
import Verif.Props.AloneRace
import Verif.Props.UntouchedRaceDemo
/-
C90 under concurrent requests: an instances in the program's own configuration.
-/
namespace Starbow.Props
open Starbow.Collation Starbow.Spec Starbow.Storage Starbow.Server Starbow.ServerConc Starbow.Cell Starbow.Probe

theorem untouched_single : ∀ r ∈ untouchedSteps.map Step.request, SinglePost r := by
  intro r hr
  simp only [untouchedSteps, List.map_cons, List.map_nil, List.mem_cons, List.not_mem_nil, or_false] at hr
  have hpost : ∀ l : Line, l.Correct → SinglePost (Step.posted [l]).request := by
    intro l hl
    refine .inl ⟨l.text, ⟨hl.no_newline, hl.fits⟩, ?_⟩
    show post _ = post _
    congr 1
    simp [unlines]
  have hask : SinglePost (Step.other (askFor Demo.country.name maxText)).request := .inr fun h => absurd h.1 (by decide +kernel)
  have hc := untouchedSteps_correct
  rcases hr with rfl | rfl | rfl | rfl
  · exact hpost _ (hc (.posted [⟨asc "0", 0x3b, frHeight (asc "5")⟩]) (by simp [untouchedSteps]) _ List.mem_cons_self)
  · exact hask
  · exact hpost _ (hc (.posted [⟨asc "0", 0x3b, frBare⟩]) (by simp [untouchedSteps]) _ List.mem_cons_self)
  · exact hask

/-- instance of C90_concurrent_partial: the program takes two observations of FR and answers two questions about its height; without the collation tz it can do the same. -/
example (env : Env) (hord : ∀ l, (env.ord l).Perm l) (hld : ParsesDoubles env.lib) {x : F64} (hx : env.lib.parseFloat (asc "5") = some x) (hxn : x ≠ .nan) :
    ∃ σ', ServerConc.Steps env (serverOf [(Demo.country, Demo.slots)]) ServerConc.init σ' ∧ σ'.reqs = untouchedSteps.map Step.request ∧
      (0, Reply.ok []) ∈ σ'.replies ∧
      (1, Reply.ok (echo [⟨asc "country", asc "FR"⟩] ++ measureLine env (asc "max") (asc "height") x)) ∈ σ'.replies ∧
      (3, Reply.ok (echo [⟨asc "country", asc "FR"⟩] ++ measureLine env (asc "max") (asc "height") x)) ∈ σ'.replies := by
  obtain ⟨hacc, q1, q2⟩ := five_answers env hord hld hx hxn
  rw [afterPosts_all] at q1 q2
  rw [allAccepted_all] at hacc
  obtain ⟨σ₀, σ, b1, e1, hu, hreqs, hlen, r0, r2, r1, r3⟩ := untouched_run env (handled_none env) hacc q1 q2
  have hrun : ServerConc.Steps env (serverOf ([(Demo.country, Demo.slots)] ++ [(Demo.tz, Demo.slots)])) ServerConc.init σ := b1.trans e1
  obtain ⟨σ', h1, h2, -, h3, h4⟩ := C90_concurrent_partial env _ _ σ hrun (by rw [hreqs]; exact untouched_single)
  have r0' : (0, Reply.ok []) ∈ σ.replies := (ext_steps e1).replies.subset r0
  have hpath : ∃ c ∈ [(Demo.country, Demo.slots)], (askFor Demo.country.name maxText).path = asc "/collation/" ++ c.1.name := ⟨_, List.mem_cons_self, rfl⟩
  exact ⟨σ', h1, by rw [h2, hreqs], h4 0 _ (by rw [hreqs]; rfl) rfl _ r0', (h3 1 _ (by rw [hreqs]; rfl) hpath _).2 r1, (h3 3 _ (by rw [hreqs]; rfl) hpath _).2 r3⟩

theorem once_reply {l : List (Nat × Reply)} (h : (l.map Prod.fst).Nodup) {j : Nat} {r r' : Reply} (h1 : (j, r) ∈ l) (h2 : (j, r') ∈ l) : r = r' := by
  have := List.inj_on_of_nodup_map h h1 h2 rfl
  exact (Prod.mk.inj this).2

/-- instance of C90_answers_concurrent_partial: the same run; a server with country alone can do the same, down to the replies to the posts. -/
example (env : Env) (hord : ∀ l, (env.ord l).Perm l) (hld : ParsesDoubles env.lib) {x : F64} (hx : env.lib.parseFloat (asc "5") = some x) (hxn : x ≠ .nan) :
    ∃ σ', ServerConc.Steps env (serverOf [(Demo.country, Demo.slots)]) ServerConc.init σ' ∧ σ'.reqs = untouchedSteps.map Step.request ∧
      (∀ r, (0, r) ∈ σ'.replies ↔ r = .ok []) ∧
      (∀ r, (3, r) ∈ σ'.replies ↔ r = .ok (echo [⟨asc "country", asc "FR"⟩] ++ measureLine env (asc "max") (asc "height") x)) := by
  obtain ⟨hacc, q1, q2⟩ := five_answers env hord hld hx hxn
  rw [afterPosts_all] at q1 q2
  rw [allAccepted_all] at hacc
  obtain ⟨σ₀, σ, b1, e1, hu, hreqs, hlen, r0, r2, r1, r3⟩ := untouched_run env (handled_none env) hacc q1 q2
  have hrun : ServerConc.Steps env (serverOf ([] ++ (Demo.country, Demo.slots) :: [(Demo.tz, Demo.slots)])) ServerConc.init σ := b1.trans e1
  have r0' : (0, Reply.ok []) ∈ σ.replies := (ext_steps e1).replies.subset r0
  have honce := (C78_once env _ σ hrun).1
  obtain ⟨σ', h1, h2, -, h3⟩ := C90_answers_concurrent_partial env [] [(Demo.tz, Demo.slots)] (Demo.country, Demo.slots) (by simp) σ hrun (by
    intro j req r hj hpath hjr
    rw [hreqs] at hj
    have hask : (Step.other (askFor Demo.country.name maxText)).request.path ≠ asc "/obs" := by decide +kernel
    match j with
    | 0 => exact ⟨_, once_reply honce hjr r0'⟩
    | 1 => obtain rfl := Option.some.inj hj; exact absurd hpath hask
    | 2 => exact ⟨_, once_reply honce hjr r2⟩
    | 3 => obtain rfl := Option.some.inj hj; exact absurd hpath hask
    | j + 4 => simp [untouchedSteps] at hj)
  refine ⟨σ', h1, by rw [h2, hreqs], fun r => ?_, fun r => ?_⟩
  · rw [h3 0 _ (by rw [hreqs]; rfl) (.inr rfl) r]
    exact ⟨fun h => once_reply honce h r0', fun h => h ▸ r0'⟩
  · rw [h3 3 _ (by rw [hreqs]; rfl) (.inl rfl) r]
    exact ⟨fun h => once_reply honce h r3, fun h => h ▸ r3⟩

end Starbow.Props
