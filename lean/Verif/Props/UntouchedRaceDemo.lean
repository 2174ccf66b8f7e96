import Verif.Props.UntouchedRace
import Verif.Props.UntouchedDemo
import Verif.Props.RisingDemo
/-
C97 under concurrent requests: an instance in the program's own configuration.
-/
namespace Starbow.Props
open Starbow.Collation Starbow.Spec Starbow.Storage Starbow.Server Starbow.ServerConc Starbow.BufmapConc Starbow.Cell

/-- a height of "FR", max(height)?, "FR" without a height, max(height)? -/
def untouchedSteps : List Step := [.posted [⟨asc "0", 0x3b, frHeight (asc "5")⟩], .other (askFor Demo.country.name maxText),
  .posted [⟨asc "0", 0x3b, frBare⟩], .other (askFor Demo.country.name maxText)]

theorem five_bare : OfFR [frHeight (asc "5"), frBare] ∧ OfFR [frHeight (asc "5")] ∧ (∀ fs ∈ [frHeight (asc "5"), frBare], Plainly fs) ∧
    (∀ fs ∈ [frHeight (asc "5"), frBare], ∀ fv ∈ fs, fv.f ≠ asc "iata") ∧
    (∀ fs ∈ [frHeight (asc "5"), frBare], ∀ fv ∈ fs, fv.f = asc "height" → fv.v = asc "5") := by decide +kernel

theorem untouchedSteps_correct : ∀ st ∈ untouchedSteps, st.Correct := by
  have h := oneByOne_correct (obs := [frHeight (asc "5"), frBare]) five_bare.2.2.1
  intro st hst
  simp only [untouchedSteps, List.mem_cons, List.not_mem_nil, or_false] at hst
  rcases hst with rfl | rfl | rfl | rfl
  · exact h _ (by simp [oneByOne])
  · exact other_correct _
  · exact h _ (by simp [oneByOne])
  · exact other_correct _

theorem five_answers (env : Env) (hord : ∀ l, (env.ord l).Perm l) (hld : ParsesDoubles env.lib) {x : F64} (hx : env.lib.parseFloat (asc "5") = some x) (hxn : x ≠ .nan) :
    AllAccepted env [frHeight (asc "5"), frBare] ∧
    (Server.serve env (afterPosts env [frHeight (asc "5")]) (askFor (asc "country") maxText)).2 =
      .ok (echo [⟨asc "country", asc "FR"⟩] ++ measureLine env (asc "max") (asc "height") x) ∧
    (Server.serve env (afterPosts env [frHeight (asc "5"), frBare]) (askFor (asc "country") maxText)).2 =
      .ok (echo [⟨asc "country", asc "FR"⟩] ++ measureLine env (asc "max") (asc "height") x) := by
  obtain ⟨a1, a2, a3, a4, a5⟩ := five_bare
  have hsub : ∀ fs ∈ [frHeight (asc "5")], fs ∈ [frHeight (asc "5"), frBare] := by intro fs h; simp at h; simp [h]
  have hacc1 : AllAccepted env [frHeight (asc "5")] := by
    refine (ofFR_accepted env a2 fun fs h => a3 fs (hsub fs h)).2 ⟨?_, ?_⟩
    · intro fs hfs fv hfv e
      rw [a5 fs (hsub fs hfs) fv hfv e, hx]; simp
    · rintro g rest - ⟨fs, hfs, fv, hfv, e⟩
      exact absurd e (a4 fs (hsub fs hfs) fv hfv)
  have hacc : AllAccepted env [frHeight (asc "5"), frBare] := by
    refine (ofFR_accepted env a1 a3).2 ⟨?_, ?_⟩
    · intro fs hfs fv hfv e
      rw [a5 fs hfs fv hfv e, hx]; simp
    · rintro g rest - ⟨fs, hfs, fv, hfv, e⟩
      exact absurd e (a4 fs hfs fv hfv)
  have hnil : numbersIn env.lib (asc "height") [] = [] := rfl
  have q1 : (Server.serve env (afterPosts env [frHeight (asc "5")]) (askFor (asc "country") maxText)).2 =
      .ok (echo [⟨asc "country", asc "FR"⟩] ++ measureLine env (asc "max") (asc "height") x) := by
    obtain ⟨rows, buf, e1, e2, e3⟩ := ofFR_answer env a2 (fun fs h => a3 fs (hsub fs h)) (by simp) hacc1
    rw [e3 _ _ (maxText_parse env hord)]
    obtain ⟨r, rows, rfl⟩ := List.exists_cons_of_ne_nil (l := rows) (by rintro rfl; simp at e1)
    rw [List.map_cons] at e1
    obtain ⟨f1, f2⟩ := List.cons.inj e1
    obtain ⟨y, g1, g2, g3⟩ := max_read env hld e2 (first := x) (xs := [])
      (by rw [numbersOf_data, List.map_cons, f1, List.map_nil, frHeight_numbers _ _ hx, hnil]; rfl)
      (by rw [numbersOf_data, f2, hnil]) (by simp [hxn])
    rw [g3]
    rw [List.mem_singleton.1 g1]
  have q2 : (Server.serve env (afterPosts env [frHeight (asc "5"), frBare]) (askFor (asc "country") maxText)).2 =
      .ok (echo [⟨asc "country", asc "FR"⟩] ++ measureLine env (asc "max") (asc "height") x) := by
    obtain ⟨rows, buf, e1, e2, e3⟩ := ofFR_answer env a1 a3 (by simp) hacc
    rw [e3 _ _ (maxText_parse env hord)]
    obtain ⟨r, rows, rfl⟩ := List.exists_cons_of_ne_nil (l := rows) (by rintro rfl; simp at e1)
    rw [List.map_cons] at e1
    obtain ⟨f1, f2⟩ := List.cons.inj e1
    obtain ⟨y, g1, g2, g3⟩ := max_read env hld e2 (first := x) (xs := [])
      (by rw [numbersOf_data, List.map_cons, f1, List.map_nil, frHeight_numbers _ _ hx, hnil]; rfl)
      (by rw [numbersOf_data, f2, frBare_numbers, hnil]) (by simp [hxn])
    rw [g3]
    rw [List.mem_singleton.1 g1]
  exact ⟨hacc, q1, q2⟩

theorem untouched_run (env : Env) {x : F64} {S₀ : List Store} (h0 : Handled env ServerConc.init S₀ [] [])
    (hacc : List.Forall₂ Step.Accepted (oneByOne [frHeight (asc "5"), frBare]) (serveAll env S₀ ((oneByOne [frHeight (asc "5"), frBare]).map Step.request)).2)
    (q1 : (Server.serve env (serveAll env S₀ ((oneByOne [frHeight (asc "5")]).map Step.request)).1 (askFor (asc "country") maxText)).2 =
      .ok (echo [⟨asc "country", asc "FR"⟩] ++ measureLine env (asc "max") (asc "height") x))
    (q2 : (Server.serve env (serveAll env S₀ ((oneByOne [frHeight (asc "5"), frBare]).map Step.request)).1 (askFor (asc "country") maxText)).2 =
      .ok (echo [⟨asc "country", asc "FR"⟩] ++ measureLine env (asc "max") (asc "height") x)) :
    ∃ σ₀ σ, ServerConc.Steps env demoConfs ServerConc.init σ₀ ∧ ServerConc.Steps env demoConfs σ₀ σ ∧ Unwrapped σ ∧
      σ.reqs = untouchedSteps.map Step.request ∧ σ₀.reqs.length = 1 ∧ Acked σ₀ 0 ∧ Acked σ 2 ∧
      (1, Reply.ok (echo [⟨asc "country", asc "FR"⟩] ++ measureLine env (asc "max") (asc "height") x)) ∈ σ.replies ∧
      (3, Reply.ok (echo [⟨asc "country", asc "FR"⟩] ++ measureLine env (asc "max") (asc "height") x)) ∈ σ.replies := by
  obtain ⟨hp1, hacc⟩ := List.forall₂_cons.1 hacc
  obtain ⟨hp2, -⟩ := List.forall₂_cons.1 hacc
  obtain ⟨r₁, hr₁⟩ : ∃ r, r = (Step.posted [⟨asc "0", 0x3b, frHeight (asc "5")⟩]).request := ⟨_, rfl⟩
  obtain ⟨r₂, hr₂⟩ : ∃ r, r = (Step.posted [⟨asc "0", 0x3b, frBare⟩]).request := ⟨_, rfl⟩
  obtain ⟨S₁, hS₁⟩ : ∃ S₁, S₁ = (Server.serve env S₀ r₁).1 := ⟨_, rfl⟩
  obtain ⟨S₂, hS₂⟩ : ∃ S₂, S₂ = (Server.serve env S₁ r₂).1 := ⟨_, rfl⟩
  have p1 : Server.serve env S₀ r₁ = (S₁, .ok []) := by rw [hS₁]; exact Prod.ext rfl (by rw [hr₁]; exact hp1)
  have p2 : Server.serve env S₁ r₂ = (S₂, .ok []) := by
    rw [hS₂]; refine Prod.ext rfl ?_; rw [hS₁, hr₁, hr₂]; exact hp2
  have q1 : Server.serve env S₁ (askFor Demo.country.name maxText) =
      (S₁, .ok (echo [⟨asc "country", asc "FR"⟩] ++ measureLine env (asc "max") (asc "height") x)) := by
    refine Prod.ext (asked_same env _ _ _ country_name) ?_
    rw [hS₁, hr₁]; exact q1
  have q2 : Server.serve env S₂ (askFor Demo.country.name maxText) =
      (S₂, .ok (echo [⟨asc "country", asc "FR"⟩] ++ measureLine env (asc "max") (asc "height") x)) := by
    refine Prod.ext (asked_same env _ _ _ country_name) ?_
    rw [hS₂, hS₁, hr₁, hr₂]; exact q2
  obtain ⟨σ₀, b1, b2⟩ := handled_more env h0 rfl _ _ _ p1 ok_fair.1 ok_fair.2
  obtain ⟨τ₁, c1, c2⟩ := handled_more env b2 rfl _ _ _ q1 ok_fair.1 ok_fair.2
  obtain ⟨τ₂, d1, d2⟩ := handled_more env c2 rfl _ _ _ p2 ok_fair.1 ok_fair.2
  obtain ⟨σ, e1, e2⟩ := handled_more env d2 rfl _ _ _ q2 ok_fair.1 ok_fair.2
  have hreqs : σ.reqs = untouchedSteps.map Step.request := by rw [e2.reqs, hr₁, hr₂]; rfl
  exact ⟨σ₀, σ, b1, c1.trans (d1.trans e1), e2.unwrapped, hreqs, by rw [b2.reqs]; simp, b2.reps 0 _ rfl, e2.reps 2 _ rfl, e2.reps 1 _ rfl, e2.reps 3 _ rfl⟩

theorem afterPosts_all (env : Env) (obs : List (List FV)) : afterPosts env obs = (serveAll env Demo.stores ((oneByOne obs).map Step.request)).1 := rfl

theorem allAccepted_all (env : Env) (obs : List (List FV)) : AllAccepted env obs =
    List.Forall₂ Step.Accepted (oneByOne obs) (serveAll env Demo.stores ((oneByOne obs).map Step.request)).2 := rfl

/-- instance of C97_concurrent: there is a run of the demo program that meets all its hypotheses, with σ₀ after the height and σ after the second query; both queries are answered with
that height. -/
example (env : Env) (hord : ∀ l, (env.ord l).Perm l) (hld : ParsesDoubles env.lib) {x : F64} (hx : env.lib.parseFloat (asc "5") = some x) (hxn : x ≠ .nan) :
    ∃ σ₀ σ, ServerConc.Steps env demoConfs ServerConc.init σ₀ ∧ ServerConc.Steps env demoConfs σ₀ σ ∧ Unwrapped σ ∧
      σ.reqs = untouchedSteps.map Step.request ∧ Acked σ₀ 0 ∧ Acked σ 2 ∧
      (1, Reply.ok (echo [⟨asc "country", asc "FR"⟩] ++ measureLine env (asc "max") (asc "height") x)) ∈ σ.replies ∧
      (3, Reply.ok (echo [⟨asc "country", asc "FR"⟩] ++ measureLine env (asc "max") (asc "height") x)) ∈ σ.replies := by
  obtain ⟨hacc, q1, q2⟩ := five_answers env hord hld hx hxn
  rw [afterPosts_all] at q1 q2
  rw [allAccepted_all] at hacc
  obtain ⟨σ₀, σ, b1, e1, hu, hreqs, hlen, r0, r2, r1, r3⟩ := untouched_run env (handled_none env) hacc q1 q2
  have hsame := C97_concurrent env demoConfs 0 Demo.country Demo.slots rfl country_valid country_name (by decide) demo_first σ₀ σ b1 e1 hu
    untouchedSteps hreqs untouchedSteps_correct maxText [⟨asc "height", [asc "max"]⟩] [⟨asc "country", asc "FR"⟩] (maxText_parse env hord)
    12582602682680778473 fr_key (by decide) (by decide +kernel) (by
      rintro ⟨j, p⟩ fs ho - ⟨fv, hfv, fm, hfm, e⟩
      rw [List.mem_singleton.1 hfm] at e
      match j, p with
      | 0, _ => exact r0
      | 1, p => exact absurd ho (by simp [obsAt, untouchedSteps, Step.posts])
      | 2, 0 =>
        have hat : obsAt untouchedSteps (2, 0) = some frBare := rfl
        rw [hat] at ho
        obtain rfl := Option.some.inj ho
        have hb : ∀ fv ∈ frBare, fv.f ≠ asc "height" := by decide +kernel
        exact absurd e (hb fv hfv)
      | 2, p + 1 => exact absurd ho (by simp [obsAt, untouchedSteps, Step.posts])
      | 3, p => exact absurd ho (by simp [obsAt, untouchedSteps, Step.posts])
      | j + 4, p => exact absurd ho (by simp [obsAt, untouchedSteps, Step.posts])) 1 3 (by omega) (by omega) rfl rfl
    _ _ r1 r3 (measureLine_more env _ _ _ _) (measureLine_more env _ _ _ _)
  refine ⟨σ₀, σ, b1, e1, hu, hreqs, r0, r2, r1, ?_⟩
  rw [hsame]
  exact r3

end Starbow.Props
