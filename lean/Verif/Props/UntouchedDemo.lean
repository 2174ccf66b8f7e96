import Verif.Props.Untouched
import Verif.Props.Extremes
/-
C97 in the program: an instance, and the case it leaves out.
-/
namespace Starbow.Props
open Starbow.Collation Starbow.Spec Starbow.Storage Starbow.Server

theorem measureLine_more (env : Env) (crit : List FV) (n f : Bytes) (x : F64) : Reply.ok (echo crit ++ measureLine env n f x) ≠ .ok (echo crit) := by
  intro h
  have := congrArg List.length (Reply.ok.inj h)
  simp [measureLine, show asc "(" = [0x28] by decide +kernel] at this

theorem bare_alone : OfFR [frBare] ∧ (∀ fs ∈ [frBare], Plainly fs) ∧ (∀ fs ∈ [frBare], ∀ fv ∈ fs, fv.f ≠ asc "height") ∧
    (∀ fs ∈ [frBare], ∀ fv ∈ fs, fv.f ≠ asc "iata") := by decide +kernel

/-- instance of C97: in the program, after the heights 5 and 3 of FR an observation of FR without a height changes nothing in its greatest height -/
theorem ex_untouched (env : Env) (hord : ∀ l, (env.ord l).Perm l) (hld : ParsesDoubles env.lib) {x y : F64} (hx : env.lib.parseFloat (asc "5") = some x)
    (hy : env.lib.parseFloat (asc "3") = some y) (hxn : x ≠ .nan) (hyn : y ≠ .nan) :
    ∃ w, (Server.serve env (serveAll env Demo.stores (exSteps.map Step.request)).1 (askFor (asc "country") maxText)).2 =
        .ok (echo [⟨asc "country", asc "FR"⟩] ++ measureLine env (asc "max") (asc "height") w) ∧
      (Server.serve env (serveAll env (serveAll env Demo.stores (exSteps.map Step.request)).1 ((oneByOne [frBare]).map Step.request)).1 (askFor (asc "country") maxText)).2 =
        .ok (echo [⟨asc "country", asc "FR"⟩] ++ measureLine env (asc "max") (asc "height") w) := by
  obtain ⟨v, w, -, h2, -⟩ := ex_extreme env hord hld hx hy hxn hyn
  rw [show exText = maxText by decide +kernel, show [] ++ newStore Demo.country Demo.slots :: [newStore Demo.tz Demo.slots] = Demo.stores from rfl] at h2
  obtain ⟨-, b2, b3, -⟩ := bare_alone
  have h := C97_untouched env demoColls demoColls_valid (exSteps.map Step.request) (oneByOne [frBare]) (oneByOne_correct b2) (asc "country") maxText country_name _
    (maxText_parse env hord) (by
      intro c hc hname
      simp only [demoColls, List.mem_cons, List.not_mem_nil, or_false] at hc
      rcases hc with rfl | rfl
      · rw [show keyValue [⟨asc "country", asc "FR"⟩] Demo.country.keys = _ from fr_key]; decide
      · exact absurd hname (by decide +kernel)) (by
      intro fm hfm
      rw [List.mem_singleton.1 hfm, oneByOne_obs]
      exact ⟨by decide +kernel, b3⟩)
  rw [demoColls_stores, h2] at h
  exact ⟨w, h2, h (measureLine_more env _ _ _ _)⟩

/-- **C97**, the case it leaves out: the very first observation of a key does change the answer, though it carries no height: the program first has nothing to say about FR, then
that its greatest height is 0. -/
theorem C97_first (env : Env) (hord : ∀ l, (env.ord l).Perm l) (hl : ParsesDoubles env.lib) :
    AllAccepted env [frBare] ∧ (∀ fs ∈ [frBare], ∀ fv ∈ fs, fv.f ≠ asc "height") ∧
    (Server.serve env Demo.stores (askFor (asc "country") maxText)).2 = .ok (echo [⟨asc "country", asc "FR"⟩]) ∧
    (Server.serve env (afterPosts env [frBare]) (askFor (asc "country") maxText)).2 =
      .ok (echo [⟨asc "country", asc "FR"⟩] ++ measureLine env (asc "max") (asc "height") (F64.ofInt 0)) := by
  obtain ⟨b1, b2, b3, b4⟩ := bare_alone
  have hacc : AllAccepted env [frBare] := by
    refine (ofFR_accepted env b1 b2).2 ⟨?_, ?_⟩
    · intro fs hfs fv hfv e
      exact absurd e (b3 fs hfs fv hfv)
    · rintro g rest - ⟨fs, hfs, fv, hfv, e⟩
      exact absurd e (b4 fs hfs fv hfv)
  refine ⟨hacc, b3, ?_, ?_⟩
  · obtain ⟨L, D, pos, h, -⟩ := laid_compile Demo.country country_valid
    have hg := good_new h (l := Demo.slots) (by decide)
    have hn := stored_new (sch := Demo.country) env.lib (l := Demo.slots) (by decide) 12582602682680778473 (by decide)
    have hr : read env.lib (newStore Demo.country Demo.slots) ⟨[⟨asc "height", [asc "max"]⟩], [⟨asc "country", asc "FR"⟩]⟩ = .ret ([], none) := by
      refine read_absent env.lib h hg fr_key ?_
      rcases hn with ⟨-, hn⟩ | ⟨hn, -⟩
      · exact hn
      · exact absurd rfl hn
    rw [ask_list env _ (asc "country") maxText country_name _ (maxText_parse env hord), show Demo.stores = newStore Demo.country Demo.slots :: [newStore Demo.tz Demo.slots] from rfl,
      queryStores, if_pos (show (newStore Demo.country Demo.slots).coll.name = asc "country" from compile_name Demo.country), hr]
    unfold render echo
    rw [show asc "=" = [0x3d] by decide +kernel, show asc "\n" = [0x0a] by decide +kernel]
    simp
  · obtain ⟨rows, buf, e1, e2, e3⟩ := ofFR_answer env b1 b2 (by simp) hacc
    rw [e3 _ _ (maxText_parse env hord)]
    obtain ⟨r, rows, rfl, c1, c2⟩ := List.map_eq_cons_iff.1 e1
    obtain rfl := List.map_eq_nil_iff.1 c2
    have hnil : numbersIn env.lib (asc "height") [] = [] := rfl
    obtain ⟨x, g1, g2, g3⟩ := max_read env hl e2 (first := .fin false 0) (xs := [])
      (by rw [numbersOf_data, List.map_cons, c1, List.map_nil, frBare_numbers]; rfl)
      rfl (by simp)
    rw [g3]
    rw [List.mem_singleton.1 g1, show F64.ofInt 0 = .fin false 0 by decide +kernel]

end Starbow.Props
