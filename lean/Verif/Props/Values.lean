import Verif.Props.Fit
import Verif.Props.Packaging
/-
Property C84: the order of several values of one field does make a difference; the order of different fields does not, also if they have several values.
-/
namespace Starbow.Props
open Starbow.Collation Starbow.Spec Starbow.Storage Starbow.Server Starbow.Cell Starbow.Probe

/-- an observation that carries two heights, the other way round -/
def frOneNine : List FV := [⟨asc "country", asc "FR"⟩, ⟨asc "height", asc "1"⟩, ⟨asc "height", asc "9"⟩]

/-- an observation that carries two heights, with the country between -/
def nineFrOne : List FV := [⟨asc "height", asc "9"⟩, ⟨asc "country", asc "FR"⟩, ⟨asc "height", asc "1"⟩]

theorem oneNine_ok : OfFR [frOneNine] ∧ (∀ fs ∈ [frOneNine], Plainly fs) ∧ (∀ fs ∈ [frOneNine], ∀ fv ∈ fs, fv.f ≠ asc "iata") ∧
    (∀ fs ∈ [frOneNine], ∀ fv ∈ fs, fv.f = asc "height" → fv.v = asc "9" ∨ fv.v = asc "1") := by decide +kernel

/-- after one observation of FR that carries heights (and no airport), max(height) is the last of them -/
theorem last_height (env : Env) (hord : ∀ l, (env.ord l).Perm l) (hld : ParsesDoubles env.lib) (fs : List FV) (a1 : OfFR [fs]) (a2 : ∀ x ∈ [fs], Plainly x)
    (a3 : ∀ x ∈ [fs], ∀ fv ∈ x, fv.f ≠ asc "iata") (a4 : ∀ x ∈ [fs], ∀ fv ∈ x, fv.f = asc "height" → env.lib.parseFloat fv.v ≠ none)
    (z : F64) (hz : z ≠ .nan) (hlast : (numbersIn env.lib (asc "height") [fs]).getLastD (.fin false 0) = z) :
    AllAccepted env [fs] ∧ (Server.serve env (afterPosts env [fs]) (askFor (asc "country") exText)).2 =
      .ok (echo [⟨asc "country", asc "FR"⟩] ++ measureLine env (asc "max") (asc "height") z) := by
  have b1 : AllAccepted env [fs] := by
    refine (ofFR_accepted env a1 a2).2 ⟨a4, ?_⟩
    rintro g rest - ⟨fs, hfs, fv, hfv, e⟩
    exact absurd e (a3 fs hfs fv hfv)
  refine ⟨b1, ?_⟩
  obtain ⟨rows, buf, e1, e2, e3⟩ := ofFR_answer env a1 a2 (by simp) b1
  obtain ⟨r, rest, rfl, c1, c2⟩ := List.map_eq_cons_iff.1 e1
  obtain rfl := List.map_eq_nil_iff.1 c2
  have hl : (numbersOf env.lib (asc "height") [r]).getLastD (.fin false 0) = z := by
    rw [numbersOf_data, List.map_singleton, c1]; exact hlast
  obtain ⟨x3, -⟩ := C25_extreme_law env.lib hld Demo.country country_valid (asc "height") r [] buf e2 (by
    rw [hl]
    intro x hx
    rw [show numbersOf env.lib (asc "height") [] = [] from rfl, List.mem_singleton] at hx
    rw [hx]
    exact hz)
  obtain ⟨hi, u1, u2, -⟩ := x3 fit_declares.2.2
  rw [hl, show numbersOf env.lib (asc "height") [] = [] from rfl, List.mem_singleton] at u2
  subst u2
  have hq : AsksFR env exText [⟨asc "height", [asc "max"]⟩] := by
    unfold AsksFR
    rw [roughParse_ord env.ord (q := ⟨[⟨asc "height", [asc "max"]⟩], [⟨asc "country", asc "FR"⟩]⟩) (by decide +kernel), List.perm_singleton.1 (hord _)]
  rw [e3 _ _ hq]
  unfold ask at u1
  rw [u1]
  exact congrArg Reply.ok (render_one env _ _ _ _)

/-- **C84 fails** for the order of several values of one field: the observations `country=FR;height=9;height=1` and `country=FR;height=1;height=9`, each the first of FR, are both accepted,
and max(height) is 1 after the one and 9 after the other. -/
theorem C84_values_refuted (env : Env) (hord : ∀ l, (env.ord l).Perm l) (hld : ParsesDoubles env.lib) (h9 : env.lib.parseFloat (asc "9") = some (F64.ofNat 9))
    (h1 : env.lib.parseFloat (asc "1") = some (F64.ofNat 1)) :
    frNineOne.Perm frOneNine ∧ AllAccepted env [frNineOne] ∧ AllAccepted env [frOneNine] ∧
    (Server.serve env (afterPosts env [frNineOne]) (askFor (asc "country") exText)).2 =
      .ok (echo [⟨asc "country", asc "FR"⟩] ++ measureLine env (asc "max") (asc "height") (F64.ofNat 1)) ∧
    (Server.serve env (afterPosts env [frOneNine]) (askFor (asc "country") exText)).2 =
      .ok (echo [⟨asc "country", asc "FR"⟩] ++ measureLine env (asc "max") (asc "height") (F64.ofNat 9)) := by
  obtain ⟨a1, a2, a3, a4⟩ := nineOne_ok
  obtain ⟨b1, b2, b3, b4⟩ := oneNine_ok
  have hn : ∀ v, v = asc "9" ∨ v = asc "1" → env.lib.parseFloat v ≠ none := by
    rintro v (rfl | rfl)
    · rw [h9]; simp
    · rw [h1]; simp
  obtain ⟨p1, p2⟩ := last_height env hord hld frNineOne a1 a2 a3 (fun fs hfs fv hfv e => hn _ (a4 fs hfs fv hfv e)) (F64.ofNat 1) (by decide +kernel) (by
    unfold numbersIn frNineOne
    simp only [List.flatten_cons, List.flatten_nil, List.append_nil, List.filterMap_cons, List.filterMap_nil]
    rw [if_neg (by decide +kernel), if_pos trivial, if_pos trivial, h9, h1]
    rfl)
  obtain ⟨q1, q2⟩ := last_height env hord hld frOneNine b1 b2 b3 (fun fs hfs fv hfv e => hn _ (b4 fs hfs fv hfv e)) (F64.ofNat 9) (by decide +kernel) (by
    unfold numbersIn frOneNine
    simp only [List.flatten_cons, List.flatten_nil, List.append_nil, List.filterMap_cons, List.filterMap_nil]
    rw [if_neg (by decide +kernel), if_pos trivial, if_pos trivial, h9, h1]
    rfl)
  exact ⟨.cons _ (.swap _ _ _), p1, q1, p2, q2⟩

theorem nineOne_same : SameFields frNineOne nineFrOne := by
  have hne : asc "country" ≠ asc "height" := by decide +kernel
  intro f
  by_cases e : asc "country" = f
  · subst e
    simp [frNineOne, nineFrOne, hne.symm]
  · simp [frNineOne, nineFrOne, e, List.filter_cons]

theorem sameFields_after (env : Env) (fs fs' : List FV) (hp : ∀ x ∈ [fs], Plainly x) (hp' : ∀ x ∈ [fs'], Plainly x) (hs : SameFields fs fs') (hacc : AllAccepted env [fs]) :
    afterPosts env [fs'] = afterPosts env [fs] := by
  have h := C84_partial env demoColls demoColls_valid (oneByOne [fs]) (oneByOne [fs']) (oneByOne_correct hp) (oneByOne_correct hp')
  rw [demoColls_stores, oneByOne_obs, oneByOne_obs] at h
  unfold AllAccepted at hacc
  unfold afterPosts
  exact (h (.cons hs .nil) hacc).2

theorem nineFrOne_plain : ∀ fs ∈ [nineFrOne], Plainly fs := by decide +kernel

/-- instance of C84_partial with a field of two values: `country=FR;height=9;height=1` and `height=9;country=FR;height=1` leave the program in the same state -/
example (env : Env) (h9 : env.lib.parseFloat (asc "9") = some (F64.ofNat 9)) (h1 : env.lib.parseFloat (asc "1") = some (F64.ofNat 1)) :
    afterPosts env [nineFrOne] = afterPosts env [frNineOne] := by
  obtain ⟨a1, a2, a3, a4⟩ := nineOne_ok
  have b1 : AllAccepted env [frNineOne] := by
    refine (ofFR_accepted env a1 a2).2 ⟨?_, ?_⟩
    · intro fs hfs fv hfv e
      rcases a4 fs hfs fv hfv e with h | h <;> rw [h]
      · rw [h9]; simp
      · rw [h1]; simp
    · rintro g rest - ⟨fs, hfs, fv, hfv, e⟩
      exact absurd e (a3 fs hfs fv hfv)
  exact sameFields_after env _ _ a2 nineFrOne_plain nineOne_same b1

end Starbow.Props
