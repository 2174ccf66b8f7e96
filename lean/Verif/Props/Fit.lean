import Verif.Props.Again
/-
Property theorems C96: the statistics in one answer fit together.
-/
namespace Starbow.Props
open Starbow.Collation Starbow.Spec Starbow.Storage Starbow.Server

theorem render_three (env : Env) (crit : List FV) (f n n' n'' : Bytes) (x y z : F64) :
    render env crit [⟨f, n, x⟩, ⟨f, n', y⟩, ⟨f, n'', z⟩] = echo crit ++ measureLine env n f x ++ measureLine env n' f y ++ measureLine env n'' f z := by
  unfold render echo measureLine fmvString
  rw [show asc "=" = [0x3d] by decide +kernel, show asc "\n" = [0x0a] by decide +kernel]
  simp

theorem carry_length (f : Bytes) (fs : List FV) :
    (fs.filterMap fun fv => if fv.f = f then some fv.v else none).length ≤ (fs.filter fun fv => fv.f = f).length := by
  induction fs with
  | nil => simp
  | cons fv fs ih =>
    rw [List.filterMap_cons, List.filter_cons]
    by_cases h : fv.f = f
    · simp only [h, if_true, decide_true, List.length_cons]; omega
    · simp only [h, if_false, decide_false]; exact ih

theorem mean_none : (after []).mean = .fin false 0 := by decide +kernel

/-- min, mean and max of one record, if its first observation carries the field at most once -/
theorem fit_record (lib : Lib) (hld : ParsesDoubles lib) (s : Schema) (hv : ValidSchema s) (f : Bytes) (r : Row) (rows : List Row) (buf : Bytes)
    (hr : RecordOf lib (compile s) (r :: rows) buf) (hone : (numbersOf lib f [r]).length ≤ 1) (hlen : (numbersOf lib f (r :: rows)).length < 2 ^ 64)
    (hfin : ∀ x ∈ numbersOf lib f (r :: rows), IsFinite x)
    (hdiff : ∀ x ∈ numbersOf lib f (r :: rows), ∀ y ∈ numbersOf lib f (r :: rows), IsFinite (F64.sub x y))
    (d1 : Declares s f .min) (d2 : Declares s f .mean) (d3 : Declares s f .max) :
    ∃ lo m hi, ask lib (compile s) buf f (asc "min") = .val ([⟨f, asc "min", lo⟩], none) ∧
      ask lib (compile s) buf f (asc "mean") = .val ([⟨f, asc "mean", m⟩], none) ∧
      ask lib (compile s) buf f (asc "max") = .val ([⟨f, asc "max", hi⟩], none) ∧ F64.le lo m = true ∧ F64.le m hi = true := by
  have hinc : ∀ x ∈ numbersOf lib f (r :: rows), x ∈ (numbersOf lib f [r]).getLastD (.fin false 0) :: numbersOf lib f rows := by
    intro x hx
    rw [numbersOf_cons] at hx
    rcases List.mem_append.1 hx with hx | hx
    · obtain ⟨y, e⟩ : ∃ y, numbersOf lib f [r] = [y] := by
        cases e : numbersOf lib f [r] with
        | nil => rw [e] at hx; simp at hx
        | cons y ys =>
          rw [e] at hone
          cases ys with
          | nil => exact ⟨y, rfl⟩
          | cons z zs => simp at hone
      rw [e] at hx ⊢
      rw [List.mem_singleton.1 hx]
      exact List.mem_cons_self ..
    · exact List.mem_cons_of_mem _ hx
  have hnn : ∀ x ∈ numbersOf lib f (r :: rows), x ≠ .nan := by
    rintro x hx rfl
    exact absurd (hfin _ hx) (by simp [IsFinite, value])
  have hn : ∀ x ∈ (numbersOf lib f [r]).getLastD (.fin false 0) :: numbersOf lib f rows, x ≠ .nan := by
    intro x hx
    rw [numbersOf_cons] at hnn
    rcases List.mem_cons.1 hx with rfl | hx
    · cases e : (numbersOf lib f [r]).getLast? with
      | none => rw [List.getLastD_eq_getLast?, e]; simp
      | some x => rw [List.getLastD_eq_getLast?, e]; exact hnn x (List.mem_append_left _ (List.mem_of_getLast? e))
    · exact hnn x (List.mem_append_right _ hx)
  obtain ⟨e3, e1⟩ := C25_extreme_law lib hld s hv f r rows buf hr hn
  obtain ⟨lo, l1, l2, l3⟩ := e1 d1
  obtain ⟨hi, u1, u2, u3⟩ := e3 d3
  have hm := C25_mean lib s hv f d2 r rows buf hr
  refine ⟨lo, _, hi, l1, hm, u1, ?_⟩
  by_cases hne : numbersOf lib f (r :: rows) = []
  · rw [hne, mean_none]
    have : (F64.fin false 0) ∈ (numbersOf lib f [r]).getLastD (.fin false 0) :: numbersOf lib f rows := by
      rw [numbersOf_cons] at hne
      rw [(List.append_eq_nil_iff.1 hne).1]
      exact List.mem_cons_self ..
    exact ⟨l3 _ this, u3 _ this⟩
  · exact C53_mean_within _ hne hlen (fun x hx => ⟨isDouble_iff.2 (numbers_wf hld f _ x hx), hfin x hx⟩) hdiff lo hi
      (fun x hx => l3 x (hinc x hx)) (fun x hx => u3 x (hinc x hx))

/-- **C96**, for a key in its home slot behind the first record and before the truncated part (as in C59), if the first observation with the key carries the
field at most once and the numbers are finite, also their differences: min, mean and max asked for in one query are answered with numbers in this order. -/
theorem C96_fit_partial (env : Env) (hld : ParsesDoubles env.lib) (sch : Schema) (hv : ValidSchema sch) (hn : GoodName sch.name)
    (l : Nat) (hl : 0 < l) (a b : List Store) (ha : ∀ s ∈ a, s.coll.name ≠ sch.name)
    (steps : List Step) (hc : ∀ s ∈ steps, s.Correct)
    (hacc : List.Forall₂ Step.Accepted steps (serveAll env (a ++ newStore sch l :: b) (steps.map Step.request)).2)
    (crit : List FV) (k : U64) (hk : keyValue crit sch.keys = some k) (h0 : k ≠ 0)
    (hhome : slotAfter sch.keys l ((observations steps).map obsOf) k = some (k.toNat % l))
    (hsize : (compile sch).size.toNat ≤ k.toNat % l) (hroom : k.toNat % l * ((compile sch).size.toNat + 1) ≤ l * (compile sch).size.toNat)
    (f : Bytes) (d1 : Declares sch f .min) (d2 : Declares sch f .mean) (d3 : Declares sch f .max)
    (hone : ∀ fs rest, ((observations steps).filter fun fs => keyValue fs sch.keys = some k) = fs :: rest → (fs.filter fun fv => fv.f = f).length ≤ 1)
    (xs : List F64) (hxs : xs = numbersIn env.lib f ((observations steps).filter fun fs => keyValue fs sch.keys = some k))
    (hlen : xs.length < 2 ^ 64) (hfin : ∀ x ∈ xs, IsFinite x) (hdiff : ∀ x ∈ xs, ∀ y ∈ xs, IsFinite (F64.sub x y))
    (text : Bytes) (hq : Query.roughParse env.ord text = .ok ⟨[⟨f, [asc "min", asc "mean", asc "max"]⟩], crit⟩) :
    ∃ lo m hi, (Server.serve env (serveAll env (a ++ newStore sch l :: b) (steps.map Step.request)).1 (askFor sch.name text)).2 =
        .ok (echo crit ++ measureLine env (asc "min") f lo ++ measureLine env (asc "mean") f m ++ measureLine env (asc "max") f hi) ∧
      F64.le lo m = true ∧ F64.le m hi = true := by
  obtain ⟨rows, buf, a1, a2, a3, -, a4⟩ := (C59_server_law env sch hv hn l hl a b ha steps hc hacc crit k hk h0).2 _ hhome
  have a4 := a4 _ _ hq
  rw [if_neg (Nat.not_lt.2 hroom), List.take_of_length_le (by rw [a2]; exact hsize), a2, Nat.sub_eq_zero_of_le hsize, List.replicate_zero,
    List.append_nil] at a4
  have hne : ((observations steps).filter fun fs => keyValue fs sch.keys = some k) ≠ [] := by
    have hmem := (slotAfter_mem hhome).1
    unfold keysOf at hmem
    obtain ⟨o, ho, hko⟩ := List.mem_filterMap.1 hmem
    obtain ⟨fs, hfs, rfl⟩ := List.mem_map.1 ho
    have : keyValue fs sch.keys = some k := by simpa [obsOf] using hko
    exact List.ne_nil_of_mem (List.mem_filter.2 ⟨hfs, by simpa using this⟩)
  obtain ⟨fs, old, hcons⟩ := List.exists_cons_of_ne_nil hne
  have hone := hone fs old hcons
  rw [← a1, ← numbersOf_data] at hxs
  rw [hcons] at a1
  obtain ⟨r, rest, rfl, c1, c2⟩ := List.map_eq_cons_iff.1 a1
  subst hxs
  have hfirst : (numbersOf env.lib f [r]).length ≤ 1 := by
    refine le_trans ?_ hone
    unfold numbersOf valuesOf
    rw [List.flatMap_singleton, c1]
    refine le_trans (List.length_filterMap_le _ _) ?_
    exact carry_length f fs
  obtain ⟨lo, m, hi, e1, e2, e3, e4, e5⟩ := fit_record env.lib hld sch hv f r rest buf (a3 rfl) hfirst hlen hfin hdiff d1 d2 d3
  refine ⟨lo, m, hi, ?_, e4, e5⟩
  have hread : Collation.read env.lib (compile sch) [⟨f, [asc "min", asc "mean", asc "max"]⟩] buf =
      .val ([⟨f, asc "min", lo⟩, ⟨f, asc "mean", m⟩, ⟨f, asc "max", hi⟩], none) := by
    rw [C27_read, show pairs [⟨f, [asc "min", asc "mean", asc "max"]⟩] = [(f, asc "min"), (f, asc "mean"), (f, asc "max")] from rfl,
      together]
    simp only
    rw [e1]
    simp only
    rw [together]
    simp only
    rw [e2]
    simp only
    rw [together]
    simp only
    rw [e3]
    rfl
  rw [a4, hread]
  exact congrArg Reply.ok (render_three env _ _ _ _ _ _ _ _)

/-! ### in the program -/

def fitText : Bytes := asc "select min(height), mean(height), max(height) where country='FR'"

theorem fitText_parse (env : Env) (hord : ∀ l, (env.ord l).Perm l) : AsksFR env fitText [⟨asc "height", [asc "min", asc "mean", asc "max"]⟩] := by
  unfold AsksFR fitText
  rw [roughParse_ord env.ord (q := ⟨[⟨asc "height", [asc "min", asc "mean", asc "max"]⟩], [⟨asc "country", asc "FR"⟩]⟩) (by decide +kernel), List.perm_singleton.1 (hord _)]

/-- an observation that carries two heights -/
def frNineOne : List FV := [⟨asc "country", asc "FR"⟩, ⟨asc "height", asc "9"⟩, ⟨asc "height", asc "1"⟩]

theorem nineOne_ok : OfFR [frNineOne] ∧ (∀ fs ∈ [frNineOne], Plainly fs) ∧ (∀ fs ∈ [frNineOne], ∀ fv ∈ fs, fv.f ≠ asc "iata") ∧
    (∀ fs ∈ [frNineOne], ∀ fv ∈ fs, fv.f = asc "height" → fv.v = asc "9" ∨ fv.v = asc "1") := by decide +kernel

theorem fit_declares : Declares Demo.country (asc "height") .min ∧ Declares Demo.country (asc "height") .mean ∧ Declares Demo.country (asc "height") .max :=
  ⟨.inr ⟨by simp, _, List.mem_cons_self .., by simp⟩, .inr ⟨by simp, _, List.mem_cons_self .., by simp⟩, .inr ⟨by simp, _, List.mem_cons_self .., by simp⟩⟩

/-- **C96 refuted**: in the program, after one observation of FR with the heights 9 and 1, min, mean and max of the height are answered with 1, 5 and 1. -/
theorem C96_refuted (env : Env) (hord : ∀ l, (env.ord l).Perm l) (hld : ParsesDoubles env.lib) (h9 : env.lib.parseFloat (asc "9") = some (F64.ofNat 9))
    (h1 : env.lib.parseFloat (asc "1") = some (F64.ofNat 1)) :
    AllAccepted env [frNineOne] ∧
    (Server.serve env (afterPosts env [frNineOne]) (askFor (asc "country") fitText)).2 =
      .ok (echo [⟨asc "country", asc "FR"⟩] ++ measureLine env (asc "min") (asc "height") (F64.ofNat 1) ++
        measureLine env (asc "mean") (asc "height") (F64.ofNat 5) ++ measureLine env (asc "max") (asc "height") (F64.ofNat 1)) := by
  obtain ⟨a1, a2, a3, a4⟩ := nineOne_ok
  have b1 : AllAccepted env [frNineOne] := by
    refine (ofFR_accepted env a1 a2).2 ⟨?_, ?_⟩
    · intro fs hfs fv hfv e
      rcases a4 fs hfs fv hfv e with h | h <;> rw [h]
      · rw [h9]; simp
      · rw [h1]; simp
    · rintro g rest - ⟨fs, hfs, fv, hfv, e⟩
      exact absurd e (a3 fs hfs fv hfv)
  refine ⟨b1, ?_⟩
  obtain ⟨rows, buf, e1, e2, e3⟩ := ofFR_answer env a1 a2 (by simp) b1
  obtain ⟨r, rest, rfl, c1, c2⟩ := List.map_eq_cons_iff.1 e1
  obtain rfl := List.map_eq_nil_iff.1 c2
  have hnum : numbersOf env.lib (asc "height") [r] = [F64.ofNat 9, F64.ofNat 1] := by
    rw [numbersOf_data, List.map_singleton, c1]
    unfold numbersIn frNineOne
    simp only [List.flatten_cons, List.flatten_nil, List.append_nil, List.filterMap_cons, List.filterMap_nil]
    rw [if_neg (by decide +kernel), if_pos trivial, if_pos trivial, h9, h1]
  have hlast : (numbersOf env.lib (asc "height") [r]).getLastD (.fin false 0) = F64.ofNat 1 := by rw [hnum]; rfl
  obtain ⟨d1, d2, d3⟩ := fit_declares
  have hmean := C25_mean env.lib Demo.country country_valid (asc "height") d2 r [] buf e2
  rw [hnum, show (after [F64.ofNat 9, F64.ofNat 1]).mean = F64.ofNat 5 by decide +kernel] at hmean
  obtain ⟨x3, x1⟩ := C25_extreme_law env.lib hld Demo.country country_valid (asc "height") r [] buf e2 (by
    rw [hlast]
    intro x hx
    rw [show numbersOf env.lib (asc "height") [] = [] from rfl, List.mem_singleton] at hx
    rw [hx]
    decide +kernel)
  obtain ⟨lo, l1, l2, -⟩ := x1 d1
  obtain ⟨hi, u1, u2, -⟩ := x3 d3
  rw [hlast, show numbersOf env.lib (asc "height") [] = [] from rfl, List.mem_singleton] at l2 u2
  subst l2 u2
  rw [e3 _ _ (fitText_parse env hord), C27_read, show pairs [⟨asc "height", [asc "min", asc "mean", asc "max"]⟩] =
    [(asc "height", asc "min"), (asc "height", asc "mean"), (asc "height", asc "max")] from rfl, together]
  simp only
  rw [l1]
  simp only
  rw [together]
  simp only
  rw [hmean]
  simp only
  rw [together]
  simp only
  rw [u1]
  exact congrArg Reply.ok (render_three env _ _ _ _ _ _ _ _)

/-- instance: the hypotheses of `C96_fit_partial` hold in the program for the heights 5 and 3 of FR -/
theorem ex_fit (env : Env) (hord : ∀ l, (env.ord l).Perm l) (hld : ParsesDoubles env.lib) (h5 : env.lib.parseFloat (asc "5") = some (F64.ofNat 5))
    (h3 : env.lib.parseFloat (asc "3") = some (F64.ofNat 3)) :
    ∃ lo m hi, (Server.serve env (serveAll env ([] ++ newStore Demo.country Demo.slots :: [newStore Demo.tz Demo.slots]) (exSteps.map Step.request)).1
        (askFor (asc "country") fitText)).2 =
        .ok (echo [⟨asc "country", asc "FR"⟩] ++ measureLine env (asc "min") (asc "height") lo ++ measureLine env (asc "mean") (asc "height") m ++
          measureLine env (asc "max") (asc "height") hi) ∧ F64.le lo m = true ∧ F64.le m hi = true := by
  have hobs : ((observations exSteps).filter fun fs => keyValue fs Demo.country.keys = some 12582602682680778473) =
        [(heightIn (asc "FR") (asc "5")).fs, (heightIn (asc "FR") (asc "3")).fs] := by decide +kernel
  have hnum : [F64.ofNat 5, F64.ofNat 3] = numbersIn env.lib (asc "height") ((observations exSteps).filter fun fs => keyValue fs Demo.country.keys = some 12582602682680778473) := by
    rw [hobs]
    unfold numbersIn heightIn
    simp only [List.flatten_cons, List.flatten_nil, List.append_nil, List.cons_append, List.nil_append, List.filterMap_cons, List.filterMap_nil]
    rw [if_neg (by decide +kernel), if_pos trivial, if_pos trivial, h5, h3]
  have five : ∃ q, value (F64.ofNat 5) = some q := Option.isSome_iff_exists.1 (by decide +kernel)
  have three : ∃ q, value (F64.ofNat 3) = some q := Option.isSome_iff_exists.1 (by decide +kernel)
  obtain ⟨d1, d2, d3⟩ := fit_declares
  refine C96_fit_partial env hld Demo.country country_valid country_name Demo.slots (by decide) [] [newStore Demo.tz Demo.slots] (by simp)
    exSteps ex_correct (ex_accepted env h5 h3) [⟨asc "country", asc "FR"⟩] 12582602682680778473
    fr_key (by decide) (by decide +kernel) (by rw [country_size]; decide) (by rw [country_size]; decide) (asc "height") d1 d2 d3 ?_ _ hnum (by simp) ?_ ?_
    fitText (fitText_parse env hord)
  · intro fs rest h
    rw [hobs] at h
    obtain ⟨rfl, -⟩ := List.cons.inj h
    decide +kernel
  · intro x hx
    simp only [List.mem_cons, List.not_mem_nil, or_false] at hx
    rcases hx with rfl | rfl <;> assumption
  · intro x hx y hy
    simp only [List.mem_cons, List.not_mem_nil, or_false] at hx hy
    rcases hx with rfl | rfl <;> rcases hy with rfl | rfl <;> exact Option.isSome_iff_exists.1 (by decide +kernel)

end Starbow.Props
