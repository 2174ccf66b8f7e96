import Verif.Props.DisplacedConcDemo
import Verif.Props.Capacity
/-
Property theorems C94: a maximum that was reported is never taken back.
-/
namespace Starbow.Props
open Starbow.Collation Starbow.Spec Starbow.Storage Starbow.Server

theorem serveAll_both (env : Env) (ps : List Request) : ∀ (rs : List Request) (S : List Store),
    serveAll env S (rs ++ ps) = ((serveAll env (serveAll env S rs).1 ps).1, (serveAll env S rs).2 ++ (serveAll env (serveAll env S rs).1 ps).2)
  | [], S => rfl
  | r :: rs, S => by
    rw [List.cons_append, serveAll, serveAll_both env ps rs]
    rfl

theorem serveAll_count (env : Env) : ∀ (rs : List Request) (S : List Store), (serveAll env S rs).2.length = rs.length
  | [], _ => rfl
  | r :: rs, S => by
    rw [serveAll]
    simp only [List.length_cons]
    rw [serveAll_count env rs]

theorem observations_both : ∀ (steps more : List Step), observations (steps ++ more) = observations steps ++ observations more
  | [], _ => rfl
  | .posted ls :: steps, more => by rw [List.cons_append, observations, observations, observations_both steps more, List.append_assoc]
  | .other _ :: steps, more => by rw [List.cons_append, observations, observations, observations_both steps more]

theorem slotAfter_more (keys : List Bytes) (l : Nat) (k : U64) {x : Nat} (more : List Obs) : ∀ os, slotAfter keys l os k = some x →
    slotAfter keys l (os ++ more) k = some x := by
  induction more with
  | nil => intro os h; rw [List.append_nil]; exact h
  | cons o more ih =>
    intro os h
    rw [← List.singleton_append, ← List.append_assoc]
    exact ih _ ((slotAfter_snoc keys l os o k).1 x h)

theorem accepted_first (env : Env) (S : List Store) {steps more : List Step}
    (hacc : List.Forall₂ Step.Accepted (steps ++ more) (serveAll env S ((steps ++ more).map Step.request)).2) :
    List.Forall₂ Step.Accepted steps (serveAll env S (steps.map Step.request)).2 := by
  rw [List.map_append, serveAll_both] at hacc
  have := List.forall₂_take steps.length hacc
  rw [List.take_left', List.take_left'] at this
  · exact this
  · rw [serveAll_count, List.length_map]
  · rfl

/-- **C94**, in its home slot behind the first record and before the truncated part (as in C59), with no NaN: the later of two answers to max is at
least the earlier one, and to min at most the earlier one, whatever was accepted between them. -/
theorem C94_extreme_partial (env : Env) (hld : ParsesDoubles env.lib) (sch : Schema) (hv : ValidSchema sch) (hn : GoodName sch.name)
    (l : Nat) (hl : 0 < l) (a b : List Store) (ha : ∀ s ∈ a, s.coll.name ≠ sch.name)
    (steps more : List Step) (hc : ∀ s ∈ steps ++ more, s.Correct)
    (hacc : List.Forall₂ Step.Accepted (steps ++ more) (serveAll env (a ++ newStore sch l :: b) ((steps ++ more).map Step.request)).2)
    (crit : List FV) (k : U64) (hk : keyValue crit sch.keys = some k) (h0 : k ≠ 0)
    (hhome : slotAfter sch.keys l ((observations steps).map obsOf) k = some (k.toNat % l))
    (hsize : (compile sch).size.toNat ≤ k.toNat % l) (hroom : k.toNat % l * ((compile sch).size.toNat + 1) ≤ l * (compile sch).size.toNat)
    (f : Bytes) (hnan : ∀ x ∈ numbersIn env.lib f ((observations (steps ++ more)).filter fun fs => keyValue fs sch.keys = some k), x ≠ .nan)
    (m : Measure) (hm : m = .max ∨ m = .min) (hd : Declares sch f m)
    (text text' : Bytes) (hq : Query.roughParse env.ord text = .ok ⟨[⟨f, [m.name]⟩], crit⟩) (hq' : Query.roughParse env.ord text' = .ok ⟨[⟨f, [m.name]⟩], crit⟩) :
    ∃ x y, (Server.serve env (serveAll env (a ++ newStore sch l :: b) (steps.map Step.request)).1 (askFor sch.name text)).2 =
        .ok (echo crit ++ measureLine env m.name f x) ∧
      (Server.serve env (serveAll env (a ++ newStore sch l :: b) ((steps ++ more).map Step.request)).1 (askFor sch.name text')).2 =
        .ok (echo crit ++ measureLine env m.name f y) ∧
      (m = .max → F64.le x y = true) ∧ (m = .min → F64.le y x = true) := by
  obtain ⟨rows, buf, a1, a2, a3, -, a4⟩ := (C59_server_law env sch hv hn l hl a b ha steps (fun s hs => hc s (List.mem_append_left _ hs))
    (accepted_first env _ hacc) crit k hk h0).2 _ hhome
  obtain ⟨rows', buf', b1, b2, b3, -, b4⟩ := (C59_server_law env sch hv hn l hl a b ha (steps ++ more) hc
    hacc crit k hk h0).2 (k.toNat % l) (by
      rw [observations_both, List.map_append]
      exact slotAfter_more _ _ _ _ _ hhome)
  have a4 := a4 _ _ hq
  have b4 := b4 _ _ hq'
  rw [if_neg (Nat.not_lt.2 hroom), List.take_of_length_le (by rw [a2]; exact hsize), a2, Nat.sub_eq_zero_of_le hsize, List.replicate_zero,
    List.append_nil] at a4
  rw [if_neg (Nat.not_lt.2 hroom), List.take_of_length_le (by rw [b2]; exact hsize), b2, Nat.sub_eq_zero_of_le hsize, List.replicate_zero,
    List.append_nil] at b4
  set old := (observations steps).filter fun fs => keyValue fs sch.keys = some k with hold
  set new := (observations more).filter fun fs => keyValue fs sch.keys = some k with hnew
  have happ : ((observations (steps ++ more)).filter fun fs => keyValue fs sch.keys = some k) = old ++ new := by
    rw [observations_both, List.filter_append]
  rw [happ] at b1 hnan
  have hne : old ≠ [] := by
    have hmem := (slotAfter_mem hhome).1
    unfold keysOf at hmem
    obtain ⟨o, ho, hko⟩ := List.mem_filterMap.1 hmem
    obtain ⟨fs, hfs, rfl⟩ := List.mem_map.1 ho
    have : keyValue fs sch.keys = some k := by simpa [obsOf] using hko
    exact List.ne_nil_of_mem (List.mem_filter.2 ⟨hfs, by simpa using this⟩)
  obtain ⟨fs, old', hcons⟩ := List.exists_cons_of_ne_nil hne
  rw [hcons] at a1 b1 hnan
  obtain ⟨r, rest, rfl, c1, c2⟩ := List.map_eq_cons_iff.1 a1
  obtain ⟨r', rest', rfl, d1, d2⟩ := List.map_eq_cons_iff.1 b1
  have hfirst : numbersOf env.lib f [r] = numbersOf env.lib f [r'] := by
    rw [numbersOf_data, numbersOf_data, List.map_singleton, List.map_singleton, c1, d1]
  have hsub : ∀ x ∈ numbersOf env.lib f rest, x ∈ numbersOf env.lib f rest' := by
    intro x hx
    rw [numbersOf_data] at hx ⊢
    rw [c2] at hx
    rw [d2, show old'.append new = old' ++ new from rfl]
    unfold numbersIn at hx ⊢
    rw [List.flatten_append, List.filterMap_append]
    exact List.mem_append_left _ hx
  have hn' : ∀ x ∈ (numbersOf env.lib f [r']).getLastD (.fin false 0) :: numbersOf env.lib f rest', x ≠ .nan := by
    intro x hx
    have hall : ∀ x ∈ numbersOf env.lib f (r' :: rest'), x ≠ .nan := by
      intro x hx
      rw [numbersOf_data, b1] at hx
      exact hnan x hx
    rw [numbersOf_cons] at hall
    rcases List.mem_cons.1 hx with rfl | hx
    · cases e : (numbersOf env.lib f [r']).getLast? with
      | none => rw [List.getLastD_eq_getLast?, e]; simp
      | some x => rw [List.getLastD_eq_getLast?, e]; exact hall x (List.mem_append_left _ (List.mem_of_getLast? e))
    · exact hall x (List.mem_append_right _ hx)
  have hn0 : ∀ x ∈ (numbersOf env.lib f [r]).getLastD (.fin false 0) :: numbersOf env.lib f rest, x ≠ .nan := by
    intro x hx
    rcases List.mem_cons.1 hx with h | hx
    · rw [h, hfirst]; exact hn' _ (List.mem_cons_self ..)
    · exact hn' x (List.mem_cons_of_mem _ (hsub x hx))
  have hinc : ∀ x ∈ (numbersOf env.lib f [r]).getLastD (.fin false 0) :: numbersOf env.lib f rest,
      x ∈ (numbersOf env.lib f [r']).getLastD (.fin false 0) :: numbersOf env.lib f rest' := by
    intro x hx
    rcases List.mem_cons.1 hx with h | hx
    · rw [h, hfirst]; exact List.mem_cons_self ..
    · exact List.mem_cons_of_mem _ (hsub x hx)
  have e1 := C25_extreme_law env.lib hld sch hv f r rest buf (a3 rfl) hn0
  have e2 := C25_extreme_law env.lib hld sch hv f r' rest' buf' (b3 rfl) hn'
  have fin : ∀ {x y : F64} {n : Bytes}, n = m.name → ask env.lib (compile sch) buf f n = .val ([⟨f, n, x⟩], none) →
      ask env.lib (compile sch) buf' f n = .val ([⟨f, n, y⟩], none) →
      (Server.serve env (serveAll env (a ++ newStore sch l :: b) (steps.map Step.request)).1 (askFor sch.name text)).2 =
        .ok (echo crit ++ measureLine env m.name f x) ∧
      (Server.serve env (serveAll env (a ++ newStore sch l :: b) ((steps ++ more).map Step.request)).1 (askFor sch.name text')).2 =
        .ok (echo crit ++ measureLine env m.name f y) := by
    rintro x y n rfl h1 h2
    unfold ask at h1 h2
    rw [a4, b4, h1, h2]
    exact ⟨congrArg Reply.ok (render_one env _ _ _ _), congrArg Reply.ok (render_one env _ _ _ _)⟩
  rcases hm with rfl | rfl
  · obtain ⟨x, x1, x2, x3⟩ := e1.1 hd
    obtain ⟨y, y1, y2, y3⟩ := e2.1 hd
    obtain ⟨p, q⟩ := fin rfl x1 y1
    exact ⟨x, y, p, q, fun _ => y3 x (hinc x x2), by simp⟩
  · obtain ⟨x, x1, x2, x3⟩ := e1.2 hd
    obtain ⟨y, y1, y2, y3⟩ := e2.2 hd
    obtain ⟨p, q⟩ := fin rfl x1 y1
    exact ⟨x, y, p, q, by simp, fun _ => y3 x (hinc x x2)⟩

/-! ### a greatest height that shrinks -/

theorem twin_first : (twinSteps.take 2).map Step.request = [(Step.posted [heightIn (asc "LT") (asc "1")]).request,
    (Step.posted [heightIn (asc "ZZ") (asc "5")]).request] := rfl

/-- after the first height of "ZZ" -/
theorem zz_asked_first (env : Env) (hord : ∀ l, (env.ord l).Perm l) (hld : ParsesDoubles env.lib) {x : F64} (hx : env.lib.parseFloat (asc "5") = some x)
    {A B : List Store}
    (p1 : Server.serve env ([] ++ newStore Demo.country Demo.slots :: [newStore Demo.tz Demo.slots]) (Step.posted [heightIn (asc "LT") (asc "1")]).request = (A, .ok []))
    (p2 : Server.serve env A (Step.posted [heightIn (asc "ZZ") (asc "5")]).request = (B, .ok [])) :
    (Server.serve env B (askFor (asc "country") zzText)).2 = .ok (echo [⟨asc "country", asc "ZZ"⟩] ++ measureLine env (asc "max") (asc "height") x) := by
  have hall := serveAll_two env p1 p2
  obtain ⟨rows, buf, h1, hlen, _, h2, h3⟩ := (C59_server_law env Demo.country country_valid country_name Demo.slots (by decide) [] [newStore Demo.tz Demo.slots] (by simp)
    (twinSteps.take 2) (fun st hst => twin_correct st (List.mem_of_mem_take hst)) (by
      rw [twin_first, hall]
      exact .cons rfl (.cons rfl .nil)) [⟨asc "country", asc "ZZ"⟩] 12582580692448214245 zz_key (by decide)).2 4246 (by decide +kernel)
  rw [show ((observations (twinSteps.take 2)).filter fun fs => keyValue fs Demo.country.keys = some 12582580692448214245) =
    [(heightIn (asc "ZZ") (asc "5")).fs] by decide +kernel] at h1
  have h3 := h3 _ _ (zzText_parse env.ord hord)
  have hsz : buf.length = 900 := by rw [hlen, country_size]; rfl
  rw [twin_first, hall, if_neg (by rw [country_size]; decide),
    List.take_of_length_le (by rw [hsz]; decide), hsz, show 900 - 4246 = 0 from rfl, List.replicate_zero, List.append_nil] at h3
  have hnum : numbersOf env.lib (asc "height") rows = [x] := by
    rw [numbersOf_data, h1]
    unfold numbersIn heightIn
    simp only [List.flatten_cons, List.flatten_nil, List.append_nil, List.filterMap_cons, List.filterMap_nil]
    rw [if_neg (by decide +kernel), if_pos (by decide +kernel), hx]
  have key := (C59_firsts env.lib hld Demo.country country_valid rows buf (h2 (by decide)) (asc "height")).2.2.2.2.1 maxAsk_declares
  rw [hnum] at key
  refine h3.trans ?_
  rw [show Collation.read env.lib (compile Demo.country) [⟨asc "height", [asc "max"]⟩] buf = _ from key]
  exact congrArg Reply.ok (render_one env _ _ _ _)

/-- **C94 refuted**: in the program, a height of "LT" and the height 5 of "ZZ" are posted, and max(height) of "ZZ" is answered with 5; then the height 3 of "ZZ"
is posted, and the same query is answered with 3. -/
theorem C94_refuted (env : Env) (hord : ∀ l, (env.ord l).Perm l) (hld : ParsesDoubles env.lib) {u x y : F64} (hu : env.lib.parseFloat (asc "1") = some u)
    (hx : env.lib.parseFloat (asc "5") = some x) (hy : env.lib.parseFloat (asc "3") = some y) :
    (serveAll env Demo.stores (twinSteps.map Step.request)).2 = [.ok [], .ok [], .ok []] ∧
    (Server.serve env (serveAll env Demo.stores ((twinSteps.take 2).map Step.request)).1 (askFor (asc "country") zzText)).2 =
      .ok (echo [⟨asc "country", asc "ZZ"⟩] ++ measureLine env (asc "max") (asc "height") x) ∧
    (Server.serve env (serveAll env Demo.stores (twinSteps.map Step.request)).1 (askFor (asc "country") zzText)).2 =
      .ok (echo [⟨asc "country", asc "ZZ"⟩] ++ measureLine env (asc "max") (asc "height") y) := by
  have p1 := heightIn_post env [] (c := asc "LT") (v := asc "1") (twin_correct (.posted [heightIn (asc "LT") (asc "1")]) (by simp [twinSteps]) _ (by simp)) (by rw [hu]; simp)
    (k := 12582596085611009245) (by decide +kernel) (by decide) (by decide +kernel) (.inr (room_new (by decide) _))
  have p2 := heightIn_post env ([] ++ [seenHeight (asc "LT") (asc "1")]) (c := asc "ZZ") (v := asc "5")
    (twin_correct (.posted [heightIn (asc "ZZ") (asc "5")]) (by simp [twinSteps]) _ (by simp)) (by rw [hx]; simp)
    (k := 12582580692448214245) (by decide +kernel) (by decide) (by decide +kernel)
    (.inr ⟨1, by decide, empty_slot env.lib _ (by decide +kernel) (by decide +kernel)⟩)
  have p3 := heightIn_post env (([] ++ [seenHeight (asc "LT") (asc "1")]) ++ [seenHeight (asc "ZZ") (asc "5")]) (c := asc "ZZ") (v := asc "3")
    (twin_correct (.posted [heightIn (asc "ZZ") (asc "3")]) (by simp [twinSteps]) _ (by simp)) (by rw [hy]; simp)
    (k := 12582580692448214245) (by decide +kernel) (by decide) (by decide +kernel) (.inl (by decide +kernel))
  rw [show (writes env.lib (newStore Demo.country Demo.slots) []).1 = newStore Demo.country Demo.slots from rfl] at p1
  obtain ⟨A, hA⟩ : ∃ S, S = [(writes env.lib (newStore Demo.country Demo.slots) ([] ++ [seenHeight (asc "LT") (asc "1")])).1, newStore Demo.tz Demo.slots] := ⟨_, rfl⟩
  obtain ⟨B, hB⟩ : ∃ S, S = [(writes env.lib (newStore Demo.country Demo.slots) (([] ++ [seenHeight (asc "LT") (asc "1")]) ++ [seenHeight (asc "ZZ") (asc "5")])).1,
    newStore Demo.tz Demo.slots] := ⟨_, rfl⟩
  obtain ⟨T, hT⟩ : ∃ S, S = [(writes env.lib (newStore Demo.country Demo.slots) ((([] ++ [seenHeight (asc "LT") (asc "1")]) ++ [seenHeight (asc "ZZ") (asc "5")]) ++
    [seenHeight (asc "ZZ") (asc "3")])).1, newStore Demo.tz Demo.slots] := ⟨_, rfl⟩
  rw [← hA] at p1 p2
  rw [← hB] at p2 p3
  rw [← hT] at p3
  clear hA hB hT
  have q1 : Server.serve env Demo.stores (Step.posted [heightIn (asc "LT") (asc "1")]).request = (A, .ok []) := by
    rw [show Demo.stores = [newStore Demo.country Demo.slots, newStore Demo.tz Demo.slots] from rfl]; exact p1
  have hans := zz_asked env hord hld hx hy (by rw [List.nil_append]; exact p1) p2 p3
  have hfirst := zz_asked_first env hord hld hx (by rw [List.nil_append]; exact p1) p2
  rw [twin_requests, twin_first, serveAll_three env q1 p2 p3, serveAll_two env q1 p2, hans]
  exact ⟨rfl, hfirst, rfl⟩

/-! ### an instance of C94_extreme_partial -/

def exText : Bytes := asc "select max(height) where country='FR'"

/-- heights 5 and 3 of "FR" -/
def exSteps : List Step := [.posted [heightIn (asc "FR") (asc "5")], .posted [heightIn (asc "FR") (asc "3")]]

theorem ex_correct : ∀ st ∈ exSteps, st.Correct := by
  intro st hst
  simp only [exSteps, List.mem_cons, List.not_mem_nil, or_false] at hst
  rcases hst with rfl | rfl <;>
  · intro l hl
    rw [List.mem_singleton.1 hl]
    exact ⟨by decide +kernel, by decide +kernel, by decide +kernel, by decide +kernel, by decide +kernel, by decide +kernel, by decide +kernel,
      by decide +kernel, by decide +kernel, by decide +kernel⟩

theorem ex_requests : exSteps.map Step.request = [(Step.posted [heightIn (asc "FR") (asc "5")]).request, (Step.posted [heightIn (asc "FR") (asc "3")]).request] := rfl

theorem ex_accepted (env : Env) {x y : F64} (hx : env.lib.parseFloat (asc "5") = some x) (hy : env.lib.parseFloat (asc "3") = some y) :
    List.Forall₂ Step.Accepted exSteps (serveAll env ([] ++ newStore Demo.country Demo.slots :: [newStore Demo.tz Demo.slots]) (exSteps.map Step.request)).2 := by
  have p1 := heightIn_post env [] (c := asc "FR") (v := asc "5") (ex_correct (.posted [heightIn (asc "FR") (asc "5")]) (by simp [exSteps]) _ (by simp)) (by rw [hx]; simp)
    (k := 12582602682680778473) (by decide +kernel) (by decide) (by decide +kernel) (.inr (room_new (by decide) _))
  have p2 := heightIn_post env ([] ++ [seenHeight (asc "FR") (asc "5")]) (c := asc "FR") (v := asc "3")
    (ex_correct (.posted [heightIn (asc "FR") (asc "3")]) (by simp [exSteps]) _ (by simp)) (by rw [hy]; simp)
    (k := 12582602682680778473) (by decide +kernel) (by decide) (by decide +kernel) (.inl (by decide +kernel))
  rw [show (writes env.lib (newStore Demo.country Demo.slots) []).1 = newStore Demo.country Demo.slots from rfl] at p1
  obtain ⟨A, hA⟩ : ∃ S, S = [(writes env.lib (newStore Demo.country Demo.slots) ([] ++ [seenHeight (asc "FR") (asc "5")])).1, newStore Demo.tz Demo.slots] := ⟨_, rfl⟩
  rw [← hA] at p1 p2
  rw [List.nil_append, ex_requests, serveAll_two env p1 p2]
  exact .cons rfl (.cons rfl .nil)

/-- instance: the hypotheses of `C94_extreme_partial` hold in the program for the heights 5, then 3, of "FR"; so its greatest height does not go down. -/
theorem ex_extreme (env : Env) (hord : ∀ l, (env.ord l).Perm l) (hld : ParsesDoubles env.lib) {x y : F64} (hx : env.lib.parseFloat (asc "5") = some x)
    (hy : env.lib.parseFloat (asc "3") = some y) (hxn : x ≠ .nan) (hyn : y ≠ .nan) :
    ∃ v w, (Server.serve env (serveAll env ([] ++ newStore Demo.country Demo.slots :: [newStore Demo.tz Demo.slots]) ((exSteps.take 1).map Step.request)).1
        (askFor (asc "country") exText)).2 = .ok (echo [⟨asc "country", asc "FR"⟩] ++ measureLine env (asc "max") (asc "height") v) ∧
      (Server.serve env (serveAll env ([] ++ newStore Demo.country Demo.slots :: [newStore Demo.tz Demo.slots]) (exSteps.map Step.request)).1
        (askFor (asc "country") exText)).2 = .ok (echo [⟨asc "country", asc "FR"⟩] ++ measureLine env (asc "max") (asc "height") w) ∧
      F64.le v w = true := by
  have hq : Query.roughParse env.ord exText = .ok ⟨[⟨asc "height", [asc "max"]⟩], [⟨asc "country", asc "FR"⟩]⟩ := by
    rw [roughParse_ord env.ord (q := ⟨[⟨asc "height", [asc "max"]⟩], [⟨asc "country", asc "FR"⟩]⟩) (by decide +kernel), List.perm_singleton.1 (hord _)]
  have hsp : exSteps = exSteps.take 1 ++ exSteps.drop 1 := (List.take_append_drop 1 exSteps).symm
  obtain ⟨v, w, h1, h2, h3, _⟩ := C94_extreme_partial env hld Demo.country country_valid country_name Demo.slots (by decide) [] [newStore Demo.tz Demo.slots] (by simp)
    (exSteps.take 1) (exSteps.drop 1) (by rw [← hsp]; exact ex_correct) (by rw [← hsp]; exact ex_accepted env hx hy) [⟨asc "country", asc "FR"⟩] 12582602682680778473
    (by decide +kernel) (by decide) (by decide +kernel) (by rw [country_size]; decide) (by rw [country_size]; decide) (asc "height") (by
      rw [← hsp, show ((observations exSteps).filter fun fs => keyValue fs Demo.country.keys = some 12582602682680778473) =
        [(heightIn (asc "FR") (asc "5")).fs, (heightIn (asc "FR") (asc "3")).fs] by decide +kernel]
      unfold numbersIn heightIn
      simp only [List.flatten_cons, List.flatten_nil, List.append_nil, List.cons_append, List.nil_append, List.filterMap_cons, List.filterMap_nil]
      rw [if_neg (by decide +kernel), if_pos (by decide +kernel), hx, hy]
      simp [hxn, hyn]) .max (.inl rfl) maxAsk_declares exText exText hq hq
  rw [← hsp] at h2
  exact ⟨v, w, h1, h2, h3 rfl⟩

end Starbow.Props
