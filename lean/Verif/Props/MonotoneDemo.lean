import Verif.Props.Monotone
/-
Property C88: an instance of its theorems in the program's own configuration.
-/
namespace Starbow.Props
open Starbow.Collation Starbow.Spec Starbow.Storage Starbow.Server Starbow.ServerConc Starbow.BufmapConc Starbow.Cell Starbow.Probe

/-- the sequential server's answer to the count of France after the height of FR has been posted as often as the list says -/
theorem fr_counted (env : Env) (hord : ∀ l, (env.ord l).Perm l) (steps : List Step) (S : List Store) (reps : List Reply)
    (hst : steps = [Step.posted [heightLine (asc "3")]] ∨ steps = [Step.posted [heightLine (asc "3")], Step.posted [heightLine (asc "5")]])
    (hS : serveAll env (newStore Demo.country Demo.slots :: [newStore Demo.tz Demo.slots]) (steps.map Step.request) = (S, reps)) (hreps : ∀ r ∈ reps, r = .ok [])
    (hlen : reps.length = steps.length) :
    Server.serve env S (askFor (asc "country") (countryQuery (asc "FR"))) = (S, .ok (echo [⟨asc "country", asc "FR"⟩] ++ countLine env steps.length)) := by
  have hacc : List.Forall₂ Step.Accepted steps reps := by
    rcases hst with rfl | rfl
    · match reps, hlen with
      | [a], _ => exact .cons (hreps a (by simp)) .nil
    · match reps, hlen with
      | [a, b], _ => exact .cons (hreps a (by simp)) (.cons (hreps b (by simp)) .nil)
  have hcor : ∀ st ∈ steps, st.Correct := by
    intro st h
    apply maxSteps_correct st
    rcases hst with rfl | rfl <;> simp only [List.mem_cons, List.not_mem_nil, or_false] at h
    · rw [h]; simp [maxSteps]
    · rcases h with rfl | rfl <;> simp [maxSteps]
  have hflt : ((observations steps).filter fun fs => AgreeOn Demo.country.keys fs [⟨asc "country", asc "FR"⟩]).length = steps.length := by
    rcases hst with rfl | rfl <;> decide +kernel
  have hall : ∀ c ∈ [⟨asc "country", asc "FR"⟩] :: observations steps, ∀ key ∈ Demo.country.keys, valueOf c key = some (asc "FR") := by
    rcases hst with rfl | rfl <;> decide +kernel
  have h := C48_server_partial env Demo.country country_valid (by decide) country_name Demo.slots (by decide) [] [newStore Demo.tz Demo.slots] (by simp) steps hcor
    (by rw [List.nil_append, hS]; exact hacc) (countryQuery (asc "FR")) [⟨asc "country", asc "FR"⟩]
    (countryQuery_parse env.ord hord (by decide +kernel) (by decide +kernel) (by decide +kernel)) (by
      intro a ha b hb kx ky _ _ _ key hkey
      rw [hall a ha key hkey, hall b hb key hkey]) 12582602682680778473 fr_key (by decide) (by decide) (by rw [country_size]; decide)
  rw [List.nil_append, hS] at h
  refine Prod.ext (asked_same env _ _ _ country_name) ?_
  refine h.trans ?_
  rw [hflt, if_neg]
  intro e
  have := congrArg List.length e
  rw [hflt] at this
  rcases hst with rfl | rfl <;> simp at this

/-- instance of C88_server, C88_count_partial and C88_stable: there is a run of the demo program in which a height of FR is posted, France is counted (`σ₀`: the answer is 1), another height is posted (`σ₁`) and France is
counted twice (`σ`: the answers are 2); the hypotheses hold there. -/
example (env : Env) (hord : ∀ l, (env.ord l).Perm l) {x y : F64} (hx : env.lib.parseFloat (asc "3") = some x) (hy : env.lib.parseFloat (asc "5") = some y) :
    ∃ σ₀ σ₁ σ, ServerConc.Steps env demoConfs ServerConc.init σ₀ ∧ ServerConc.Steps env demoConfs σ₀ σ₁ ∧ ServerConc.Steps env demoConfs σ₁ σ ∧ Unwrapped σ ∧
    σ₀.reqs[1]? = some (askFor (asc "country") (countryQuery (asc "FR"))) ∧ σ.reqs[3]? = some (askFor (asc "country") (countryQuery (asc "FR"))) ∧
    σ.reqs[4]? = some (askFor (asc "country") (countryQuery (asc "FR"))) ∧ σ₀.reqs.length ≤ 3 ∧ σ₁.reqs.length ≤ 3 ∧
    (∀ j req, σ.reqs[j]? = some req → req.path = asc "/obs" → ∃ rep, (j, rep) ∈ σ₁.replies) ∧
    (∀ x, x < Demo.slots → (σ.stores 0).m.keys x = 12582602682680778473 → 8 * Demo.country.recordMeasures.length ≤ x) ∧
    (1, Reply.ok (echo [⟨asc "country", asc "FR"⟩] ++ countLine env 1)) ∈ σ₀.replies ∧
    (3, Reply.ok (echo [⟨asc "country", asc "FR"⟩] ++ countLine env 2)) ∈ σ.replies ∧
    (4, Reply.ok (echo [⟨asc "country", asc "FR"⟩] ++ countLine env 2)) ∈ σ.replies := by
  have hpos : ∀ c ∈ demoConfs, 0 < c.slots := by
    intro c hc
    simp only [demoConfs, List.mem_cons, List.not_mem_nil, or_false] at hc
    rcases hc with rfl | rfl <;> (show 0 < Demo.slots; decide)
  have p1 := height_post env [] (v := asc "3") (.inl rfl) (by rw [hx]; simp) (.inr rfl)
  have p2 := height_post env ([] ++ [seenHeight (asc "FR") (asc "3")]) (v := asc "5") (.inr rfl) (by rw [hy]; simp) (.inl (by decide +kernel))
  rw [show (writes env.lib (newStore Demo.country Demo.slots) []).1 = newStore Demo.country Demo.slots from rfl] at p1
  have hkeys : ∀ σ : ServerConc.State, Agrees demoConfs σ [(writes env.lib (newStore Demo.country Demo.slots) (([] ++ [seenHeight (asc "FR") (asc "3")]) ++
      [seenHeight (asc "FR") (asc "5")])).1, newStore Demo.tz Demo.slots] → ∀ x, x < Demo.slots → (σ.stores 0).m.keys x = 12582602682680778473 →
      8 * Demo.country.recordMeasures.length ≤ x := by
    intro σ b2 x hx hkx
    obtain ⟨L, D, pos, h, hD⟩ := laid_compile Demo.country country_valid
    have hg := good_writes (l := Demo.slots) env.lib h (([] ++ [seenHeight (asc "FR") (asc "3")]) ++ [seenHeight (asc "FR") (asc "5")]) (good_new h (by decide))
    have hsl := (b2.store 0 _ _ rfl rfl).2
    rw [hsl.keyAt hx] at hkx
    have hs := (Bufmap.slotOf_eq hg.wf (by decide)).2 ⟨hx, hkx⟩
    have := home_run env.lib h (l := Demo.slots) (by decide) (([] ++ [seenHeight (asc "FR") (asc "3")]) ++ [seenHeight (asc "FR") (asc "5")]) (by
      intro o ho o' ho' k1 k2 h1 h2 _
      have hk : ∀ o ∈ ([] ++ [seenHeight (asc "FR") (asc "3")]) ++ [seenHeight (asc "FR") (asc "5")], keyValue o.row.data Demo.country.keys = some 12582602682680778473 := by
        decide +kernel
      rw [hk o ho] at h1
      rw [hk o' ho'] at h2
      rw [h1] at h2
      exact Option.some.inj h2)
      (k := 12582602682680778473) (by decide) (x := x) hs
    rw [this]
    decide
  obtain ⟨S', hS'⟩ : ∃ S', S' = [(writes env.lib (newStore Demo.country Demo.slots) ([] ++ [seenHeight (asc "FR") (asc "3")])).1, newStore Demo.tz Demo.slots] := ⟨_, rfl⟩
  obtain ⟨S'', hS''⟩ : ∃ S'', S'' = [(writes env.lib (newStore Demo.country Demo.slots) (([] ++ [seenHeight (asc "FR") (asc "3")]) ++ [seenHeight (asc "FR") (asc "5")])).1,
    newStore Demo.tz Demo.slots] := ⟨_, rfl⟩
  rw [← hS'] at p1 p2
  rw [← hS''] at p2 hkeys
  clear hS' hS''
  have q1 := fr_counted env hord [Step.posted [heightLine (asc "3")]] S' [.ok []] (.inl rfl) (by
    rw [List.map_cons, List.map_nil, serveAll, serveAll, p1]) (by simp) rfl
  have q2 := fr_counted env hord [Step.posted [heightLine (asc "3")], Step.posted [heightLine (asc "5")]] S'' [.ok [], .ok []] (.inr rfl) (by
    rw [List.map_cons, List.map_cons, List.map_nil]; exact serveAll_two env p1 p2) (by simp) rfl
  obtain ⟨σa, a1, a2, a3, a4, a5, a6, a7⟩ := C68_alone env demoConfs hpos ServerConc.init (.refl _) 0 rfl (fun _ => rfl) Demo.stores demo_agrees
    _ S' _ (by rw [show Demo.stores = [newStore Demo.country Demo.slots, newStore Demo.tz Demo.slots] from rfl]; exact p1) (by simp) (by simp)
  obtain ⟨σb, b1, b2, b3, b4, b5, b6, b7⟩ := C68_alone env demoConfs hpos σa a1 0 (by rw [a5]; rfl) (fun s => by rw [a6]; rfl) S' a2 _ _ _ q1 (by simp) (by simp)
  obtain ⟨σc, c1, c2, c3, c4, c5, c6, c7⟩ := C68_alone env demoConfs hpos σb (a1.trans b1) 0 (by rw [b5, a5]; rfl) (fun s => by rw [b6, a6]; rfl) S' b2 _ S'' _ p2
    (by simp) (by simp)
  obtain ⟨σd, d1, d2, d3, d4, d5, d6, d7⟩ := C68_alone env demoConfs hpos σc ((a1.trans b1).trans c1) 0 (by rw [c5, b5, a5]; rfl) (fun s => by rw [c6, b6, a6]; rfl) S'' c2 _ _ _ q2
    (by simp) (by simp)
  obtain ⟨σe, e1, e2, e3, e4, e5, e6, e7⟩ := C68_alone env demoConfs hpos σd (((a1.trans b1).trans c1).trans d1) 0 (by rw [d5, c5, b5, a5]; rfl)
    (fun s => by rw [d6, c6, b6, a6]; rfl) S'' d2 _ _ _ q2 (by simp) (by simp)
  have hreqs : σe.reqs = [(Step.posted [heightLine (asc "3")]).request, askFor (asc "country") (countryQuery (asc "FR")), (Step.posted [heightLine (asc "5")]).request,
      askFor (asc "country") (countryQuery (asc "FR")), askFor (asc "country") (countryQuery (asc "FR"))] := by
    rw [e3, d3, c3, b3, a3]; rfl
  refine ⟨σb, σc, σe, a1.trans b1, c1, d1.trans e1, ?_, ?_, ?_, ?_, ?_, ?_, ?_, hkeys σe e2, ?_, ?_, ?_⟩
  · intro s i buf d hm
    rcases e7 s i true buf d hm with h | rfl
    · rcases d7 s i true buf d h with h | rfl
      · rcases c7 s i true buf d h with h | rfl
        · rcases b7 s i true buf d h with h | rfl
          · rcases a7 s i true buf d h with h | rfl
            · simp [ServerConc.init, StoreConc.init, BufmapConc.init] at h
            · decide
          · decide
        · decide
      · decide
    · decide
  · rw [b3, a3]; rfl
  · rw [hreqs]; rfl
  · rw [hreqs]; rfl
  · rw [b3, a3]; simp [ServerConc.init]
  · rw [c3, b3, a3]; simp [ServerConc.init]
  · intro j req hj hp
    rw [hreqs] at hj
    rw [c4, b4, a4, b3, a3]
    have hno : (askFor (asc "country") (countryQuery (asc "FR"))).path ≠ asc "/obs" := by decide +kernel
    match j with
    | 0 => exact ⟨_, by simp [ServerConc.init]; rfl⟩
    | 1 => obtain rfl := Option.some.inj hj; exact absurd hp hno
    | 2 => exact ⟨_, by simp [ServerConc.init]; rfl⟩
    | 3 => obtain rfl := Option.some.inj hj; exact absurd hp hno
    | 4 => obtain rfl := Option.some.inj hj; exact absurd hp hno
    | j + 5 => simp at hj
  · rw [b4, a3]; exact List.mem_append_right _ (List.mem_singleton.2 rfl)
  · rw [e4, d4, c3, b3, a3]; exact List.mem_append_left _ (List.mem_append_right _ (List.mem_singleton.2 rfl))
  · rw [e4, d3, c3, b3, a3]; exact List.mem_append_right _ (List.mem_singleton.2 rfl)

end Starbow.Props
