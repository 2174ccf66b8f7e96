import Verif.Props.Rising
import Verif.Props.Fit
/-
Properties C95 and C96 under concurrent requests.
-/
namespace Starbow.Props
open Starbow.Collation Starbow.Spec Starbow.Storage Starbow.Server Starbow.ServerConc Starbow.BufmapConc Starbow.Cell Starbow.Probe

theorem values_one {f : Bytes} {r : Row} {fs : List FV} (hr : r.data = fs) {v : Bytes} (h : (fs.filterMap fun fv => if fv.f = f then some fv.v else none) = [v]) :
    valuesOf f [r] = [v] := by
  unfold valuesOf
  rw [List.flatMap_singleton, hr]
  exact h

/-- **C95** under concurrent requests: let the first observation of the key value (`o₁`) have been acknowledged before the others were posted and carry the field once, and the key
value be alone in its home slot. If the observations of the key value acknowledged at some moment `σm` carry all the values of the field that are carried by observations of it at all, then of
two queries received after that, the second after the first was answered, both are answered with the same uniquecount: observations posted after `σm`, or in progress, do not count
again, in any interleaving. -/
theorem C95_concurrent_partial (env : Env) (confs : List Conf) (s : Nat) (sch : Schema) (l : Nat) (hs : confs[s]? = some ⟨compile sch, l⟩)
    (hv : ValidSchema sch) (hn : GoodName sch.name) (hl : 0 < l)
    (hfirst : ∀ s' c', s' < s → confs[s']? = some c' → c'.coll.name ≠ sch.name)
    (σ₁ σm σ₀ σ σ₂ : ServerConc.State) (hr₁ : ServerConc.Steps env confs ServerConc.init σ₁) (hrm : ServerConc.Steps env confs σ₁ σm)
    (hr₀ : ServerConc.Steps env confs σm σ₀)
    (hsteps : ServerConc.Steps env confs σ₀ σ) (hlater : ServerConc.Steps env confs σ σ₂) (hun : Unwrapped σ)
    (steps : List Step) (hreq : σ.reqs = steps.map Step.request)
    (hcorr : ∀ st ∈ steps, st.Correct) (hall : ∀ j ls, steps[j]? = some (.posted ls) → Acked σ₂ j)
    (j₁ j₂ : Nat) (hj₁ : σm.reqs.length ≤ j₁) (hj₂ : σ₀.reqs.length ≤ j₂) (text₁ text₂ : Bytes)
    (hask₁ : steps[j₁]? = some (.other (askFor sch.name text₁))) (hask₂ : steps[j₂]? = some (.other (askFor sch.name text₂)))
    (f : Bytes) (p : Int) (hd : Declares sch f (.cardinality p)) (crit : List FV)
    (hq₁ : Query.roughParse env.ord text₁ = .ok ⟨[⟨f, [asc "uniquecount"]⟩], crit⟩) (hq₂ : Query.roughParse env.ord text₂ = .ok ⟨[⟨f, [asc "uniquecount"]⟩], crit⟩)
    (k : U64) (hk : keyValue crit sch.keys = some k) (h0 : k ≠ 0)
    (happ : ∀ fs ∈ observations steps, keyValue fs sch.keys = some k → AgreeOn sch.keys fs crit)
    (o₁ : Nat × Nat) (fs₁ : List FV) (ho₁ : obsAt steps o₁ = some fs₁) (hag₁ : AgreeOn sch.keys fs₁ crit) (hack₁ : Acked σ₁ o₁.1)
    (honly : ∀ o fs, obsAt steps o = some fs → AgreeOn sch.keys fs crit → o ≠ o₁ → σ₁.reqs.length ≤ o.1)
    (halone : ∀ fs ∈ observations steps, ∀ k', keyValue fs sch.keys = some k' → k' ≠ k → k.toNat % l ∉ candidates l k')
    (hlow : (compile sch).size.toNat ≤ k.toNat % l)
    (v : Bytes) (hone : (fs₁.filterMap fun fv => if fv.f = f then some fv.v else none) = [v])
    (hold : ∀ fs ∈ observations steps, AgreeOn sch.keys fs crit → ∀ v, ⟨f, v⟩ ∈ fs →
      ∃ o' fs', obsAt steps o' = some fs' ∧ AgreeOn sch.keys fs' crit ∧ Acked σm o'.1 ∧ ⟨f, v⟩ ∈ fs')
    (rep₁ rep₂ : Reply) (hrep₁ : (j₁, rep₁) ∈ σ₀.replies) (hrep₂ : (j₂, rep₂) ∈ σ.replies) :
    ∃ n, rep₁ = .ok (echo crit ++ measureLine env (asc "uniquecount") f (F64.ofInt n)) ∧
      rep₂ = .ok (echo crit ++ measureLine env (asc "uniquecount") f (F64.ofInt n)) := by
  obtain ⟨r, rest, more, buf₁, buf₂, g1, g2, g7, g3, g4, g5, g6⟩ := rising_server env confs s sch l hs hv hn hl hfirst σ₁ σm σ₀ σ σ₂ hr₁ hrm hr₀ hsteps hlater hun steps hreq
    hcorr hall j₁ j₂ hj₁ hj₂ text₁ text₂ hask₁ hask₂ _ _ crit hq₁ hq₂ k hk h0 happ o₁ fs₁ ho₁ hag₁ hack₁ honly halone hlow rep₁ rep₂ hrep₁ hrep₂
  obtain ⟨n, e1, e2⟩ := unique_same env.lib hv hd g3 g4 (values_one g1 hone) (values_one g1 hone) (by
    intro x
    rw [mem_valuesOf_iff, mem_valuesOf_iff]
    constructor
    · rintro ⟨fs, h1, h2⟩
      refine ⟨fs, ?_, h2⟩
      rw [← List.cons_append, List.map_append]
      exact List.mem_append_left _ h1
    · rintro ⟨fs, h1, h2⟩
      obtain ⟨r', h3, rfl⟩ := List.mem_map.1 h1
      obtain ⟨h4, h5⟩ := List.mem_filter.1 (g2 r' h3)
      obtain ⟨o', fs', h6, h7, h8, h9⟩ := hold _ h4 (of_decide_eq_true h5) x h2
      obtain ⟨r'', h10, rfl⟩ := g7 o' fs' h6 h7 h8
      exact ⟨_, List.mem_map.2 ⟨r'', h10, rfl⟩, h9⟩)
  unfold ask at e1 e2
  rw [e1] at g5
  rw [e2] at g6
  exact ⟨n, g5.trans (congrArg Reply.ok (render_one env _ _ _ _)), g6.trans (congrArg Reply.ok (render_one env _ _ _ _))⟩

/-- the observations served are among those posted, none more often than posted -/
theorem served_subperm {env : Env} {confs : List Conf} {steps : List Step} {σ₀ : ServerConc.State} {keys : List Bytes} {crit : List FV} {order : List (Nat × Nat)}
    {k : U64} (hk : keyValue crit keys = some k)
    (happ : ∀ fs ∈ observations steps, keyValue fs keys = some k → AgreeOn keys fs crit)
    (h1 : ServedOrder env confs steps (fun fs => AgreeOn keys fs crit) σ₀ order) :
    ∃ l : List (List FV), l.Perm (order.filterMap (obsAt steps)) ∧ l.Sublist ((observations steps).filter fun fs => AgreeOn keys fs crit) := by
  have hagree : ((observations steps).filter fun fs => AgreeOn keys fs crit) =
      (observations steps).filter fun fs => keyValue fs keys = some k := by
    apply List.filter_congr
    intro fs hfs
    rw [decide_eq_decide]
    exact ⟨fun h => by rw [C28_key keys _ _ h, hk], happ fs hfs⟩
  have hzip : ∀ x ∈ steps.zipIdx, steps[x.2]? = some x.1 := by
    rintro ⟨st, n⟩ h
    exact List.mem_zipIdx_iff_getElem?.1 h
  have hp : order.Subperm (places keys k steps.zipIdx) := by
    apply List.subperm_of_subset h1.once
    rintro ⟨j', p⟩ ho
    rw [show steps.zipIdx = steps.zipIdx.filter (fun _ => true) from (List.filter_eq_self.2 (by simp)).symm, mem_places]
    obtain ⟨fs, g1, g2⟩ := h1.only _ ho
    unfold obsAt at g1
    rw [Option.bind_eq_some_iff] at g1
    obtain ⟨st, g3, g4⟩ := g1
    exact ⟨st, fs, g3, rfl, g4, by rw [C28_key keys _ _ g2, hk]⟩
  obtain ⟨l, a, b⟩ := hp
  refine ⟨l.filterMap (obsAt steps), a.filterMap _, ?_⟩
  have := b.filterMap (obsAt steps)
  rw [places_obs keys k steps _ hzip, ← observations_flatMap, ← hagree] at this
  exact this

/-- **C96** under concurrent requests: let the first observation of the key value have been acknowledged before the others were posted and carry the field at most once, the key value be alone in
its home slot, and the numbers observed for it be finite, also their differences. Then, with posts in progress, in any interleaving, min, mean and max asked for in one query are
answered with numbers in this order. -/
theorem C96_concurrent_partial (env : Env) (hld : ParsesDoubles env.lib) (confs : List Conf) (s : Nat) (sch : Schema) (l : Nat) (hs : confs[s]? = some ⟨compile sch, l⟩)
    (hv : ValidSchema sch) (hn : GoodName sch.name) (hl : 0 < l)
    (hfirst : ∀ s' c', s' < s → confs[s']? = some c' → c'.coll.name ≠ sch.name)
    (σ₁ σ₀ σ σ₂ : ServerConc.State) (hr₁ : ServerConc.Steps env confs ServerConc.init σ₁) (hr₀ : ServerConc.Steps env confs σ₁ σ₀)
    (hsteps : ServerConc.Steps env confs σ₀ σ) (hlater : ServerConc.Steps env confs σ σ₂) (hun : Unwrapped σ)
    (steps : List Step) (hreq : σ.reqs = steps.map Step.request)
    (hcorr : ∀ st ∈ steps, st.Correct) (hall : ∀ j ls, steps[j]? = some (.posted ls) → Acked σ₂ j)
    (j : Nat) (hj : σ₀.reqs.length ≤ j) (text : Bytes) (hask : steps[j]? = some (.other (askFor sch.name text)))
    (f : Bytes) (d1 : Declares sch f .min) (d2 : Declares sch f .mean) (d3 : Declares sch f .max) (crit : List FV)
    (hq : Query.roughParse env.ord text = .ok ⟨[⟨f, [asc "min", asc "mean", asc "max"]⟩], crit⟩)
    (k : U64) (hk : keyValue crit sch.keys = some k) (h0 : k ≠ 0)
    (happ : ∀ fs ∈ observations steps, keyValue fs sch.keys = some k → AgreeOn sch.keys fs crit)
    (o₁ : Nat × Nat) (fs₁ : List FV) (ho₁ : obsAt steps o₁ = some fs₁) (hag₁ : AgreeOn sch.keys fs₁ crit) (hack₁ : Acked σ₁ o₁.1)
    (honly : ∀ o fs, obsAt steps o = some fs → AgreeOn sch.keys fs crit → o ≠ o₁ → σ₁.reqs.length ≤ o.1)
    (halone : ∀ fs ∈ observations steps, ∀ k', keyValue fs sch.keys = some k' → k' ≠ k → k.toNat % l ∉ candidates l k')
    (hlow : (compile sch).size.toNat ≤ k.toNat % l)
    (hone : (fs₁.filter fun fv => fv.f = f).length ≤ 1)
    (xs : List F64) (hxs : xs = numbersIn env.lib f ((observations steps).filter fun fs => AgreeOn sch.keys fs crit))
    (hlen : xs.length < 2 ^ 64) (hfin : ∀ x ∈ xs, IsFinite x) (hdiff : ∀ x ∈ xs, ∀ y ∈ xs, IsFinite (F64.sub x y))
    (rep : Reply) (hrep : (j, rep) ∈ σ.replies) :
    ∃ lo m hi, rep = .ok (echo crit ++ measureLine env (asc "min") f lo ++ measureLine env (asc "mean") f m ++ measureLine env (asc "max") f hi) ∧
      F64.le lo m = true ∧ F64.le m hi = true := by
  obtain ⟨order, rest, rows, buf, g1, g2, g3, g4, g5⟩ := C66_server_partial env confs s sch l hs hv hn hl hfirst σ₁ σ₀ σ σ₂ hr₁ hr₀ hsteps hlater hun steps hreq hcorr
    hall j hj text hask _ crit hq k hk h0 happ o₁ fs₁ ho₁ hag₁ hack₁ honly halone hlow rep hrep
  obtain ⟨os, p1, p2⟩ := served_subperm hk happ g1
  have hall' : (numbersIn env.lib f os).Perm (numbersOf env.lib f rows) := by
    rw [numbersOf_data, g3]
    unfold numbersIn
    exact p1.flatten.filterMap _
  have hsub : (numbersIn env.lib f os).Sublist xs := by
    rw [hxs]
    unfold numbersIn
    exact p2.flatten.filterMap _
  rw [g2, List.filterMap_cons, ho₁] at g3
  obtain ⟨r, rest', rfl, c1, c2⟩ := List.map_eq_cons_iff.1 g3
  have hmem : ∀ x ∈ numbersOf env.lib f (r :: rest'), x ∈ xs := fun x hx => hsub.subset (hall'.mem_iff.2 hx)
  have hfirst' : (numbersOf env.lib f [r]).length ≤ 1 := by
    refine le_trans ?_ hone
    unfold numbersOf valuesOf
    rw [List.flatMap_singleton, c1]
    refine le_trans (List.length_filterMap_le _ _) ?_
    exact carry_length f fs₁
  obtain ⟨lo, m, hi, e1, e2, e3, e4, e5⟩ := fit_record env.lib hld sch hv f r rest' buf g4 hfirst' (by
      rw [← hall'.length_eq]
      exact lt_of_le_of_lt hsub.length_le hlen) (fun x hx => hfin x (hmem x hx)) (fun x hx y hy => hdiff x (hmem x hx) y (hmem y hy)) d1 d2 d3
  refine ⟨lo, m, hi, ?_, e4, e5⟩
  have hread : Collation.read env.lib (compile sch) [⟨f, [asc "min", asc "mean", asc "max"]⟩] buf =
      .val ([⟨f, asc "min", lo⟩, ⟨f, asc "mean", m⟩, ⟨f, asc "max", hi⟩], none) := by
    rw [C27_read, show pairs [⟨f, [asc "min", asc "mean", asc "max"]⟩] = [(f, asc "min"), (f, asc "mean"), (f, asc "max")] from rfl,
      together]
    simp only
    rw [e1]
    simp only
    rw [together]
    simp only
    rw [e2]
    simp only
    rw [together]
    simp only
    rw [e3]
    rfl
  rw [g5, hread]
  exact congrArg Reply.ok (render_three env _ _ _ _ _ _ _ _)

end Starbow.Props
