import Verif.Props.ServerMeasures
import Verif.Props.Displaced
/-
Property C66 where it fails for good: keys that are not kept in their home slot, under concurrent calls and requests.
-/
namespace Starbow.Props
open Starbow.Collation Starbow.Spec Starbow.Storage Starbow.Server Starbow.ServerConc Starbow.BufmapConc Starbow.Cell Starbow.Probe

theorem applyFirsts_snoc (lib : Lib) (c : Collator) (r : Row) (rows : List Row) : ∀ (buf b b' : Bytes), applyFirsts lib c buf rows = (b, .val none) →
    Collation.update lib c r b true = (b', .val none) → applyFirsts lib c buf (rows ++ [r]) = (b', .val none) := by
  induction rows with
  | nil =>
    intro buf b b' h1 h2
    obtain ⟨rfl, _⟩ := Prod.mk.inj h1
    rw [List.nil_append, applyFirsts, h2]
    rfl
  | cons r' rows ih =>
    intro buf b b' h1 h2
    rw [applyFirsts] at h1
    rw [List.cons_append, applyFirsts]
    split at h1
    · exact ih _ _ _ h1 h2
    · next hw => exact absurd h1 (hw b)

theorem firstsOf_served (lib : Lib) (c : Collator) (ws : List Served) (hw : ∀ v ∈ ws, v.new = true) (ha : StoreConc.Accepted lib c ws) :
    FirstsOf lib c (ws.map Served.row) (servedRecord lib c ws) := by
  unfold FirstsOf
  induction ws using List.reverseRecOn with
  | nil => rfl
  | append_singleton ws v ih =>
    have ih := ih (fun u hu => hw u (by simp [hu])) ha.init
    have hl := ha ws v [] rfl
    rw [hw v (by simp)] at hl
    rw [List.map_append, List.map_singleton, StoreConc.servedRecord_snoc, hw v (by simp)]
    exact applyFirsts_snoc lib c v.row _ _ _ _ ih (Prod.ext rfl hl)

/-- **C66**, keys out of their home slot: under any interleaving, with no proviso about which Write came first, every Read that found the record of such
a key is answered from the record that treated each observation as its first, of the observations in a serial order respecting time
(what it says is C59_firsts). Provisos as in C65. -/
theorem C66_displaced (lib : Lib) (c : Collator) (l : Nat) (hl : 0 < l)
    (σ σ' σ₂ : StoreConc.State) (hr : StoreConc.Steps lib c l StoreConc.init σ)
    (hs : StoreConc.Step lib c l σ σ') (h2 : StoreConc.Steps lib c l σ' σ₂)
    (i : Nat) (q : Query) (hq : σ.calls[i]? = some (.read q)) (k : U64) (hk : keyValue q.criteria c.keys = some k) (h0 : k ≠ 0)
    (hdis : σ.m.keys (k.toNat % l) ≠ k)
    (hacc : ∀ j ∈ startedWrites c.keys k σ, (j, .ran none) ∈ σ₂.m.rets) (hlow : ∀ x, x < l → σ.m.keys x = k → c.size.toNat ≤ x)
    (buf : Bytes) (d : Nat) (hdur : d < 2 ^ 32) (hret : σ'.m.rets = σ.m.rets ++ [(i, .got true buf d)]) :
    ∃ ws rec, SerialOrder lib c l k σ ws ∧ FirstsOf lib c (ws.map Served.row) rec ∧
      StoreConc.readReply lib c q (.got true buf d) = some (Collation.read lib c q.fieldMeasures rec) := by
  obtain ⟨x, hx, hkx, hbuf⟩ := snapshot_log lib c l hl σ σ' hr hs i q hq k hk h0 hlow buf d hdur hret
  have hacc' := StoreConc.accepted_log hl hr (StoreConc.Steps.trans (.tail (.refl _) hs) h2) hkx hacc
  refine ⟨_, _, StoreConc.serial_order (lib := lib) (c := c) hl hr hx h0 hkx, firstsOf_served lib c _ ?_ hacc', by rw [hbuf]; rfl⟩
  intro v hv
  obtain ⟨e, he, rfl⟩ := List.mem_map.1 hv
  have hne : x ≠ k.toNat % l := by
    rintro rfl
    exact hdis hkx
  exact C31_displaced_init l c.size.toNat hl σ.m (StoreConc.steps_m hr) k x hkx hne e he

theorem agreeOn_refl (keys : List Bytes) (fs : List FV) : AgreeOn keys fs fs := fun _ _ => rfl

/-- **C66**, keys out of their home slot, the whole server under concurrent requests and any query. Let an observation (`o'`) of another key value with
the same home slot have been acknowledged at `σ₁`, before any observation of the key value asked for was posted. Then the answer is made of
the record that treated each observation of the key value as its first, in an order that respects time (or says nothing, if none had been acknowledged). -/
theorem C66_displaced_server (env : Env) (confs : List Conf) (s : Nat) (sch : Schema) (l : Nat) (hs : confs[s]? = some ⟨compile sch, l⟩)
    (hv : ValidSchema sch) (hn : GoodName sch.name) (hl : 0 < l)
    (hfirst : ∀ s' c', s' < s → confs[s']? = some c' → c'.coll.name ≠ sch.name)
    (σ₁ σ₀ σ σ₂ : ServerConc.State) (hr₁ : ServerConc.Steps env confs ServerConc.init σ₁) (hr₀ : ServerConc.Steps env confs σ₁ σ₀)
    (hsteps : ServerConc.Steps env confs σ₀ σ) (hlater : ServerConc.Steps env confs σ σ₂) (hun : Unwrapped σ)
    (steps : List Step) (hreq : σ.reqs = steps.map Step.request)
    (hcorr : ∀ st ∈ steps, st.Correct) (hall : ∀ j ls, steps[j]? = some (.posted ls) → Acked σ₂ j)
    (j : Nat) (hj : σ₀.reqs.length ≤ j) (text : Bytes) (hask : steps[j]? = some (.other (askFor sch.name text)))
    (sel : List FM) (crit : List FV) (hq : Query.roughParse env.ord text = .ok ⟨sel, crit⟩)
    (k : U64) (hk : keyValue crit sch.keys = some k) (h0 : k ≠ 0)
    (happ : ∀ fs ∈ observations steps, keyValue fs sch.keys = some k → AgreeOn sch.keys fs crit)
    (o' : Nat × Nat) (fs' : List FV) (ho' : obsAt steps o' = some fs') (k' : U64) (hk' : keyValue fs' sch.keys = some k')
    (hsame : k'.toNat % l = k.toNat % l) (hack' : Acked σ₁ o'.1)
    (hlate : ∀ o fs, obsAt steps o = some fs → AgreeOn sch.keys fs crit → σ₁.reqs.length ≤ o.1)
    (hlow : ∀ x ∈ candidates l k, x ≠ k.toNat % l → (compile sch).size.toNat ≤ x) (rep : Reply) (hrep : (j, rep) ∈ σ.replies) :
    (rep = .ok (echo crit) ∧ ((acknowledged steps σ₀).filter fun fs => AgreeOn sch.keys fs crit) = []) ∨
    ∃ order rows buf, ServedOrder env confs steps (fun fs => AgreeOn sch.keys fs crit) σ₀ order ∧
      rows.map Row.data = order.filterMap (obsAt steps) ∧ FirstsOf env.lib (compile sch) rows buf ∧
      rep = resultReply env crit (Collation.read env.lib (compile sch) sel buf) := by
  have hkeys : (compile sch).keys = sch.keys := compile_keys sch
  have hr := hr₁.trans hr₀
  have hI₁ := ServerConc.inv_reach hr₁
  have hx₁ := (ext_steps hr₀).trans (ext_steps hsteps)
  have hs₁ := steps_store hr₁ hs
  have hIm := BufmapConc.inv_reach hl (StoreConc.steps_m hs₁)
  have hc₁ := StoreConc.callsOk_steps (StoreConc.callsOk_init env.lib (compile sch)) hs₁
  have hmlt : k.toNat % l < l := Nat.mod_lt _ hl
  obtain ⟨i₀, r₀, hmade, hrd, hran⟩ := acked_made hs hreq hcorr hk' hI₁ (.inl hx₁.reqs) ho' (agreeOn_refl _ _) hack'
  -- the home slot is taken
  have htaken : (σ₁.stores s).m.keys (k.toNat % l) ≠ 0 := by
    obtain ⟨fn, hfn, _⟩ := hc₁.write hmade.2 (by rw [hkeys, hrd]; exact hk')
    obtain ⟨x, e, es, rest, he, hx, hes, _⟩ := hIm.rok i₀ _ hran
    have hmem : (x, e) ∈ (σ₁.stores s).m.cells.log := BufmapConc.mem_writesOf.mp (by rw [hes]; simp)
    obtain ⟨hxl, hne, hinv⟩ := hIm.logok x e hmem
    rw [he, hfn] at hinv
    have hkx : (σ₁.stores s).m.keys x = k' := by
      injection (Option.some.inj hinv) with g1 g2
      exact g1.symm
    obtain ⟨jj, hjj, hpos, hbefore⟩ := hIm.keys x hxl hne
    rw [hkx] at hpos hbefore
    cases jj with
    | zero =>
      rw [pos_zero, hsame] at hpos
      rw [hpos]; exact hne
    | succ jj =>
      have := (hbefore 0 (by omega)).1
      rw [pos_zero, hsame] at this
      exact this
  -- by another key
  have hother : (σ₁.stores s).m.keys (k.toNat % l) ≠ k := by
    intro he
    obtain ⟨i, fn, hup⟩ := stored_asked hl (StoreConc.steps_m hs₁) _ htaken
    obtain ⟨r, g1, g2, _⟩ := hc₁.ok i _ hup
    rw [he, hkeys] at g2
    obtain ⟨o, g3, g4, _⟩ := post_of_write hreq hcorr hx₁ hI₁ g1
    obtain ⟨_, _, _, hmem⟩ := obsAt_posted g4
    have := hlate o _ g4 (happ _ hmem g2)
    have := hI₁.olt s _ (List.mem_of_getElem? g3)
    omega
  rcases served_any env confs s sch l hs hv hn hl hfirst σ₀ σ σ₂ hr hsteps hlater steps hreq hcorr hall j hj text hask _ crit hq k hk h0 happ rep hrep with
    h | ⟨τ, τ', i, buf, d, out, e1, hτσ, e5, hstep, e3, hret, hqτ, hacc, hout, rfl, hne, hser⟩
  · exact .inl h
  · right
    have hsτ := steps_store (hr.trans e1) hs
    have hIτ := BufmapConc.inv_reach hl (StoreConc.steps_m hsτ)
    have hdis : (τ.stores s).m.keys (k.toNat % l) ≠ k := by
      rw [(BufmapConc.steps_mono hl hIm (StoreConc.steps_m (steps_store (hr₀.trans e1) hs))).1 _ htaken]
      exact hother
    obtain ⟨ws, rec, hord, hrec, hans⟩ := C66_displaced env.lib (compile sch) l hl (τ.stores s) (τ'.stores s) (σ₂.stores s) hsτ hstep
      (steps_store e5 hs) i _ hqτ k (by rw [hkeys]; exact hk) h0 hdis (by rw [hkeys]; exact hacc) (by
        intro x hx hkx
        obtain ⟨jj, hjj, hpos, _⟩ := hIτ.keys x hx (by rw [hkx]; exact h0)
        rw [hkx] at hpos
        refine hlow x (by rw [← hpos]; exact pos_candidate hjj) ?_
        rintro rfl
        exact hdis hkx) buf d (hun s i buf d hret) e3
    obtain ⟨order, ho, hdata⟩ := hser ws hord
    refine ⟨order, ws.map Served.row, rec, ho, by rw [hdata, List.map_map]; rfl, hrec, ?_⟩
    have := Option.some.inj (hout.symm.trans hans)
    rw [this]
    cases Collation.read env.lib (compile sch) sel rec with
    | panic => rfl
    | val p =>
      obtain ⟨res, e⟩ := p
      cases e <;> rfl

/-- **C66 fails** for good for such keys: under the same conditions, the query for max or min is answered with the number of the observation that was served last (0 if
no number was observed), whatever the numbers before it were. -/
theorem C66_displaced_last (env : Env) (confs : List Conf) (s : Nat) (sch : Schema) (l : Nat) (hs : confs[s]? = some ⟨compile sch, l⟩)
    (hv : ValidSchema sch) (hn : GoodName sch.name) (hl : 0 < l)
    (hfirst : ∀ s' c', s' < s → confs[s']? = some c' → c'.coll.name ≠ sch.name)
    (σ₁ σ₀ σ : ServerConc.State) (hr₁ : ServerConc.Steps env confs ServerConc.init σ₁) (hr₀ : ServerConc.Steps env confs σ₁ σ₀)
    (hsteps : ServerConc.Steps env confs σ₀ σ) (hun : Unwrapped σ)
    (steps : List Step) (hreq : σ.reqs = steps.map Step.request)
    (hcorr : ∀ st ∈ steps, st.Correct) (hall : ∀ j ls, steps[j]? = some (.posted ls) → Acked σ₀ j)
    (j : Nat) (hj : σ₀.reqs.length ≤ j) (text : Bytes) (hask : steps[j]? = some (.other (askFor sch.name text)))
    (f : Bytes) (m : Measure) (hm : m = .max ∨ m = .min) (hd : Declares sch f m)
    (crit : List FV) (hq : Query.roughParse env.ord text = .ok ⟨[⟨f, [m.name]⟩], crit⟩)
    (k : U64) (hk : keyValue crit sch.keys = some k) (h0 : k ≠ 0)
    (happ : ∀ fs ∈ observations steps, keyValue fs sch.keys = some k → AgreeOn sch.keys fs crit)
    (o' : Nat × Nat) (fs' : List FV) (ho' : obsAt steps o' = some fs') (k' : U64) (hk' : keyValue fs' sch.keys = some k')
    (hsame : k'.toNat % l = k.toNat % l) (hack' : Acked σ₁ o'.1)
    (hlate : ∀ o fs, obsAt steps o = some fs → AgreeOn sch.keys fs crit → σ₁.reqs.length ≤ o.1)
    (hlow : ∀ x ∈ candidates l k, x ≠ k.toNat % l → (compile sch).size.toNat ≤ x)
    (hsome : ((observations steps).filter fun fs => AgreeOn sch.keys fs crit) ≠ [])
    (hld : ParsesDoubles env.lib) (rep : Reply) (hrep : (j, rep) ∈ σ.replies) :
    ∃ order, ServedOrder env confs steps (fun fs => AgreeOn sch.keys fs crit) σ₀ order ∧
      (order.filterMap (obsAt steps)).Perm ((observations steps).filter fun fs => AgreeOn sch.keys fs crit) ∧
      rep = .ok (echo crit ++ measureLine env m.name f ((numbersIn env.lib f (order.filterMap (obsAt steps))).getLastD (.fin false 0))) := by
  have hx := ext_steps hsteps
  rcases C66_displaced_server env confs s sch l hs hv hn hl hfirst σ₁ σ₀ σ σ hr₁ hr₀ hsteps (.refl _) hun steps hreq hcorr
    (fun j ls h => hx.replies.subset (hall j ls h)) j hj text hask _ crit hq k hk h0 happ o' fs' ho' k' hk' hsame hack' hlate hlow rep hrep with
    ⟨_, h⟩ | ⟨order, rows, buf, ho, hrows, hrec, hrep'⟩
  · rw [acked_all hall] at h
    exact absurd h hsome
  · refine ⟨order, ho, quiet_perm hall hk happ ho, ?_⟩
    have key := C59_firsts env.lib hld sch hv rows buf hrec f
    rw [hrep', ← hrows, ← numbersOf_data]
    rcases hm with rfl | rfl
    · rw [show Collation.read env.lib (compile sch) [⟨f, [Measure.max.name]⟩] buf = _ from key.2.2.2.2.1 hd]
      exact congrArg Reply.ok (render_one env crit f _ _)
    · rw [show Collation.read env.lib (compile sch) [⟨f, [Measure.min.name]⟩] buf = _ from key.2.2.2.2.2.1 hd]
      exact congrArg Reply.ok (render_one env crit f _ _)

end Starbow.Props
