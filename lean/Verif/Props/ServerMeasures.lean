import Verif.Props.ServerRace
import Verif.Proof.Seats
/-
Property C66 for the whole server: what any query is answered with under concurrent requests, if the first observation of the key value was
acknowledged before the others were posted.
-/
namespace Starbow.Props
open Starbow.Collation Starbow.Spec Starbow.Storage Starbow.Server Starbow.ServerConc Starbow.BufmapConc Starbow.Cell Starbow.Probe

theorem only_one {α : Type} {a : List α} {x : α} (hn : a.Nodup) (hx : x ∈ a) (h : ∀ y ∈ a, y = x) : a = [x] := by
  obtain ⟨u, v, rfl⟩ := List.append_of_mem hx
  have h1 : u = [] := by
    cases u with
    | nil => rfl
    | cons y u =>
      exfalso
      have := h y (by simp)
      subst this
      simp at hn
  have h2 : v = [] := by
    cases v with
    | nil => rfl
    | cons y v =>
      exfalso
      have := h y (by simp)
      subst this
      rw [h1] at hn
      simp at hn
  rw [h1, h2]; rfl

theorem started_nodup (keys : List Bytes) (k : U64) (σ : StoreConc.State) : (startedWrites keys k σ).Nodup :=
  List.nodup_range.filter _

theorem done_nodup (keys : List Bytes) (k : U64) (σ : StoreConc.State) : (doneWrites keys k σ).Nodup :=
  (started_nodup keys k σ).filter _

theorem pos_candidate {l : Nat} {k : U64} {j : Nat} (hj : j ≤ maxReprobe) : pos l k j ∈ candidates l k := by
  refine List.mem_map.2 ⟨j, List.mem_range.2 (by unfold maxReprobe at hj; omega), ?_⟩
  unfold pos
  rw [Nat.mod_add_mod]

/-- a key that nobody else can push out of its home slot is kept there -/
theorem kept_home {lib : Lib} {c : Collator} {l : Nat} (hl : 0 < l) {σ : StoreConc.State} (hr : StoreConc.Steps lib c l StoreConc.init σ)
    {k : U64} (h0 : k ≠ 0)
    (halone : ∀ (i : Nat) (r : Row) (k' : U64), σ.calls[i]? = some (StoreConc.Call.write r) → keyValue r.data c.keys = some k' → k' ≠ k → k.toNat % l ∉ candidates l k')
    {x : Nat} (hx : x < l) (hkx : σ.m.keys x = k) : x = k.toNat % l := by
  have hI := BufmapConc.inv_reach hl (StoreConc.steps_m hr)
  have hc := StoreConc.callsOk_steps (StoreConc.callsOk_init lib c) hr
  obtain ⟨j, hj, hpos, hbefore⟩ := hI.keys x hx (by rw [hkx]; exact h0)
  rw [hkx] at hpos hbefore
  cases j with
  | zero => rw [← hpos, pos_zero]
  | succ j =>
    exfalso
    obtain ⟨g1, g2⟩ := hbefore 0 (by omega)
    rw [pos_zero] at g1 g2
    have hlt : k.toNat % l < l := Nat.mod_lt _ hl
    obtain ⟨j', hj', hpos', _⟩ := hI.keys _ hlt g1
    obtain ⟨i, fn, hup⟩ := stored_asked hl (StoreConc.steps_m hr) _ g1
    obtain ⟨r, h1, h2, _⟩ := hc.ok i _ hup
    refine halone i r _ h1 h2 g2 ?_
    have := pos_candidate (l := l) (k := σ.m.keys (k.toNat % l)) hj'
    rw [hpos'] at this
    exact this

theorem head_first {α : Type} {order : List α} {o : α} (hn : order.Nodup) (ho : o ∈ order)
    (hb : ∀ o' ∈ order, o' ≠ o → [o, o'].Sublist order) : ∃ rest, order = o :: rest := by
  obtain ⟨u, v, rfl⟩ := List.append_of_mem ho
  cases u with
  | nil => exact ⟨v, rfl⟩
  | cons y u =>
    exfalso
    have hy : y ≠ o := by
      rintro rfl
      simp at hn
    have hs := hb y (by simp) hy
    rw [List.cons_append] at hs hn
    rw [List.nodup_cons] at hn
    cases hs with
    | cons _ h => exact hn.1 ((h.subset : _) (by simp))
    | cons_cons _ h => exact hy rfl

/-- **C66**, the whole server, partial. As in `C73_partial`, but for any query at all: let the first observation of the key value asked for (`o₁`)
have been acknowledged at the moment `σ₁`, before any other observation of it was posted, let no other key value observed have a candidate for
its slot that is the home slot of this one, and let that slot be one whose whole record is read. Then the answer is made of the record of
the observations that agree with the criteria, in an order that respects time and begins with the first, exactly as if they had been
posted one after the other (what that record says of each measure is C25). Missing: several first observations at once and displaced keys, where the claim
fails (`C66_http_refuted`, `C59_gt_uz_refuted`), and the low slots (C30_truncated). -/
theorem C66_server_partial (env : Env) (confs : List Conf) (s : Nat) (sch : Schema) (l : Nat) (hs : confs[s]? = some ⟨compile sch, l⟩)
    (hv : ValidSchema sch) (hn : GoodName sch.name) (hl : 0 < l)
    (hfirst : ∀ s' c', s' < s → confs[s']? = some c' → c'.coll.name ≠ sch.name)
    (σ₁ σ₀ σ σ₂ : ServerConc.State) (hr₁ : ServerConc.Steps env confs ServerConc.init σ₁) (hr₀ : ServerConc.Steps env confs σ₁ σ₀)
    (hsteps : ServerConc.Steps env confs σ₀ σ) (hlater : ServerConc.Steps env confs σ σ₂) (hun : Unwrapped σ)
    (steps : List Step) (hreq : σ.reqs = steps.map Step.request)
    (hcorr : ∀ st ∈ steps, st.Correct) (hall : ∀ j ls, steps[j]? = some (.posted ls) → Acked σ₂ j)
    (j : Nat) (hj : σ₀.reqs.length ≤ j) (text : Bytes) (hask : steps[j]? = some (.other (askFor sch.name text)))
    (sel : List FM) (crit : List FV) (hq : Query.roughParse env.ord text = .ok ⟨sel, crit⟩)
    (k : U64) (hk : keyValue crit sch.keys = some k) (h0 : k ≠ 0)
    (happ : ∀ fs ∈ observations steps, keyValue fs sch.keys = some k → AgreeOn sch.keys fs crit)
    (o₁ : Nat × Nat) (fs₁ : List FV) (ho₁ : obsAt steps o₁ = some fs₁) (hag₁ : AgreeOn sch.keys fs₁ crit) (hack₁ : Acked σ₁ o₁.1)
    (honly : ∀ o fs, obsAt steps o = some fs → AgreeOn sch.keys fs crit → o ≠ o₁ → σ₁.reqs.length ≤ o.1)
    (halone : ∀ fs ∈ observations steps, ∀ k', keyValue fs sch.keys = some k' → k' ≠ k → k.toNat % l ∉ candidates l k')
    (hlow : (compile sch).size.toNat ≤ k.toNat % l) (rep : Reply) (hrep : (j, rep) ∈ σ.replies) :
    ∃ order rest rows buf, ServedOrder env confs steps (fun fs => AgreeOn sch.keys fs crit) σ₀ order ∧ order = o₁ :: rest ∧
      rows.map Row.data = order.filterMap (obsAt steps) ∧ RecordOf env.lib (compile sch) rows buf ∧
      rep = resultReply env crit (Collation.read env.lib (compile sch) sel buf) := by
  have hkeys : (compile sch).keys = sch.keys := compile_keys sch
  have hr := hr₁.trans hr₀
  have hI₁ := ServerConc.inv_reach hr₁
  have hx₁ := (ext_steps hr₀).trans (ext_steps hsteps)
  obtain ⟨i₀, r₀, hmade, hrd, hran⟩ := acked_made hs hreq hcorr hk hI₁ (.inl hx₁.reqs) ho₁ hag₁ hack₁
  have hkr₀ : keyValue r₀.data sch.keys = some k := by rw [hrd, C28_key sch.keys _ _ hag₁, hk]
  have hs₁ := steps_store hr₁ hs
  have hstart : startedWrites (compile sch).keys k (σ₁.stores s) = [i₀] := by
    refine only_one (started_nodup _ _ _) (StoreConc.mem_started.2 ⟨r₀, hmade.2, by rw [hkeys]; exact hkr₀⟩) ?_
    intro i hi
    obtain ⟨r, hw1, hw2⟩ := StoreConc.mem_started.1 hi
    rw [hkeys] at hw2
    obtain ⟨o, g1, g2, _⟩ := post_of_write hreq hcorr hx₁ hI₁ hw1
    obtain ⟨_, _, _, hmem⟩ := obsAt_posted g2
    by_cases ho : o = o₁
    · subst ho
      exact hI₁.once s _ _ _ _ _ _ ⟨g1, hw1⟩ hmade
    · have := honly o _ g2 (happ _ hmem hw2) ho
      have := hI₁.olt s _ (List.mem_of_getElem? g1)
      omega
  have hdone : doneWrites (compile sch).keys k (σ₁.stores s) = [i₀] := by
    refine only_one (done_nodup _ _ _) (StoreConc.mem_done.2 ⟨r₀, none, ⟨hmade.2, by rw [hkeys]; exact hkr₀⟩, hran⟩) ?_
    intro i hi
    have : i ∈ startedWrites (compile sch).keys k (σ₁.stores s) := (List.mem_filter.1 hi).1
    rw [hstart] at this
    simpa using this
  rcases served_any env confs s sch l hs hv hn hl hfirst σ₀ σ σ₂ hr hsteps hlater steps hreq hcorr hall j hj text hask _ crit hq k hk h0 happ rep hrep with
    ⟨_, hnone⟩ | ⟨τ, τ', i, buf, d, out, e1, hτσ, e5, hstep, e3, hret, hqτ, hacc, hout, rfl, hne, hser⟩
  · exfalso
    obtain ⟨ls, g1, g2, g3⟩ := obsAt_posted ho₁
    have : fs₁ ∈ (acknowledged steps σ₀).filter fun fs => AgreeOn sch.keys fs crit := by
      refine List.mem_filter.2 ⟨?_, by simpa using hag₁⟩
      refine List.mem_flatMap.2 ⟨(.posted ls, o₁.1), List.mem_filter.2 ⟨List.mem_zipIdx_iff_getElem?.2 g1, ?_⟩, List.mem_of_getElem? g2⟩
      exact decide_eq_true ((ext_steps hr₀).replies.subset hack₁)
    rw [hnone] at this
    simp at this
  · have hsτ := steps_store (hr.trans e1) hs
    have hIτ := ServerConc.inv_reach (hr.trans e1)
    have hs₁τ := steps_store (hr₀.trans e1) hs
    have hxτ := ext_steps hτσ
    -- the first is in its home slot
    have hhome : (σ₁.stores s).m.keys (k.toNat % l) = k := by
      have hc₁ := StoreConc.callsOk_steps (StoreConc.callsOk_init env.lib (compile sch)) hs₁
      obtain ⟨fn, hfn, _⟩ := hc₁.write hmade.2 (by rw [hkeys]; exact hkr₀)
      have hI := BufmapConc.inv_reach hl (StoreConc.steps_m hs₁)
      obtain ⟨x, e, es, rest, he, hx, hes, _⟩ := hI.rok i₀ _ hran
      have hmem : (x, e) ∈ (σ₁.stores s).m.cells.log := BufmapConc.mem_writesOf.mp (by rw [hes]; simp)
      obtain ⟨hxl, hne, hinv⟩ := hI.logok x e hmem
      rw [he, hfn] at hinv
      have hkx : (σ₁.stores s).m.keys x = k := by
        injection (Option.some.inj hinv) with g1 g2
        exact g1.symm
      have := kept_home hl hs₁ h0 (by
        intro i' r' k' g1 g2 g3
        rw [hkeys] at g2
        obtain ⟨o, _, g5, _⟩ := post_of_write hreq hcorr hx₁ hI₁ g1
        obtain ⟨_, _, _, hmem⟩ := obsAt_posted g5
        exact halone _ hmem k' g2 g3) hxl hkx
      rw [← this]; exact hkx
    obtain ⟨ws, rec, hord, hrec, hans⟩ := C66_partial env.lib (compile sch) l hl (σ₁.stores s) (τ.stores s) (τ'.stores s) (σ₂.stores s) hs₁ hs₁τ hstep
      (steps_store e5 hs) i _ hqτ k (by rw [hkeys]; exact hk) h0 i₀ hstart hdone hhome (by rw [hkeys]; exact hacc) hlow buf d (hun s i buf d hret) e3
    obtain ⟨order, ho, hdata⟩ := hser ws hord
    obtain ⟨rest, hrest⟩ : ∃ rest, order = o₁ :: rest := by
      refine head_first ho.once (ho.acked o₁ fs₁ ho₁ hag₁ ((ext_steps hr₀).replies.subset hack₁)) ?_
      intro o' ho' hne'
      obtain ⟨fs', g1, g2⟩ := ho.only o' ho'
      exact ho.time σ₁ hr₁ hr₀ o₁ (ho.acked o₁ fs₁ ho₁ hag₁ ((ext_steps hr₀).replies.subset hack₁)) o' ho' hack₁ (honly o' fs' g1 g2 hne')
    refine ⟨order, rest, ws.map Served.row, rec, ho, hrest, by rw [hdata, List.map_map]; rfl, hrec, ?_⟩
    have := Option.some.inj (hout.symm.trans hans)
    rw [this]
    cases Collation.read env.lib (compile sch) sel rec with
    | panic => rfl
    | val p =>
      obtain ⟨res, e⟩ := p
      cases e <;> rfl

/-- the values carried for field `f` by posted observations, in order -/
theorem valuesOf_data (f : Bytes) (rows : List Row) :
    valuesOf f rows = ((rows.map Row.data).flatten).filterMap fun fv => if fv.f = f then some fv.v else none := by
  unfold valuesOf
  rw [List.flatMap_def]

theorem le_of_new {p : Byte} {c : Hll.Counter} (h : Hll.new p = .val c) : 4 ≤ p.toNat ∧ p.toNat ≤ 18 := by
  unfold Hll.new at h
  split at h
  · cases h
  · next hp =>
    push Not at hp
    obtain ⟨h1, h2⟩ := hp
    rw [BitVec.not_lt, BitVec.le_def] at h1
    rw [gt_iff_lt, BitVec.not_lt, BitVec.le_def] at h2
    exact ⟨h1, h2⟩

theorem live_some (vs : List Bytes) : live (vs.map some) = vs := by
  have : ∀ acc, (vs.map some).foldl liveStep acc = acc ++ vs := by
    induction vs with
    | nil => simp
    | cons v vs ih =>
      intro acc
      rw [List.map_cons, List.foldl_cons, ih]
      simp [liveStep]
  exact (this []).trans (List.nil_append _)

/-- `C66_server_partial` when nothing is in progress: the record is that of all matching observations, the first of them first. -/
theorem C66_quiet_partial (env : Env) (confs : List Conf) (s : Nat) (sch : Schema) (l : Nat) (hs : confs[s]? = some ⟨compile sch, l⟩)
    (hv : ValidSchema sch) (hn : GoodName sch.name) (hl : 0 < l)
    (hfirst : ∀ s' c', s' < s → confs[s']? = some c' → c'.coll.name ≠ sch.name)
    (σ₁ σ₀ σ : ServerConc.State) (hr₁ : ServerConc.Steps env confs ServerConc.init σ₁) (hr₀ : ServerConc.Steps env confs σ₁ σ₀)
    (hsteps : ServerConc.Steps env confs σ₀ σ) (hun : Unwrapped σ)
    (steps : List Step) (hreq : σ.reqs = steps.map Step.request)
    (hcorr : ∀ st ∈ steps, st.Correct) (hall : ∀ j ls, steps[j]? = some (.posted ls) → Acked σ₀ j)
    (j : Nat) (hj : σ₀.reqs.length ≤ j) (text : Bytes) (hask : steps[j]? = some (.other (askFor sch.name text)))
    (sel : List FM) (crit : List FV) (hq : Query.roughParse env.ord text = .ok ⟨sel, crit⟩)
    (k : U64) (hk : keyValue crit sch.keys = some k) (h0 : k ≠ 0)
    (happ : ∀ fs ∈ observations steps, keyValue fs sch.keys = some k → AgreeOn sch.keys fs crit)
    (o₁ : Nat × Nat) (fs₁ : List FV) (ho₁ : obsAt steps o₁ = some fs₁) (hag₁ : AgreeOn sch.keys fs₁ crit) (hack₁ : Acked σ₁ o₁.1)
    (honly : ∀ o fs, obsAt steps o = some fs → AgreeOn sch.keys fs crit → o ≠ o₁ → σ₁.reqs.length ≤ o.1)
    (halone : ∀ fs ∈ observations steps, ∀ k', keyValue fs sch.keys = some k' → k' ≠ k → k.toNat % l ∉ candidates l k')
    (hlow : (compile sch).size.toNat ≤ k.toNat % l) (rep : Reply) (hrep : (j, rep) ∈ σ.replies) :
    ∃ rest rows buf, (fs₁ :: rest).Perm ((observations steps).filter fun fs => AgreeOn sch.keys fs crit) ∧
      rows.map Row.data = fs₁ :: rest ∧ RecordOf env.lib (compile sch) rows buf ∧
      rep = resultReply env crit (Collation.read env.lib (compile sch) sel buf) := by
  have hx := ext_steps hsteps
  obtain ⟨order, rest, rows, buf, g1, g2, g3, g4, g5⟩ := C66_server_partial env confs s sch l hs hv hn hl hfirst σ₁ σ₀ σ σ hr₁ hr₀ hsteps (.refl _) hun steps hreq hcorr
    (fun j ls h => hx.replies.subset (hall j ls h)) j hj text hask sel crit hq k hk h0 happ o₁ fs₁ ho₁ hag₁ hack₁ honly halone hlow rep hrep
  have hp := quiet_perm hall hk happ g1
  rw [g2, List.filterMap_cons, ho₁] at hp g3
  exact ⟨_, rows, buf, hp, g3, g4, g5⟩

/-- **C66** for the greatest and the least under concurrent requests, partial: if the first observation of the key value was acknowledged
before the others were posted and carries one number for the field, and no number observed is NaN, then once all posts have been acknowledged the query for
max (min) is answered with a number that was observed for this key value and that none of the others exceeds (is below), whatever the interleaving was. -/
theorem C66_extreme_partial (env : Env) (confs : List Conf) (s : Nat) (sch : Schema) (l : Nat) (hs : confs[s]? = some ⟨compile sch, l⟩)
    (hv : ValidSchema sch) (hn : GoodName sch.name) (hl : 0 < l)
    (hfirst : ∀ s' c', s' < s → confs[s']? = some c' → c'.coll.name ≠ sch.name)
    (σ₁ σ₀ σ : ServerConc.State) (hr₁ : ServerConc.Steps env confs ServerConc.init σ₁) (hr₀ : ServerConc.Steps env confs σ₁ σ₀)
    (hsteps : ServerConc.Steps env confs σ₀ σ) (hun : Unwrapped σ)
    (steps : List Step) (hreq : σ.reqs = steps.map Step.request)
    (hcorr : ∀ st ∈ steps, st.Correct) (hall : ∀ j ls, steps[j]? = some (.posted ls) → Acked σ₀ j)
    (j : Nat) (hj : σ₀.reqs.length ≤ j) (text : Bytes) (hask : steps[j]? = some (.other (askFor sch.name text)))
    (f : Bytes) (m : Measure) (hm : m = .max ∨ m = .min) (hd : Declares sch f m)
    (crit : List FV) (hq : Query.roughParse env.ord text = .ok ⟨[⟨f, [m.name]⟩], crit⟩)
    (k : U64) (hk : keyValue crit sch.keys = some k) (h0 : k ≠ 0)
    (happ : ∀ fs ∈ observations steps, keyValue fs sch.keys = some k → AgreeOn sch.keys fs crit)
    (o₁ : Nat × Nat) (fs₁ : List FV) (ho₁ : obsAt steps o₁ = some fs₁) (hag₁ : AgreeOn sch.keys fs₁ crit) (hack₁ : Acked σ₁ o₁.1)
    (honly : ∀ o fs, obsAt steps o = some fs → AgreeOn sch.keys fs crit → o ≠ o₁ → σ₁.reqs.length ≤ o.1)
    (halone : ∀ fs ∈ observations steps, ∀ k', keyValue fs sch.keys = some k' → k' ≠ k → k.toNat % l ∉ candidates l k')
    (hlow : (compile sch).size.toNat ≤ k.toNat % l) (rep : Reply) (hrep : (j, rep) ∈ σ.replies)
    (hld : ParsesDoubles env.lib) (v : Bytes) (hone : (fs₁.filterMap fun fv => if fv.f = f then some fv.v else none) = [v])
    (hnan : ∀ x ∈ numbersIn env.lib f ((observations steps).filter fun fs => AgreeOn sch.keys fs crit), x ≠ .nan) :
    ∃ x ∈ numbersIn env.lib f ((observations steps).filter fun fs => AgreeOn sch.keys fs crit),
      (∀ y ∈ numbersIn env.lib f ((observations steps).filter fun fs => AgreeOn sch.keys fs crit),
        if m = .max then F64.le y x = true else F64.le x y = true) ∧
      rep = .ok (echo crit ++ measureLine env m.name f x) := by
  obtain ⟨rest, rows, buf, hp, hrows, hrec, hrep'⟩ := C66_quiet_partial env confs s sch l hs hv hn hl hfirst σ₁ σ₀ σ hr₁ hr₀ hsteps hun steps hreq hcorr hall j hj text hask _ crit hq
    k hk h0 happ o₁ fs₁ ho₁ hag₁ hack₁ honly halone hlow rep hrep
  have hpn : (numbersIn env.lib f (fs₁ :: rest)).Perm (numbersIn env.lib f ((observations steps).filter fun fs => AgreeOn sch.keys fs crit)) := by
    unfold numbersIn
    exact hp.flatten.filterMap _
  cases rows with
  | nil => simp at hrows
  | cons r rows =>
    have h1 : valuesOf f [r] = [v] := by
      rw [valuesOf_data]
      rw [List.map_cons, List.cons.injEq] at hrows
      simp only [List.map_cons, List.map_nil, List.flatten_cons, List.flatten_nil, List.append_nil, hrows.1]
      exact hone
    have hnum : numbersOf env.lib f (r :: rows) = numbersIn env.lib f (fs₁ :: rest) := by rw [numbersOf_data, hrows]
    have key := C25_extreme_partial env.lib hld sch hv f r rows buf hrec v h1 (by
      intro x hx
      rw [hnum] at hx
      exact hnan x (hpn.mem_iff.1 hx))
    rw [hnum] at key
    rcases hm with rfl | rfl
    · obtain ⟨x, e, hx, hle⟩ := key.1 hd
      refine ⟨x, hpn.mem_iff.1 hx, fun y hy => ?_, ?_⟩
      · rw [if_pos rfl]; exact hle y (hpn.mem_iff.2 hy)
      · rw [hrep', show Collation.read env.lib (compile sch) [⟨f, [Measure.max.name]⟩] buf = _ from e]
        exact congrArg Reply.ok (render_one env crit f _ _)
    · obtain ⟨x, e, hx, hle⟩ := key.2 hd
      refine ⟨x, hpn.mem_iff.1 hx, fun y hy => ?_, ?_⟩
      · rw [if_neg (by decide)]; exact hle y (hpn.mem_iff.2 hy)
      · rw [hrep', show Collation.read env.lib (compile sch) [⟨f, [Measure.min.name]⟩] buf = _ from e]
        exact congrArg Reply.ok (render_one env crit f _ _)

/-- **C66** for the number of different values under concurrent requests, partial: under the same conditions the query for uniquecount is answered with the count of a
fresh counter, of a precision the schema declares, to which the values of all matching observations were added in the order in which they
were posted, whatever the interleaving was (how good that count is: C14, C79). -/
theorem C66_uniquecount_partial (env : Env) (confs : List Conf) (s : Nat) (sch : Schema) (l : Nat) (hs : confs[s]? = some ⟨compile sch, l⟩)
    (hv : ValidSchema sch) (hn : GoodName sch.name) (hl : 0 < l)
    (hfirst : ∀ s' c', s' < s → confs[s']? = some c' → c'.coll.name ≠ sch.name)
    (σ₁ σ₀ σ : ServerConc.State) (hr₁ : ServerConc.Steps env confs ServerConc.init σ₁) (hr₀ : ServerConc.Steps env confs σ₁ σ₀)
    (hsteps : ServerConc.Steps env confs σ₀ σ) (hun : Unwrapped σ)
    (steps : List Step) (hreq : σ.reqs = steps.map Step.request)
    (hcorr : ∀ st ∈ steps, st.Correct) (hall : ∀ j ls, steps[j]? = some (.posted ls) → Acked σ₀ j)
    (j : Nat) (hj : σ₀.reqs.length ≤ j) (text : Bytes) (hask : steps[j]? = some (.other (askFor sch.name text)))
    (f : Bytes) (p : Int) (hd : Declares sch f (.cardinality p))
    (crit : List FV) (hq : Query.roughParse env.ord text = .ok ⟨[⟨f, [asc "uniquecount"]⟩], crit⟩)
    (k : U64) (hk : keyValue crit sch.keys = some k) (h0 : k ≠ 0)
    (happ : ∀ fs ∈ observations steps, keyValue fs sch.keys = some k → AgreeOn sch.keys fs crit)
    (o₁ : Nat × Nat) (fs₁ : List FV) (ho₁ : obsAt steps o₁ = some fs₁) (hag₁ : AgreeOn sch.keys fs₁ crit) (hack₁ : Acked σ₁ o₁.1)
    (honly : ∀ o fs, obsAt steps o = some fs → AgreeOn sch.keys fs crit → o ≠ o₁ → σ₁.reqs.length ≤ o.1)
    (halone : ∀ fs ∈ observations steps, ∀ k', keyValue fs sch.keys = some k' → k' ≠ k → k.toNat % l ∉ candidates l k')
    (hlow : (compile sch).size.toNat ≤ k.toNat % l) (rep : Reply) (hrep : (j, rep) ∈ σ.replies)
    (v : Bytes) (hone : (fs₁.filterMap fun fv => if fv.f = f then some fv.v else none) = [v]) :
    ∃ q c₀ c n, Declares sch f (.cardinality q) ∧ Hll.new (BitVec.ofInt 8 q) = .val c₀ ∧
      runHll c₀ (((((observations steps).filter fun fs => AgreeOn sch.keys fs crit).flatten).filterMap fun fv =>
        if fv.f = f then some fv.v else none).map some) = .val c ∧
      Hll.count env.lib.log c = .val n ∧ rep = .ok (echo crit ++ measureLine env (asc "uniquecount") f (F64.ofInt n)) := by
  obtain ⟨rest, rows, buf, hp, hrows, hrec, hrep'⟩ := C66_quiet_partial env confs s sch l hs hv hn hl hfirst σ₁ σ₀ σ hr₁ hr₀ hsteps hun steps hreq hcorr hall j hj text hask _ crit hq
    k hk h0 happ o₁ fs₁ ho₁ hag₁ hack₁ honly halone hlow rep hrep
  cases rows with
  | nil => simp at hrows
  | cons r rows =>
    have h1 : valuesOf f [r] = [v] := by
      rw [valuesOf_data]
      rw [List.map_cons, List.cons.injEq] at hrows
      simp only [List.map_cons, List.map_nil, List.flatten_cons, List.flatten_nil, List.append_nil, hrows.1]
      exact hone
    obtain ⟨q, c₀, c, n, a1, a2, a3, a4, a5⟩ := C25_uniquecount_partial env.lib sch hv f p hd r rows buf hrec v h1
    rw [valuesOf_data, hrows] at a3
    obtain ⟨hp4, hp18⟩ := le_of_new a2
    obtain ⟨c₀', c', b1, b2, _⟩ := runHll_fresh (BitVec.ofInt 8 q) hp4 hp18 (((((observations steps).filter fun fs => AgreeOn sch.keys fs crit).flatten).filterMap fun fv : FV =>
        if fv.f = f then some fv.v else none).map some)
    have : c₀' = c₀ := by rw [a2] at b1; exact (Out.val.inj b1).symm
    subst this
    have hsame := C12_set_semantics _ hp4 hp18 _ _ (by
      intro x
      rw [live_some, live_some]
      exact (hp.flatten.filterMap _).mem_iff) c₀' c c' a2 a3 b2
    subst hsame
    refine ⟨q, c₀', c, n, a1, a2, b2, a4, ?_⟩
    rw [hrep', show Collation.read env.lib (compile sch) [⟨f, [asc "uniquecount"]⟩] buf = _ from a5]
    exact congrArg Reply.ok (render_one env crit f _ _)

/-! ### an instance -/

/-- another post of a height of France is accepted -/
theorem height_post (env : Env) (os : List Obs) {v : Bytes} (hv : v = asc "3" ∨ v = asc "5") (hx : env.lib.parseFloat v ≠ none)
    (hroom : slotAfter Demo.country.keys Demo.slots os 12582602682680778473 ≠ none ∨ os = []) :
    Server.serve env [(writes env.lib (newStore Demo.country Demo.slots) os).1, newStore Demo.tz Demo.slots] (Step.posted [heightLine v]).request =
      ([(writes env.lib (newStore Demo.country Demo.slots) (os ++ [seenHeight (asc "FR") v])).1, newStore Demo.tz Demo.slots], .ok []) := by
  have hcor := heightLine_correct v hv
  have hp := line_parse hcor
  rw [show (⟨(decimalValue (heightLine v).ts : Int) * 1000, (heightLine v).fs⟩ : Row) = (seenHeight (asc "FR") v).row by
    unfold seenHeight heightLine
    simp only
    rw [show (decimalValue (asc "0") : Int) * 1000 = 0 by decide +kernel]] at hp
  obtain ⟨L, D, pos, h, hD⟩ := laid_compile Demo.country country_valid
  obtain ⟨st, hst⟩ : ∃ st, st = (writes env.lib (newStore Demo.country Demo.slots) os).1 := ⟨_, rfl⟩
  have hg := good_writes (l := Demo.slots) env.lib h os (good_new h (by decide))
  have hkey : keyValue (seenHeight (asc "FR") v).row.data Demo.country.keys = some 12582602682680778473 := by
    rcases hv with rfl | rfl <;> decide +kernel
  have hw := write_plain env.lib h hD hg (seenHeight (asc "FR") v).row
    (k := 12582602682680778473) hkey (by decide) (by
      rcases hroom with hr | rfl
      · left
        rw [slot_run env.lib h (by decide) os (by decide)]
        exact hr
      · exact .inr (room_new (by decide) _)) (height_all_plain hx _)
  have htz : keyValue (seenHeight (asc "FR") v).row.data (newStore Demo.tz Demo.slots).coll.keys = none := by
    rw [show (newStore Demo.tz Demo.slots).coll.keys = [asc "tz"] by unfold newStore; rw [compile_keys]; rfl]
    rcases hv with rfl | rfl <;> decide +kernel
  have htw : write env.lib (newStore Demo.tz Demo.slots) false (seenHeight (asc "FR") v).row = (newStore Demo.tz Demo.slots, .ret none) := by
    unfold write
    rw [htz]
  rw [(writes_append env.lib os _ _).1]
  rw [← hst] at hw ⊢
  have := C43_line env [st, newStore Demo.tz Demo.slots] (heightLine v).text ⟨hcor.no_newline, hcor.fits⟩ (seenHeight (asc "FR") v).row hp (by
    intro st hst
    simp only [List.mem_cons, List.not_mem_nil, or_false] at hst
    rcases hst with rfl | rfl
    · exact hw
    · rw [htw])
  rw [show (Step.posted [heightLine v]).request = post ((heightLine v).text ++ [0x0a]) by simp [Step.request, unlines], this]
  rw [List.map_cons, List.map_cons, List.map_nil, htw, writes_one env.lib _ (seenHeight (asc "FR") v), show (seenHeight (asc "FR") v).canceled = false from rfl]

/-- heights 3 and 5 are posted, and the query is for the greatest -/
def maxSteps : List Step :=
  [.posted [heightLine (asc "3")], .posted [heightLine (asc "5")], .other (askFor (asc "country") (asc "select max(height) where country='FR'"))]

theorem maxAsk_parse (ord : List FM → List FM) (hord : ∀ l, (ord l).Perm l) :
    Query.roughParse ord (asc "select max(height) where country='FR'") = .ok ⟨[⟨asc "height", [asc "max"]⟩], [⟨asc "country", asc "FR"⟩]⟩ := by
  rw [roughParse_ord ord (q := ⟨[⟨asc "height", [asc "max"]⟩], [⟨asc "country", asc "FR"⟩]⟩) (by decide +kernel),
    List.perm_singleton.1 (hord _)]

theorem maxAsk_declares : Declares Demo.country (asc "height") .max := .inr ⟨by simp, _, List.mem_cons_self .., by simp⟩

theorem maxSteps_correct : ∀ st ∈ maxSteps, st.Correct := by
  intro st hst
  simp only [maxSteps, List.mem_cons, List.not_mem_nil, or_false] at hst
  rcases hst with rfl | rfl | rfl
  · intro l hl; rw [List.mem_singleton.1 hl]; exact heightLine_correct _ (.inl rfl)
  · intro l hl; rw [List.mem_singleton.1 hl]; exact heightLine_correct _ (.inr rfl)
  · show ¬ _
    decide +kernel

theorem max_numbers (lib : Lib) {x y : F64} (hx : lib.parseFloat (asc "3") = some x) (hy : lib.parseFloat (asc "5") = some y) :
    numbersIn lib (asc "height") [(heightLine (asc "3")).fs, (heightLine (asc "5")).fs] = [x, y] := by
  unfold numbersIn heightLine
  simp only [List.flatten_cons, List.flatten_nil, List.append_nil, List.cons_append, List.nil_append, List.filterMap_cons, List.filterMap_nil]
  rw [if_neg (by decide +kernel), if_pos (by decide +kernel), hx, hy]
  simp

theorem serveAll_two (env : Env) {S S' S'' : List Store} {r r' : Request} {p p' : Reply} (h : Server.serve env S r = (S', p))
    (h' : Server.serve env S' r' = (S'', p')) : serveAll env S [r, r'] = (S'', [p, p']) := by
  rw [serveAll, serveAll, serveAll, h]
  simp only
  rw [h']

theorem max_asked (env : Env) (hord : ∀ l, (env.ord l).Perm l) (hld : ParsesDoubles env.lib) {x y : F64} (hx : env.lib.parseFloat (asc "3") = some x)
    (hy : env.lib.parseFloat (asc "5") = some y) (hxn : x ≠ .nan) (hyn : y ≠ .nan) {S' S'' : List Store}
    (p1 : Server.serve env ([] ++ newStore Demo.country Demo.slots :: [newStore Demo.tz Demo.slots]) (Step.posted [heightLine (asc "3")]).request = (S', .ok []))
    (p2 : Server.serve env S' (Step.posted [heightLine (asc "5")]).request = (S'', .ok [])) :
    ∃ z, Server.serve env S'' (askFor (asc "country") (asc "select max(height) where country='FR'")) =
      (S'', .ok (echo [⟨asc "country", asc "FR"⟩] ++ measureLine env (asc "max") (asc "height") z)) := by
  have hflt : ((observations [Step.posted [heightLine (asc "3")], Step.posted [heightLine (asc "5")]]).filter fun fs =>
      AgreeOn Demo.country.keys fs [⟨asc "country", asc "FR"⟩]) = [(heightLine (asc "3")).fs, (heightLine (asc "5")).fs] := by decide +kernel
  have hall := serveAll_two env p1 p2
  obtain ⟨rows, buf, h1, h2, h3⟩ := C59_server_partial env Demo.country country_valid country_name Demo.slots (by decide) [] [newStore Demo.tz Demo.slots] (by simp)
    [Step.posted [heightLine (asc "3")], Step.posted [heightLine (asc "5")]]
    (fun st hst => maxSteps_correct st (by
      simp only [List.mem_cons, List.not_mem_nil, or_false] at hst
      rcases hst with rfl | rfl <;> simp [maxSteps])) (by
      rw [List.map_cons, List.map_cons, List.map_nil, hall]
      exact .cons rfl (.cons rfl .nil)) [⟨asc "country", asc "FR"⟩] (by
      intro a ha b hb kx ky _ _ _
      have : ∀ c ∈ [⟨asc "country", asc "FR"⟩] :: observations [Step.posted [heightLine (asc "3")], Step.posted [heightLine (asc "5")]],
        ∀ key ∈ Demo.country.keys, valueOf c key = some (asc "FR") := by decide +kernel
      intro key hkey
      rw [this a ha key hkey, this b hb key hkey])
    12582602682680778473 fr_key (by decide) (by rw [country_size]; decide) (by rw [country_size]; decide) (by rw [hflt]; simp)
  rw [hflt] at h1
  have h3 := h3 _ _ (maxAsk_parse env.ord hord)
  rw [List.map_cons, List.map_cons, List.map_nil, hall] at h3
  cases rows with
  | nil => simp at h1
  | cons r rows =>
    rw [List.map_cons, List.cons.injEq] at h1
    obtain ⟨z, hz, _⟩ := (C25_extreme_partial env.lib hld Demo.country country_valid (asc "height") r rows buf h2 (asc "3") (by
      rw [valuesOf_data]
      simp only [List.map_cons, List.map_nil, h1.1]
      decide +kernel) (by
      rw [numbersOf_data, List.map_cons, h1.1, h1.2, max_numbers env.lib hx hy]
      simp [hxn, hyn])).1 maxAsk_declares
    refine ⟨z, Prod.ext (asked_same env _ _ _ country_name) ?_⟩
    refine h3.trans ?_
    rw [show Collation.read env.lib (compile Demo.country) [⟨asc "height", [asc "max"]⟩] buf = _ from hz]
    exact congrArg Reply.ok (render_one env _ _ _ _)

/-- instance of C66_server_partial, C66_quiet_partial and C66_extreme_partial: there is a run of the demo program in which goroutine 0 has posted 3, goroutine 1
has then posted 5, and goroutine 2 has then answered the query for the greatest; the hypotheses hold there. -/
example (env : Env) (hord : ∀ l, (env.ord l).Perm l) (hld : ParsesDoubles env.lib) {x y : F64} (hx : env.lib.parseFloat (asc "3") = some x)
    (hy : env.lib.parseFloat (asc "5") = some y) (hxn : x ≠ .nan) (hyn : y ≠ .nan) :
    ∃ σ₁ σ₀ σ rep, ServerConc.Steps env demoConfs ServerConc.init σ₁ ∧ ServerConc.Steps env demoConfs σ₁ σ₀ ∧ ServerConc.Steps env demoConfs σ₀ σ ∧
    Unwrapped σ ∧ σ.reqs = maxSteps.map Step.request ∧ (∀ j ls, maxSteps[j]? = some (.posted ls) → Acked σ₀ j) ∧ σ₀.reqs.length ≤ 2 ∧
    obsAt maxSteps (0, 0) = some (heightLine (asc "3")).fs ∧ Acked σ₁ 0 ∧
    (∀ o fs, obsAt maxSteps o = some fs → AgreeOn Demo.country.keys fs [⟨asc "country", asc "FR"⟩] → o ≠ (0, 0) → σ₁.reqs.length ≤ o.1) ∧
    (∀ fs ∈ observations maxSteps, ∀ k', keyValue fs Demo.country.keys = some k' → k' ≠ 12582602682680778473 →
      (12582602682680778473 : U64).toNat % Demo.slots ∉ candidates Demo.slots k') ∧
    (compile Demo.country).size.toNat ≤ (12582602682680778473 : U64).toNat % Demo.slots ∧
    (∀ z ∈ numbersIn env.lib (asc "height") ((observations maxSteps).filter fun fs => AgreeOn Demo.country.keys fs [⟨asc "country", asc "FR"⟩]), z ≠ .nan) ∧
    (2, rep) ∈ σ.replies := by
  have hpos : ∀ c ∈ demoConfs, 0 < c.slots := by
    intro c hc
    simp only [demoConfs, List.mem_cons, List.not_mem_nil, or_false] at hc
    rcases hc with rfl | rfl <;> (show 0 < Demo.slots; decide)
  have p1 := height_post env [] (v := asc "3") (.inl rfl) (by rw [hx]; simp) (.inr rfl)
  have p2 := height_post env ([] ++ [seenHeight (asc "FR") (asc "3")]) (v := asc "5") (.inr rfl) (by rw [hy]; simp) (.inl (by decide +kernel))
  rw [show (writes env.lib (newStore Demo.country Demo.slots) []).1 = newStore Demo.country Demo.slots from rfl] at p1
  obtain ⟨S', hS'⟩ : ∃ S', S' = [(writes env.lib (newStore Demo.country Demo.slots) ([] ++ [seenHeight (asc "FR") (asc "3")])).1, newStore Demo.tz Demo.slots] := ⟨_, rfl⟩
  obtain ⟨S'', hS''⟩ : ∃ S'', S'' = [(writes env.lib (newStore Demo.country Demo.slots) (([] ++ [seenHeight (asc "FR") (asc "3")]) ++ [seenHeight (asc "FR") (asc "5")])).1,
    newStore Demo.tz Demo.slots] := ⟨_, rfl⟩
  rw [← hS'] at p1 p2
  rw [← hS''] at p2
  clear hS' hS''
  obtain ⟨z, hans⟩ := max_asked env hord hld hx hy hxn hyn (by rw [List.nil_append]; exact p1) p2
  obtain ⟨σ₁, a1, a2, a3, a4, a5, a6, a7⟩ := C68_alone env demoConfs hpos ServerConc.init (.refl _) 0 rfl (fun _ => rfl) Demo.stores demo_agrees
    _ S' _ (by rw [show Demo.stores = [newStore Demo.country Demo.slots, newStore Demo.tz Demo.slots] from rfl]; exact p1) (by simp) (by simp)
  obtain ⟨σ₀, b1, b2, b3, b4, b5, b6, b7⟩ := C68_alone env demoConfs hpos σ₁ a1 1 (by rw [a5]; rfl) (fun s => by rw [a6]; rfl) S' a2 _ S'' _ p2
    (by simp) (by simp)
  obtain ⟨σ, c1, c2, c3, c4, c5, c6, c7⟩ := C68_alone env demoConfs hpos σ₀ (a1.trans b1) 2 (by rw [b5, a5]; rfl) (fun s => by rw [b6, a6]; rfl) S'' b2 _ _ _ hans
    (by simp) (by simp)
  refine ⟨σ₁, σ₀, σ, .ok (echo [⟨asc "country", asc "FR"⟩] ++ measureLine env (asc "max") (asc "height") z), a1, b1, c1, ?_, ?_, ?_, ?_, by decide +kernel, ?_, ?_, ?_, by rw [country_size]; decide, ?_, ?_⟩
  · intro s i buf d hm
    rcases c7 s i true buf d hm with h | rfl
    · rcases b7 s i true buf d h with h | rfl
      · rcases a7 s i true buf d h with h | rfl
        · simp [ServerConc.init, StoreConc.init, BufmapConc.init] at h
        · decide
      · decide
    · decide
  · rw [c3, b3, a3]; simp [maxSteps, Step.request, ServerConc.init]
  · intro j ls hj
    unfold maxSteps at hj
    unfold Acked
    rw [b4, a4, a3]
    match j with
    | 0 => simp [ServerConc.init]
    | 1 => simp [ServerConc.init]
    | 2 => simp at hj
    | j + 3 => simp at hj
  · rw [b3, a3]; simp [ServerConc.init]
  · unfold Acked; rw [a4]; simp [ServerConc.init]
  · rintro ⟨j, p⟩ fs ho _ hne
    rw [a3]
    simp only [ServerConc.init, List.nil_append, List.length_singleton]
    rcases j with _ | j
    · exfalso
      rcases p with _ | p
      · exact hne rfl
      · simp [obsAt, maxSteps, Step.posts] at ho
    · omega
  · intro fs hfs k' hk' hne
    exfalso
    have : (observations maxSteps).all fun fs => decide (keyValue fs Demo.country.keys = some 12582602682680778473) := by decide +kernel
    have := of_decide_eq_true (List.all_eq_true.1 this fs hfs)
    rw [hk'] at this
    exact hne (Option.some.inj this)
  · rw [show ((observations maxSteps).filter fun fs => AgreeOn Demo.country.keys fs [⟨asc "country", asc "FR"⟩]) =
      [(heightLine (asc "3")).fs, (heightLine (asc "5")).fs] by decide +kernel, max_numbers env.lib hx hy]
    simp [hxn, hyn]
  · rw [c4, b3, a3]
    exact List.mem_append_right _ (List.mem_singleton.2 rfl)

end Starbow.Props
