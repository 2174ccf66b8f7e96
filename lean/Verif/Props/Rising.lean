import Verif.Props.Extremes
import Verif.Props.Monotone
/-
Property C94 under concurrent requests.
-/
namespace Starbow.Props
open Starbow.Collation Starbow.Spec Starbow.Storage Starbow.Server Starbow.BufmapConc Starbow.Cell

section
open Starbow.StoreConc

/-- if the first Write of a key had returned before any other was called, then it is the first in the log of the record, and the only one told that the record is new -/
theorem first_told (lib : Lib) (c : Collator) (l : Nat) (hl : 0 < l) {σ₀ σ : StoreConc.State} (hr₀ : StoreConc.Steps lib c l StoreConc.init σ₀)
    (hr₁ : StoreConc.Steps lib c l σ₀ σ) {k : U64} (h0 : k ≠ 0) {i₀ : Nat} (hfirst : startedWrites c.keys k σ₀ = [i₀])
    (hdone : doneWrites c.keys k σ₀ = [i₀]) (hhome : σ₀.m.keys (k.toNat % l) = k) {x : Nat} (hx : x < l) (hkx : σ.m.keys x = k) :
    ∃ w ws, (writesOf σ.m.cells.log x).map (servedOf σ) = w :: ws ∧ w.id = i₀ ∧ w.new = true ∧ ∀ v ∈ ws, v.new = false := by
  have hr := hr₀.trans hr₁
  have hI₀ := inv_reach hl (steps_m hr₀)
  have hI := inv_reach hl (steps_m hr)
  have hc₀ := callsOk_steps (callsOk_init lib c) hr₀
  have hmlt : k.toNat % l < l := Nat.mod_lt _ hl
  have hgrow : σ.m.keys (k.toNat % l) = k := by
    rw [(BufmapConc.steps_mono hl hI₀ (steps_m hr₁)).1 _ (by rw [hhome]; exact h0)]; exact hhome
  have huniq : ∀ x, x < l → σ.m.keys x = k → x = k.toNat % l := by
    intro x hx hkx
    exact hI.keys.unique hx hmlt (by rw [hkx]; exact h0) (by rw [hkx, hgrow])
  have hord := serial_order (lib := lib) (c := c) hl hr hx h0 hkx
  have hlog := log_served hl hr hkx
  obtain ⟨_, ⟨moreI, hmI⟩, ⟨moreL, hmL⟩, _⟩ := BufmapConc.steps_mono hl hI₀ (steps_m hr₁)
  obtain ⟨r₀, err₀, hw₀, hret₀⟩ := mem_done.1 (show i₀ ∈ doneWrites c.keys k σ₀ by rw [hdone]; simp)
  obtain ⟨fn₀, hfn₀, _⟩ := hc₀.write hw₀.1 hw₀.2
  have hall : AllReturned σ₀.m k := by
    intro id fn hid
    obtain ⟨r, h1, h2, _⟩ := hc₀.ok id _ hid
    have : id ∈ startedWrites c.keys k σ₀ := mem_started.2 ⟨r, h1, h2⟩
    rw [hfirst, List.mem_singleton] at this
    subst this
    exact ⟨_, hret₀⟩
  obtain ⟨x', e, hx', he, hinit⟩ := C31_told_partial l c.size.toNat hl σ₀.m (steps_m hr₀) k hall i₀ fn₀ err₀ hfn₀ hret₀
  have hel₀ := BufmapConc.mem_writesOf.mp he
  have hel : (x', e) ∈ σ.m.cells.log := by rw [hmL]; exact List.mem_append_left _ hel₀
  have hxx : x' = x := by
    have h1 := (hI.logok x' e hel).1
    have h3 : σ.m.keys x' = k := by
      rw [(BufmapConc.steps_mono hl hI₀ (steps_m hr₁)).1 _ (by rw [hx']; exact h0)]; exact hx'
    rw [huniq x hx hkx, huniq x' h1 h3]
  subst hxx
  have hsub₀ : ∀ e', e' ∈ writesOf σ.m.cells.log x' → e'.id < σ₀.m.invs.length → e'.id = i₀ := by
    intro e' he' hlt
    have hwe := (hlog e' he').1
    obtain ⟨more, hm⟩ := calls_grow hr₁
    have h1 := hwe.1
    rw [hm, List.getElem?_append_left (by rw [hc₀.len]; exact hlt)] at h1
    have : e'.id ∈ startedWrites c.keys k σ₀ := mem_started.2 ⟨_, h1, hwe.2⟩
    rw [hfirst, List.mem_singleton] at this
    exact this
  have heid : e.id = i₀ := hsub₀ e (BufmapConc.mem_writesOf.mpr hel) (inv_lt (hI₀.logok x' e hel₀).2.2)
  have hnd := BufmapConc.writesOf_nodup hI.lg.nodup x'
  have hnew : ∀ e' ∈ writesOf σ.m.cells.log x', e'.id = i₀ → e'.init = true := by
    intro e' he' hid
    obtain ⟨u, v, huv⟩ := List.append_of_mem he'
    obtain ⟨u', v', huv'⟩ := List.append_of_mem (BufmapConc.mem_writesOf.mpr hel)
    rw [huv] at hnd
    have := (nodup_split (·.id) u u' v v' e' e hnd (huv.symm.trans huv') (by rw [hid, heid])).2
    rw [this]; exact hinit
  have hold : ∀ e' ∈ writesOf σ.m.cells.log x', e'.id ≠ i₀ → e'.init = false := by
    intro e' he' hid
    refine C31_home_partial l c.size.toNat hl σ₀.m σ.m (steps_m hr₀) (steps_m hr₁) k h0 hhome x' hkx e' he' ?_
    rcases Nat.lt_or_ge e'.id σ₀.m.invs.length with h1 | h1
    · exact absurd (hsub₀ e' he' h1) hid
    · exact h1
  obtain ⟨a, b, hab, ha1, ha2⟩ := hord.time σ₀ hr₀ hr₁
  have hmem : ∀ w ∈ (writesOf σ.m.cells.log x').map (servedOf σ), (w.id = i₀ → w.new = true) ∧ (w.id ≠ i₀ → w.new = false) := by
    intro w hw
    obtain ⟨e', he', rfl⟩ := List.mem_map.1 hw
    exact ⟨hnew e' he', hold e' he'⟩
  have hi₀ : i₀ ∈ a.map Served.id := ha1 i₀ (by rw [hdone]; simp)
  have honly : ∀ w ∈ a, w.id = i₀ := by
    intro w hw
    have := ha2 w hw
    rw [hfirst, List.mem_singleton] at this
    exact this
  have honce := hord.once
  rw [hab] at honce hmem ⊢
  cases a with
  | nil => simp at hi₀
  | cons w₀ a =>
    rw [List.cons_append, List.map_cons, List.nodup_cons] at honce
    have hid₀ := honly w₀ (by simp)
    refine ⟨w₀, a ++ b, rfl, hid₀, (hmem w₀ (by simp)).1 hid₀, ?_⟩
    intro v hv
    refine (hmem v (by rw [List.cons_append]; simp only [List.mem_cons]; exact .inr hv)).2 ?_
    intro e
    exact honce.1 (by rw [hid₀, ← e]; exact List.mem_map.2 ⟨v, hv, rfl⟩)

/-- One store, any interleaving: if the first Write of a key had returned before any other was called, and the key is in its home slot, then what two Reads, one after the other,
are answered from is the record of some rows, and the record of those rows and more. -/
theorem rising_store (lib : Lib) (c : Collator) (l : Nat) (hl : 0 < l) (σ₀ σ₁ σ₁' σ₂ σ₂' σ₃ : StoreConc.State)
    (hr₀ : StoreConc.Steps lib c l StoreConc.init σ₀) (hr₁ : StoreConc.Steps lib c l σ₀ σ₁) (h1 : StoreConc.Step lib c l σ₁ σ₁')
    (hs : StoreConc.Steps lib c l σ₁' σ₂) (h2 : StoreConc.Step lib c l σ₂ σ₂') (h3 : StoreConc.Steps lib c l σ₂' σ₃)
    (i₁ i₂ : Nat) (q₁ q₂ : Query) (hq₁ : σ₁.calls[i₁]? = some (.read q₁)) (hq₂ : σ₂.calls[i₂]? = some (.read q₂)) (k : U64)
    (hk₁ : keyValue q₁.criteria c.keys = some k) (hk₂ : keyValue q₂.criteria c.keys = some k) (h0 : k ≠ 0)
    (i₀ : Nat) (hfirst : startedWrites c.keys k σ₀ = [i₀]) (hdone : doneWrites c.keys k σ₀ = [i₀]) (hhome : σ₀.m.keys (k.toNat % l) = k)
    (hacc : ∀ j ∈ startedWrites c.keys k σ₂, (j, .ran none) ∈ σ₃.m.rets) (hlow : c.size.toNat ≤ k.toNat % l)
    (buf₁ buf₂ : Bytes) (d₁ d₂ : Nat) (hd₁ : d₁ < 2 ^ 32) (hd₂ : d₂ < 2 ^ 32) (hret₁ : σ₁'.m.rets = σ₁.m.rets ++ [(i₁, .got true buf₁ d₁)])
    (hret₂ : σ₂'.m.rets = σ₂.m.rets ++ [(i₂, .got true buf₂ d₂)]) :
    ∃ w ws more, SerialOrder lib c l k σ₁ (w :: ws) ∧ SerialOrder lib c l k σ₂ (w :: (ws ++ more)) ∧ w.id = i₀ ∧
      RecordOf lib c ((w :: ws).map Served.row) buf₁ ∧ RecordOf lib c ((w :: (ws ++ more)).map Served.row) buf₂ := by
  have hs' : StoreConc.Steps lib c l σ₁ σ₂ := (StoreConc.Steps.tail (.refl _) h1).trans hs
  have hr := hr₀.trans hr₁
  have hr₂ := hr.trans hs'
  have hI₀ := inv_reach hl (steps_m hr₀)
  have hmlt : k.toNat % l < l := Nat.mod_lt _ hl
  have hat : ∀ σ, StoreConc.Steps lib c l σ₀ σ → ∀ x, x < l → σ.m.keys x = k → x = k.toNat % l := by
    intro σ hσ x hx hkx
    have hgrow : σ.m.keys (k.toNat % l) = k := by
      rw [(BufmapConc.steps_mono hl hI₀ (steps_m hσ)).1 _ (by rw [hhome]; exact h0)]; exact hhome
    exact (inv_reach hl (steps_m (hr₀.trans hσ))).keys.unique hx hmlt (by rw [hkx]; exact h0) (by rw [hkx, hgrow])
  obtain ⟨x, hx, hkx, e1⟩ := snapshot_log lib c l hl σ₁ σ₁' hr h1 i₁ q₁ hq₁ k hk₁ h0 (fun x hx hkx => by rw [hat _ hr₁ x hx hkx]; exact hlow) buf₁ d₁ hd₁ hret₁
  obtain ⟨y, hy, hky, e2⟩ := snapshot_log lib c l hl σ₂ σ₂' hr₂ h2 i₂ q₂ hq₂ k hk₂ h0 (fun x hx hkx => by rw [hat _ (hr₁.trans hs') x hx hkx]; exact hlow) buf₂ d₂ hd₂
    hret₂
  have hxy : x = y := by rw [hat _ hr₁ x hx hkx, hat _ (hr₁.trans hs') y hy hky]
  subst hxy
  obtain ⟨more, hm⟩ := (BufmapConc.steps_mono hl (inv_reach hl (steps_m hr)) (steps_m hs')).2.2.1
  obtain ⟨w, ws, f1, f2, f3, f4⟩ := first_told lib c l hl hr₀ hr₁ h0 hfirst hdone hhome hx hkx
  obtain ⟨w', ws', g1, g2, g3, g4⟩ := first_told lib c l hl hr₀ (hr₁.trans hs') h0 hfirst hdone hhome hx hky
  have hsplit : (writesOf σ₂.m.cells.log x).map (servedOf σ₂) = (w :: ws) ++ (writesOf more x).map (servedOf σ₂) := by
    rw [hm, writesOf_append, List.map_append, served_later hl hr hs' hkx, f1]
  have hww := hsplit
  rw [g1, List.cons_append, List.cons.injEq] at hww
  obtain ⟨rfl, rfl⟩ := hww
  have hacc₂ := accepted_log hl hr₂ ((StoreConc.Steps.tail (.refl _) h2).trans h3) hky hacc
  have hord := serial_order (lib := lib) (c := c) hl hr₂ hx h0 hky
  rw [g1] at hacc₂ hord e2
  have hord₁ := serial_order (lib := lib) (c := c) hl hr hx h0 hkx
  rw [f1] at e1 hord₁
  have hacc₁ : Accepted lib c (w' :: ws) := by
    intro a v b hab
    refine hacc₂ a v (b ++ (writesOf more x).map (servedOf σ₂)) ?_
    rw [← List.cons_append, hab, List.append_assoc, List.cons_append]
  refine ⟨w', ws, _, hord₁, hord, f2, ?_, ?_⟩
  · rw [e1]; exact recordOf_served lib c w' ws f3 f4 hacc₁
  · rw [e2]; exact recordOf_served lib c w' _ f3 g4 hacc₂

end

open Starbow.ServerConc Starbow.Probe

/-- one record: after more rows max is no less and min no more -/
theorem extreme_grows (lib : Lib) (hld : ParsesDoubles lib) (s : Schema) (hv : ValidSchema s) (f : Bytes) (r r' : Row) (rest rest' : List Row) (buf buf' : Bytes)
    (hrr : r'.data = r.data) (more : List (List FV)) (hmore : rest'.map Row.data = rest.map Row.data ++ more)
    (h1 : RecordOf lib (compile s) (r :: rest) buf) (h2 : RecordOf lib (compile s) (r' :: rest') buf')
    (hnan : ∀ x ∈ numbersIn lib f ((r' :: rest').map Row.data), x ≠ .nan) (m : Measure) (hm : m = .max ∨ m = .min) (hd : Declares s f m) :
    ∃ x y, ask lib (compile s) buf f m.name = .val ([⟨f, m.name, x⟩], none) ∧ ask lib (compile s) buf' f m.name = .val ([⟨f, m.name, y⟩], none) ∧
      (m = .max → F64.le x y = true) ∧ (m = .min → F64.le y x = true) := by
  have hfirst : numbersOf lib f [r] = numbersOf lib f [r'] := by
    rw [numbersOf_data, numbersOf_data, List.map_singleton, List.map_singleton, hrr]
  have hsub : ∀ x ∈ numbersOf lib f rest, x ∈ numbersOf lib f rest' := by
    intro x hx
    rw [numbersOf_data] at hx ⊢
    rw [hmore]
    unfold numbersIn at hx ⊢
    rw [List.flatten_append, List.filterMap_append]
    exact List.mem_append_left _ hx
  have hn' : ∀ x ∈ (numbersOf lib f [r']).getLastD (.fin false 0) :: numbersOf lib f rest', x ≠ .nan := by
    intro x hx
    have hall : ∀ x ∈ numbersOf lib f (r' :: rest'), x ≠ .nan := by
      intro x hx
      rw [numbersOf_data] at hx
      exact hnan x hx
    rw [numbersOf_cons] at hall
    rcases List.mem_cons.1 hx with rfl | hx
    · cases e : (numbersOf lib f [r']).getLast? with
      | none => rw [List.getLastD_eq_getLast?, e]; simp
      | some x => rw [List.getLastD_eq_getLast?, e]; exact hall x (List.mem_append_left _ (List.mem_of_getLast? e))
    · exact hall x (List.mem_append_right _ hx)
  have hinc : ∀ x ∈ (numbersOf lib f [r]).getLastD (.fin false 0) :: numbersOf lib f rest,
      x ∈ (numbersOf lib f [r']).getLastD (.fin false 0) :: numbersOf lib f rest' := by
    intro x hx
    rcases List.mem_cons.1 hx with h | hx
    · rw [h, hfirst]; exact List.mem_cons_self ..
    · exact List.mem_cons_of_mem _ (hsub x hx)
  have e1 := C25_extreme_law lib hld s hv f r rest buf h1 (fun x hx => hn' x (hinc x hx))
  have e2 := C25_extreme_law lib hld s hv f r' rest' buf' h2 hn'
  rcases hm with rfl | rfl
  · obtain ⟨x, x1, x2, x3⟩ := e1.1 hd
    obtain ⟨y, y1, y2, y3⟩ := e2.1 hd
    exact ⟨x, y, x1, y1, fun _ => y3 x (hinc x x2), by simp⟩
  · obtain ⟨x, x1, x2, x3⟩ := e1.2 hd
    obtain ⟨y, y1, y2, y3⟩ := e2.2 hd
    exact ⟨x, y, x1, y1, by simp, fun _ => y3 x (hinc x x2)⟩

/-- The whole server under concurrent requests: if the first observation of the key value asked for (`o₁`) had been acknowledged at `σ₁`, before any other observation of it was
posted, and the key value is alone in its home slot, then two queries, the first received after some later moment `σm`, the second received after the first was answered (by `σ₀`), are
answered from the record of some observations that agree with the criteria, the first `o₁`, among them all acknowledged at `σm`, and from the record of those and more. -/
theorem rising_server (env : Env) (confs : List Conf) (s : Nat) (sch : Schema) (l : Nat) (hs : confs[s]? = some ⟨compile sch, l⟩)
    (hv : ValidSchema sch) (hn : GoodName sch.name) (hl : 0 < l)
    (hfirst : ∀ s' c', s' < s → confs[s']? = some c' → c'.coll.name ≠ sch.name)
    (σ₁ σm σ₀ σ σ₂ : ServerConc.State) (hr₁ : ServerConc.Steps env confs ServerConc.init σ₁) (hrm : ServerConc.Steps env confs σ₁ σm)
    (hr₀ : ServerConc.Steps env confs σm σ₀)
    (hsteps : ServerConc.Steps env confs σ₀ σ) (hlater : ServerConc.Steps env confs σ σ₂) (hun : Unwrapped σ)
    (steps : List Step) (hreq : σ.reqs = steps.map Step.request)
    (hcorr : ∀ st ∈ steps, st.Correct) (hall : ∀ j ls, steps[j]? = some (.posted ls) → Acked σ₂ j)
    (j₁ j₂ : Nat) (hj₁ : σm.reqs.length ≤ j₁) (hj₂ : σ₀.reqs.length ≤ j₂) (text₁ text₂ : Bytes)
    (hask₁ : steps[j₁]? = some (.other (askFor sch.name text₁))) (hask₂ : steps[j₂]? = some (.other (askFor sch.name text₂)))
    (sel₁ sel₂ : List FM) (crit : List FV) (hq₁ : Query.roughParse env.ord text₁ = .ok ⟨sel₁, crit⟩) (hq₂ : Query.roughParse env.ord text₂ = .ok ⟨sel₂, crit⟩)
    (k : U64) (hk : keyValue crit sch.keys = some k) (h0 : k ≠ 0)
    (happ : ∀ fs ∈ observations steps, keyValue fs sch.keys = some k → AgreeOn sch.keys fs crit)
    (o₁ : Nat × Nat) (fs₁ : List FV) (ho₁ : obsAt steps o₁ = some fs₁) (hag₁ : AgreeOn sch.keys fs₁ crit) (hack₁ : Acked σ₁ o₁.1)
    (honly : ∀ o fs, obsAt steps o = some fs → AgreeOn sch.keys fs crit → o ≠ o₁ → σ₁.reqs.length ≤ o.1)
    (halone : ∀ fs ∈ observations steps, ∀ k', keyValue fs sch.keys = some k' → k' ≠ k → k.toNat % l ∉ candidates l k')
    (hlow : (compile sch).size.toNat ≤ k.toNat % l) (rep₁ rep₂ : Reply) (hrep₁ : (j₁, rep₁) ∈ σ₀.replies) (hrep₂ : (j₂, rep₂) ∈ σ.replies) :
    ∃ r rest more buf₁ buf₂, r.data = fs₁ ∧
      (∀ r' ∈ r :: (rest ++ more), r'.data ∈ (observations steps).filter fun fs => AgreeOn sch.keys fs crit) ∧
      (∀ o fs, obsAt steps o = some fs → AgreeOn sch.keys fs crit → Acked σm o.1 → ∃ r' ∈ r :: rest, r'.data = fs) ∧
      RecordOf env.lib (compile sch) (r :: rest) buf₁ ∧ RecordOf env.lib (compile sch) (r :: (rest ++ more)) buf₂ ∧
      rep₁ = resultReply env crit (Collation.read env.lib (compile sch) sel₁ buf₁) ∧
      rep₂ = resultReply env crit (Collation.read env.lib (compile sch) sel₂ buf₂) := by
  have hkeys : (compile sch).keys = sch.keys := compile_keys sch
  have hrm' := hr₁.trans hrm
  have hr := hrm'.trans hr₀
  have hI₁ := ServerConc.inv_reach hr₁
  have hIm := ServerConc.inv_reach hrm'
  have hI := ServerConc.inv_reach (hr.trans hsteps)
  have hI₂ := ServerConc.inv_reach ((hr.trans hsteps).trans hlater)
  have hx₀ := ext_steps hsteps
  have hxm := (ext_steps hr₀).trans hx₀
  have hx₁ := (ext_steps hrm).trans hxm
  have hx₂ := ext_steps hlater
  obtain ⟨i₀, r₀, hmade, hrd, hran⟩ := acked_made hs hreq hcorr hk hI₁ (.inl hx₁.reqs) ho₁ hag₁ hack₁
  have hkr₀ : keyValue r₀.data sch.keys = some k := by rw [hrd, C28_key sch.keys _ _ hag₁, hk]
  have hs₁ := steps_store hr₁ hs
  have hstm := steps_store hrm hs
  have hst₀ := steps_store hr₀ hs
  have hst₁ := hstm.trans hst₀
  have hst := steps_store hsteps hs
  have hstart : startedWrites (compile sch).keys k (σ₁.stores s) = [i₀] := by
    refine only_one (started_nodup _ _ _) (StoreConc.mem_started.2 ⟨r₀, hmade.2, by rw [hkeys]; exact hkr₀⟩) ?_
    intro i hi
    obtain ⟨r, hw1, hw2⟩ := StoreConc.mem_started.1 hi
    rw [hkeys] at hw2
    obtain ⟨o, g1, g2, _⟩ := post_of_write hreq hcorr hx₁ hI₁ hw1
    obtain ⟨_, _, _, hmem⟩ := obsAt_posted g2
    by_cases ho : o = o₁
    · subst ho
      exact hI₁.once s _ _ _ _ _ _ ⟨g1, hw1⟩ hmade
    · have := honly o _ g2 (happ _ hmem hw2) ho
      have := hI₁.olt s _ (List.mem_of_getElem? g1)
      omega
  have hdone : doneWrites (compile sch).keys k (σ₁.stores s) = [i₀] := by
    refine only_one (done_nodup _ _ _) (StoreConc.mem_done.2 ⟨r₀, none, ⟨hmade.2, by rw [hkeys]; exact hkr₀⟩, hran⟩) ?_
    intro i hi
    have : i ∈ startedWrites (compile sch).keys k (σ₁.stores s) := (List.mem_filter.1 hi).1
    rw [hstart] at this
    simpa using this
  have hhome : (σ₁.stores s).m.keys (k.toNat % l) = k := by
    have hc₁ := StoreConc.callsOk_steps (StoreConc.callsOk_init env.lib (compile sch)) hs₁
    obtain ⟨fn, hfn, _⟩ := hc₁.write hmade.2 (by rw [hkeys]; exact hkr₀)
    have hI := BufmapConc.inv_reach hl (StoreConc.steps_m hs₁)
    obtain ⟨x, e, es, rest, he, hx, hes, _⟩ := hI.rok i₀ _ hran
    have hmem : (x, e) ∈ (σ₁.stores s).m.cells.log := BufmapConc.mem_writesOf.mp (by rw [hes]; simp)
    obtain ⟨hxl, hne, hinv⟩ := hI.logok x e hmem
    rw [he, hfn] at hinv
    have hkx : (σ₁.stores s).m.keys x = k := by
      injection (Option.some.inj hinv) with g1 g2
      exact g1.symm
    have := kept_home hl hs₁ h0 (by
      intro i' r' k' g1 g2 g3
      rw [hkeys] at g2
      obtain ⟨o, _, g5, _⟩ := post_of_write hreq hcorr hx₁ hI₁ g1
      obtain ⟨_, _, _, hmem⟩ := obsAt_posted g5
      exact halone _ hmem k' g2 g3) hxl hkx
    rw [← this]; exact hkx
  have hacc : ∀ i ∈ startedWrites (compile sch).keys k (σ.stores s), (i, Ret.ran none) ∈ (σ₂.stores s).m.rets := by
    intro i hi
    obtain ⟨r, hw1, hw2⟩ := StoreConc.mem_started.1 hi
    rw [hkeys] at hw2
    obtain ⟨o, g1, g2, ls, g3⟩ := post_of_write hreq hcorr (Ext.refl σ) hI hw1
    obtain ⟨_, _, _, hmem⟩ := obsAt_posted g2
    obtain ⟨i', r', m1, m2, m3⟩ := acked_made hs hreq hcorr hk hI₂ (.inr hx₂.reqs) g2 (happ _ hmem hw2) (hall _ _ g3)
    have hm : ServerConc.Made σ₂ s i o.1 o.2 r := by
      refine ⟨prefix_get (hx₂.origin s) g1, ?_⟩
      obtain ⟨more, hmo⟩ := StoreConc.calls_grow (steps_store hlater hs)
      rw [hmo, List.getElem?_append_left (List.getElem?_eq_some_iff.1 hw1).1]
      exact hw1
    rw [hI₂.once s _ _ _ _ _ _ hm m1]
    exact m3
  have hreqj : ∀ {j : Nat} {text : Bytes}, steps[j]? = some (.other (askFor sch.name text)) → σ.reqs[j]? = some (askFor sch.name text) := by
    intro j text h
    rw [hreq, List.getElem?_map, h]; rfl
  have hreq₁ : σ₀.reqs[j₁]? = some (askFor sch.name text₁) := by
    obtain ⟨req, hreq'⟩ := ((ServerConc.inv_reach hr).replies j₁ _ hrep₁).req
    have := prefix_get hx₀.reqs hreq'
    rw [hreqj hask₁] at this
    rw [hreq', this]
  obtain ⟨i₁, f₁, buf₁, d₁, p1, hc₁, hret₁, e₁⟩ := asked hr hs hv hn hl hfirst hreq₁ hq₁ hk hrep₁
  obtain ⟨i₂, f₂, buf₂, d₂, p2, hc₂, hret₂, e₂⟩ := asked (hr.trans hsteps) hs hv hn hl hfirst (hreqj hask₂) hq₂ hk hrep₂
  have hlate₁ := called_late hrm' hr₀ hj₁ p1
  have hlate₂ := called_late hr hsteps hj₂ p2
  have hkc : ∀ sel : List FM, keyValue (Query.mk sel crit).criteria (compile sch).keys = some k := fun sel => by rw [hkeys]; exact hk
  have hmlt : k.toNat % l < l := Nat.mod_lt _ hl
  obtain rfl : f₁ = true := by
    cases f₁ with
    | true => rfl
    | false => exact absurd hret₁ (found_of_key hl hs₁ hst₁ h0 hmlt hhome (by
      obtain ⟨more, hmo⟩ := StoreConc.calls_grow hstm
      rw [hmo, List.length_append] at hlate₁
      omega) hc₁ (hkc _))
  obtain rfl : f₂ = true := by
    cases f₂ with
    | true => rfl
    | false =>
      refine absurd hret₂ (found_of_key hl hs₁ (hst₁.trans hst) h0 hmlt hhome ?_ hc₂ (hkc _))
      obtain ⟨more, hmo⟩ := StoreConc.calls_grow hst₁
      rw [hmo, List.length_append] at hlate₂
      omega
  obtain ⟨τ₁, τ₁', a1, a2, a3, a4, a5, a6⟩ := returned_read hl (hs₁.trans hstm) hst₀ hret₁ (not_returned hl (hs₁.trans hstm) hlate₁ _) hc₁
  obtain ⟨τ₂, τ₂', b1, b2, b3, b4, b5, b6⟩ := returned_read hl (hs₁.trans hst₁) hst hret₂ (not_returned hl (hs₁.trans hst₁) hlate₂ _) hc₂
  have hend := (StoreConc.Steps.tail (.refl _) b2).trans b5
  obtain ⟨w, ws, more, c0, c1, c2, c3, c4⟩ := rising_store env.lib (compile sch) l hl (σ₁.stores s) τ₁ τ₁' τ₂ τ₂' (σ₂.stores s) hs₁ (hstm.trans a1) a2 (a5.trans b1) b2
    (b5.trans (steps_store hlater hs)) i₁ i₂ _ _ a6 b6 k (hkc _) (hkc _) h0 i₀ hstart hdone hhome (by
      intro i hi
      obtain ⟨r, hw⟩ := StoreConc.mem_started.1 hi
      exact hacc i (StoreConc.mem_started.2 ⟨r, StoreConc.WriteOf.later hend hw⟩)) hlow buf₁ buf₂ d₁ d₂ (hun s i₁ buf₁ d₁ ((hx₀.rets s).subset hret₁)) (hun s i₂ buf₂ d₂ hret₂)
    a3 b3
  have hw : ∀ v ∈ w :: (ws ++ more), WriteOf (compile sch).keys k (σ.stores s) v.id v.row := fun v hv => StoreConc.WriteOf.later hend (c1.writes v hv)
  refine ⟨w.row, ws.map Served.row, more.map Served.row, buf₁, buf₂, ?_, ?_, ?_, c3, ?_, e₁, e₂⟩
  · have hww := hw w (by simp)
    rw [c2] at hww
    obtain ⟨more', hmo⟩ := StoreConc.calls_grow (hst₁.trans hst)
    have h1 := hww.1
    rw [hmo, List.getElem?_append_left (List.getElem?_eq_some_iff.1 hmade.2).1, hmade.2] at h1
    injection (Option.some.inj h1) with h1
    rw [← h1, hrd]
  · intro r' hr'
    rw [← List.map_append, ← List.map_cons] at hr'
    obtain ⟨v, hv', rfl⟩ := List.mem_map.1 hr'
    obtain ⟨v1, v2⟩ := hw v hv'
    rw [hkeys] at v2
    obtain ⟨o, _, g2, _⟩ := post_of_write hreq hcorr (Ext.refl σ) hI v1
    obtain ⟨_, _, _, hmem⟩ := obsAt_posted g2
    exact List.mem_filter.2 ⟨hmem, by simpa using happ _ hmem v2⟩
  · intro o fs g1 g2 g3
    obtain ⟨i, r, m1, m2, m3⟩ := acked_made hs hreq hcorr hk hIm (.inl hxm.reqs) g1 g2 g3
    have hkr : keyValue r.data (compile sch).keys = some k := by rw [hkeys, m2, C28_key sch.keys _ _ g2, hk]
    obtain ⟨a, b, hab, n1, _⟩ := c0.time (σm.stores s) (hs₁.trans hstm) a1
    obtain ⟨v, v1, v2⟩ := List.mem_map.1 (n1 i (StoreConc.mem_done.2 ⟨r, none, ⟨m1.2, hkr⟩, m3⟩))
    have hv' : v ∈ w :: ws := by rw [hab]; exact List.mem_append_left _ v1
    refine ⟨v.row, by rw [← List.map_cons]; exact List.mem_map.2 ⟨v, hv', rfl⟩, ?_⟩
    have hww := (c0.writes v hv').1
    obtain ⟨more', hmo⟩ := StoreConc.calls_grow a1
    rw [v2, hmo, List.getElem?_append_left (List.getElem?_eq_some_iff.1 m1.2).1, m1.2] at hww
    injection (Option.some.inj hww) with hww
    rw [← hww, m2]
  · rw [← List.map_append]; exact c4

/-- **C94** under concurrent requests: let the first observation of the key value have been acknowledged before the others were posted, and the key value be alone in its home slot, with no
NaN. Then, whatever else is handled at the same time, in any interleaving, of two queries for max (min), the second received after the first was answered, the second is answered
with a number that is not less (not more) than the first. -/
theorem C94_concurrent_partial (env : Env) (hld : ParsesDoubles env.lib) (confs : List Conf) (s : Nat) (sch : Schema) (l : Nat) (hs : confs[s]? = some ⟨compile sch, l⟩)
    (hv : ValidSchema sch) (hn : GoodName sch.name) (hl : 0 < l)
    (hfirst : ∀ s' c', s' < s → confs[s']? = some c' → c'.coll.name ≠ sch.name)
    (σ₁ σ₀ σ σ₂ : ServerConc.State) (hr₁ : ServerConc.Steps env confs ServerConc.init σ₁) (hr₀ : ServerConc.Steps env confs σ₁ σ₀)
    (hsteps : ServerConc.Steps env confs σ₀ σ) (hlater : ServerConc.Steps env confs σ σ₂) (hun : Unwrapped σ)
    (steps : List Step) (hreq : σ.reqs = steps.map Step.request)
    (hcorr : ∀ st ∈ steps, st.Correct) (hall : ∀ j ls, steps[j]? = some (.posted ls) → Acked σ₂ j)
    (j₁ j₂ : Nat) (hj₁ : σ₁.reqs.length ≤ j₁) (hj₂ : σ₀.reqs.length ≤ j₂) (text₁ text₂ : Bytes)
    (hask₁ : steps[j₁]? = some (.other (askFor sch.name text₁))) (hask₂ : steps[j₂]? = some (.other (askFor sch.name text₂)))
    (f : Bytes) (m : Measure) (hm : m = .max ∨ m = .min) (hd : Declares sch f m) (crit : List FV)
    (hq₁ : Query.roughParse env.ord text₁ = .ok ⟨[⟨f, [m.name]⟩], crit⟩) (hq₂ : Query.roughParse env.ord text₂ = .ok ⟨[⟨f, [m.name]⟩], crit⟩)
    (k : U64) (hk : keyValue crit sch.keys = some k) (h0 : k ≠ 0)
    (happ : ∀ fs ∈ observations steps, keyValue fs sch.keys = some k → AgreeOn sch.keys fs crit)
    (o₁ : Nat × Nat) (fs₁ : List FV) (ho₁ : obsAt steps o₁ = some fs₁) (hag₁ : AgreeOn sch.keys fs₁ crit) (hack₁ : Acked σ₁ o₁.1)
    (honly : ∀ o fs, obsAt steps o = some fs → AgreeOn sch.keys fs crit → o ≠ o₁ → σ₁.reqs.length ≤ o.1)
    (halone : ∀ fs ∈ observations steps, ∀ k', keyValue fs sch.keys = some k' → k' ≠ k → k.toNat % l ∉ candidates l k')
    (hlow : (compile sch).size.toNat ≤ k.toNat % l)
    (hnan : ∀ x ∈ numbersIn env.lib f ((observations steps).filter fun fs => AgreeOn sch.keys fs crit), x ≠ .nan)
    (rep₁ rep₂ : Reply) (hrep₁ : (j₁, rep₁) ∈ σ₀.replies) (hrep₂ : (j₂, rep₂) ∈ σ.replies) :
    ∃ x y, rep₁ = .ok (echo crit ++ measureLine env m.name f x) ∧ rep₂ = .ok (echo crit ++ measureLine env m.name f y) ∧
      (m = .max → F64.le x y = true) ∧ (m = .min → F64.le y x = true) := by
  obtain ⟨r, rest, more, buf₁, buf₂, _, g2, _, g3, g4, g5, g6⟩ := rising_server env confs s sch l hs hv hn hl hfirst σ₁ σ₁ σ₀ σ σ₂ hr₁ (.refl _) hr₀ hsteps hlater hun steps hreq hcorr hall
    j₁ j₂ hj₁ hj₂ text₁ text₂ hask₁ hask₂ _ _ crit hq₁ hq₂ k hk h0 happ o₁ fs₁ ho₁ hag₁ hack₁ honly halone hlow rep₁ rep₂ hrep₁ hrep₂
  obtain ⟨x, y, x1, y1, hle⟩ := extreme_grows env.lib hld sch hv f r r rest (rest ++ more) buf₁ buf₂ rfl (more.map Row.data) (List.map_append ..) g3 g4 (by
    intro x hx
    refine hnan x ?_
    unfold numbersIn at hx ⊢
    obtain ⟨fv, h1, h2⟩ := List.mem_filterMap.1 hx
    obtain ⟨fs, h3, h4⟩ := List.mem_flatten.1 h1
    obtain ⟨r', h5, rfl⟩ := List.mem_map.1 h3
    exact List.mem_filterMap.2 ⟨fv, List.mem_flatten.2 ⟨_, g2 r' h5, h4⟩, h2⟩) m hm hd
  unfold ask at x1 y1
  rw [x1] at g5
  rw [y1] at g6
  exact ⟨x, y, g5.trans (congrArg Reply.ok (render_one env _ _ _ _)), g6.trans (congrArg Reply.ok (render_one env _ _ _ _)), hle⟩

end Starbow.Props
