import Verif.Props.ServerConc
/-
Property C73: sum, mean and variance reported by the whole server under concurrent requests.
-/
namespace Starbow.Props
open Starbow.Collation Starbow.Spec Starbow.Storage Starbow.Server Starbow.ServerConc Starbow.BufmapConc Starbow.Cell

section
variable {env : Env} {confs : List Conf}

/-- a step of the server is at most one step of each store -/
theorem step_store_one {σ σ' : ServerConc.State} (h : ServerConc.Step env confs σ σ') {s : Nat} {c : Conf} (hc : confs[s]? = some c) :
    σ'.stores s = σ.stores s ∨ StoreConc.Step env.lib c.coll c.slots (σ.stores s) (σ'.stores s) := by
  cases h with
  | receive t req h => left; unfold State.receive; simp only; split <;> rfl
  | finish t j p e h => exact .inl rfl
  | cancelLine t j p line ls e h hc => exact .inl rfl
  | parse t j p line ls e h => left; unfold State.parse; split <;> rfl
  | stored t j p ls e r h => exact .inl rfl
  | skip t j p ls e r s c h hs hk => exact .inl rfl
  | cancelWrite t j p ls e r s c k h hs hk hc => exact .inl rfl
  | write t j p ls e r s' c' k fn h hs hi hk hf =>
    unfold State.enter; simp only
    by_cases e : s = s'
    · subst e
      rw [hc] at hs
      obtain rfl := Option.some.inj hs
      rw [upd_same]
      exact .inr (.write _ t r k fn hi hk hf)
    · exact .inl (upd_other _ _ e)
  | wrote t j p ls e r s i ret err h hr he => left; split <;> rfl
  | noKey t j q s c h hs hk => exact .inl rfl
  | noBuffer t j q s c k h hs hk hn => exact .inl rfl
  | read t j q s' c' k h hs hi hk hn =>
    unfold State.enter; simp only
    by_cases e : s = s'
    · subst e
      rw [hc] at hs
      obtain rfl := Option.some.inj hs
      rw [upd_same]
      exact .inr (.read _ t q k hi hk)
    · exact .inl (upd_other _ _ e)
  | answer t j q s i c ret out h hs hr ho => exact .inl rfl
  | inside t s' c' m' hs h =>
    by_cases e : s = s'
    · subst e
      rw [hc] at hs
      obtain rfl := Option.some.inj hs
      simp only; rw [upd_same]
      exact .inr (.step _ t m' h)
    · exact .inl (upd_other _ _ e)

/-- the moment a Read returned -/
theorem server_returned {σ₀ σ : ServerConc.State} (hs : ServerConc.Steps env confs σ₀ σ) {s : Nat} {c : Conf} (hc : confs[s]? = some c)
    {i : Nat} {f : Bool} {buf : Bytes} {d : Nat} (hb : (i, Ret.got f buf d) ∈ (σ.stores s).m.rets)
    (ha : (i, Ret.got f buf d) ∉ (σ₀.stores s).m.rets) :
    ∃ τ τ', ServerConc.Steps env confs σ₀ τ ∧ ServerConc.Step env confs τ τ' ∧ ServerConc.Steps env confs τ' σ ∧
      StoreConc.Step env.lib c.coll c.slots (τ.stores s) (τ'.stores s) ∧
      (τ'.stores s).m.rets = (τ.stores s).m.rets ++ [(i, .got f buf d)] ∧ (τ'.stores s).calls = (τ.stores s).calls := by
  induction hs with
  | refl => exact absurd hb ha
  | @tail x y h0 h1 ih =>
    by_cases hx : (i, Ret.got f buf d) ∈ (x.stores s).m.rets
    · obtain ⟨τ, τ', e1, e2, e3, e4⟩ := ih hx
      exact ⟨τ, τ', e1, e2, .tail e3 h1, e4⟩
    · rcases step_store_one h1 hc with e | hst
      · rw [e] at hb; exact absurd hb hx
      · obtain ⟨_, _, _, _, _, _, _⟩ := store_returned (.tail (.refl _) hst) hb hx
        refine ⟨x, y, h0, h1, .refl _, hst, ?_⟩
        generalize x.stores s = a at *
        generalize y.stores s = b at *
        cases hst with
        | write t r k fn hi hk hf =>
          exfalso
          unfold BufmapConc.call at hb
          simp only at hb
          split at hb
          · simp only [List.mem_append, List.mem_singleton, Prod.mk.injEq] at hb
            rcases hb with hb | ⟨_, hb⟩
            · exact hx hb
            · simp at hb
          · exact hx hb
        | read t q k hi hk => exact absurd hb hx
        | step t m' h =>
          refine ⟨?_, rfl⟩
          rcases StoreConc.step_rets h with e | ⟨r', e⟩
          · simp only at hb; rw [e] at hb; exact absurd hb hx
          · simp only at hb ⊢
            rw [e] at hb ⊢
            rw [List.mem_append, List.mem_singleton] at hb
            rw [hb.resolve_left hx]

/-- the moment a Write was called: the earlier lines of its request were done -/
theorem call_moment {σ : ServerConc.State} (hs : ServerConc.Steps env confs ServerConc.init σ) {s i j p : Nat} {r : Row}
    (hm : ServerConc.Made σ s i j p r) : ∃ τ, ServerConc.Steps env confs ServerConc.init τ ∧ ServerConc.Steps env confs τ σ ∧
      (τ.stores s).calls.length = i ∧ ∀ p' < p, ∀ s' < confs.length, Done env confs τ j p' s' := by
  induction hs with
  | refl => simp [ServerConc.Made, ServerConc.init, StoreConc.init] at hm
  | @tail x y h0 h1 ih =>
    by_cases hlt : i < (x.stores s).calls.length
    · have hx := ext_step h1
      have hI := ServerConc.inv_reach h0
      have hm' : ServerConc.Made x s i j p r := by
        obtain ⟨c, hcc⟩ : ∃ c, (x.stores s).calls[i]? = some c := ⟨_, List.getElem?_eq_getElem hlt⟩
        obtain ⟨o, hoo⟩ : ∃ o, (x.origin s)[i]? = some o := ⟨_, List.getElem?_eq_getElem (by rw [hI.len]; exact hlt)⟩
        refine ⟨?_, ?_⟩
        · have := prefix_get (hx.origin s) hoo
          rw [hm.1] at this
          rw [hoo, this]
        · have := prefix_get (hx.calls s) hcc
          rw [hm.2] at this
          rw [hcc, this]
      obtain ⟨τ, e1, e2, e3⟩ := ih hm'
      exact ⟨τ, e1, .tail e2 h1, e3⟩
    · have hI := ServerConc.inv_reach h0
      have same : y.stores s = x.stores s ∨ (∃ m, y.stores s = ⟨m, (x.stores s).calls⟩) → False := by
        intro e
        have := (List.getElem?_eq_some_iff.1 hm.2).1
        rcases e with e | ⟨m, e⟩ <;> rw [e] at this <;> change i < (x.stores s).calls.length at this <;> omega
      cases h1 with
      | receive t req h => exact (same (.inl (by unfold State.receive; simp only; split <;> rfl))).elim
      | finish t j p e h => exact (same (.inl rfl)).elim
      | cancelLine t j p line ls e h hc => exact (same (.inl rfl)).elim
      | parse t j p line ls e h => exact (same (.inl (by unfold State.parse; split <;> rfl))).elim
      | stored t j p ls e r h => exact (same (.inl rfl)).elim
      | skip t j p ls e r s c h hs hk => exact (same (.inl rfl)).elim
      | cancelWrite t j p ls e r s c k h hs hk hc => exact (same (.inl rfl)).elim
      | write t j' p' ls e r' s' c' k fn h hs hi hk hf =>
        by_cases es : s = s'
        · subst es
          have hst := hm.2
          have hor := hm.1
          unfold State.enter at hst hor
          simp only [upd_same] at hst hor
          have hi' : i = (x.stores s).calls.length := by
            have := (List.getElem?_eq_some_iff.1 hst).1
            simp only [List.length_append, List.length_singleton] at this
            omega
          rw [List.getElem?_append_right (by rw [hI.len]; omega), hi', hI.len] at hor
          simp only [Nat.sub_self, List.getElem?_cons_zero, Option.some.injEq, Prod.mk.injEq] at hor
          obtain ⟨rfl, rfl⟩ := hor
          have hp := hI.pcs t
          rw [h] at hp
          obtain ⟨req, all, line, _, _, _, _, _, hd, _⟩ := hp
          exact ⟨x, h0, .tail (.refl _) (.write x t j' p' ls e r' s c' k fn h hs hi hk hf), hi'.symm, hd⟩
        · exact (same (.inl (by unfold State.enter; exact upd_other _ _ es))).elim
      | wrote t j p ls e r s i ret err h hr he => exact (same (.inl (by split <;> rfl))).elim
      | noKey t j q s c h hs hk => exact (same (.inl rfl)).elim
      | noBuffer t j q s c k h hs hk hn => exact (same (.inl rfl)).elim
      | read t j' q s' c' k h hs hi hk hn =>
        by_cases es : s = s'
        · subst es
          exfalso
          have hst := hm.2
          unfold State.enter at hst
          simp only [upd_same] at hst
          have hi' : i = (x.stores s).calls.length := by
            have := (List.getElem?_eq_some_iff.1 hst).1
            simp only [List.length_append, List.length_singleton] at this
            omega
          rw [List.getElem?_append_right (by omega), hi'] at hst
          simp at hst
        · exact (same (.inl (by unfold State.enter; exact upd_other _ _ es))).elim
      | answer t j q s i c ret out h hs hr ho => exact (same (.inl rfl)).elim
      | inside t s' c' m' hs h =>
        by_cases es : s = s'
        · subst es
          exact (same (.inr ⟨m', by simp only [upd_same]⟩)).elim
        · exact (same (.inl (upd_other _ _ es))).elim

end


/-- what the running statistics (C17 to C21, C53, C54) report after the numbers, in this order -/
def statOf : Measure → List F64 → F64
  | .sum, xs => xs.foldl F64.add (.fin false 0)
  | .mean, xs => (after xs).mean
  | .variance, xs => (after xs).variance.getD .nan
  | _, _ => .nan

theorem sublist_pair {α : Type} {a b : List α} {x y : α} (hx : x ∈ a) (hy : y ∈ b) : [x, y].Sublist (a ++ b) :=
  (List.singleton_sublist.2 hx).append (List.singleton_sublist.2 hy)

theorem render_one (env : Env) (crit : List FV) (f n : Bytes) (x : F64) :
    render env crit [⟨f, n, x⟩] = echo crit ++ measureLine env n f x := by
  unfold render echo measureLine fmvString
  rw [show asc "=" = [0x3d] by decide +kernel, show asc "\n" = [0x0a] by decide +kernel]
  simp

theorem obsAt_of {steps : List Step} {j p : Nat} {st : Step} (h : steps[j]? = some st) : obsAt steps (j, p) = st.posts[p]? := by
  unfold obsAt; simp only; rw [h]; rfl

theorem numbers_rows {lib : Lib} {f : Bytes} (ws : List Served) :
    numbersOf lib f (ws.map Served.row) = numbersIn lib f (ws.map fun w => w.row.data) := by
  unfold numbersOf numbersIn valuesOf
  rw [List.flatMap_map, List.filterMap_filterMap, ← List.flatMap_def]
  congr 1
  funext fv
  split <;> rfl

/-- what an observation's write is -/
theorem post_of_write {env : Env} {confs : List Conf} {s : Nat} {σ τ : ServerConc.State} {steps : List Step} (hreq : σ.reqs = steps.map Step.request)
    (hcorr : ∀ st ∈ steps, st.Correct) (hxτ : Ext τ σ) (hIτ : ServerConc.Inv env confs τ) {i : Nat} {r : Row}
    (hc : (τ.stores s).calls[i]? = some (.write r)) :
    ∃ o, (τ.origin s)[i]? = some o ∧ obsAt steps o = some r.data ∧ ∃ ls, steps[o.1]? = some (.posted ls) := by
  obtain ⟨j', p, ho, hline⟩ := hIτ.made s i r hc
  have hline := hxτ.lineIs hline
  refine ⟨_, ho, ?_⟩
  have hline' := hline
  obtain ⟨req, all, e, line, l1, l2, _⟩ := hline'
  have l1' := l1
  rw [hreq, List.getElem?_map, Option.map_eq_some_iff] at l1'
  obtain ⟨st, hst, rfl⟩ := l1'
  have hcor := hcorr st (List.mem_of_getElem? hst)
  cases st with
  | other req => exact absurd (task_observe l2) hcor
  | posted ls => exact ⟨by rw [obsAt_of hst]; exact lineIs_post hcor l1 hline, ls, hst⟩

theorem obsAt_posted {steps : List Step} {o : Nat × Nat} {fs : List FV} (h : obsAt steps o = some fs) :
    ∃ ls, steps[o.1]? = some (.posted ls) ∧ (ls.map Line.fs)[o.2]? = some fs ∧ fs ∈ observations steps := by
  unfold obsAt at h
  rw [Option.bind_eq_some_iff] at h
  obtain ⟨st, h1, h2⟩ := h
  have hmem : fs ∈ observations steps := by
    rw [observations_flatMap, List.mem_flatMap]
    exact ⟨(st, o.1), List.mem_zipIdx_iff_getElem?.2 h1, List.mem_of_getElem? h2⟩
  cases st with
  | other req => simp [Step.posts] at h2
  | posted ls => exact ⟨ls, h1, h2, hmem⟩

/-- an acknowledged observation was written -/
theorem acked_made {env : Env} {confs : List Conf} {s : Nat} {sch : Schema} {l : Nat} (hs : confs[s]? = some ⟨compile sch, l⟩)
    {σ τ : ServerConc.State} {steps : List Step} (hreq : σ.reqs = steps.map Step.request) (hcorr : ∀ st ∈ steps, st.Correct)
    {crit : List FV} {k : U64} (hk : keyValue crit sch.keys = some k)
    (hIτ : ServerConc.Inv env confs τ) (hpre : τ.reqs <+: σ.reqs ∨ σ.reqs <+: τ.reqs) {o : Nat × Nat} {fs : List FV}
    (ho : obsAt steps o = some fs) (hag : AgreeOn sch.keys fs crit) (hack : Acked τ o.1) :
    ∃ i r, ServerConc.Made τ s i o.1 o.2 r ∧ r.data = fs ∧ (i, Ret.ran none) ∈ (τ.stores s).m.rets := by
  obtain ⟨ls, h1, h2, _⟩ := obsAt_posted ho
  have hls : ∀ l ∈ ls, l.Correct := hcorr _ (List.mem_of_getElem? h1)
  have hrepo := hIτ.replies o.1 _ hack
  obtain ⟨req, hj1⟩ := hrepo.req
  have hj' : τ.reqs[o.1]? = some (Step.posted ls).request := by
    have hh : σ.reqs[o.1]? = some (Step.posted ls).request := by rw [hreq, List.getElem?_map, h1]; rfl
    rcases hpre with hpre | hpre
    · have := prefix_get hpre hj1
      rw [hh] at this
      rw [hj1, this]
    · exact prefix_get hpre hh
  have hp : o.2 < ls.length := by
    have := (List.getElem?_eq_some_iff.1 h2).1
    simpa using this
  obtain ⟨_, hdn⟩ := hrepo.obs _ _ _ [] hj' (task_post env confs ls hls) rfl rfl
  obtain ⟨r, c', hline, hs', hkk⟩ := hdn o.2 (by simpa using hp) s (List.getElem?_eq_some_iff.1 hs).1
  rw [hs] at hs'
  obtain rfl := Option.some.inj hs'
  have hfs := lineIs_post hls hj' hline
  rw [h2] at hfs
  have hfs := Option.some.inj hfs
  subst hfs
  have hkv := C28_key sch.keys _ _ hag
  rw [hk] at hkv
  rcases hkk with hkk | ⟨i, hmade, hran⟩
  · simp only [compile_keys] at hkk
    rw [hkv] at hkk
    simp at hkk
  · exact ⟨i, r, hmade, rfl, hran⟩

/-- What lies behind an answer to a query under concurrent requests: either the key has no record, and then nothing of it was acknowledged at `σ₀`; or the
answer was made of the record a Read in the store returned at a moment between `σ₀` and `σ`, and the serial orders of the Writes of the key in the
store are orders of the posted observations. -/
theorem served_any (env : Env) (confs : List Conf) (s : Nat) (sch : Schema) (l : Nat) (hs : confs[s]? = some ⟨compile sch, l⟩)
    (hv : ValidSchema sch) (hn : GoodName sch.name) (hl : 0 < l)
    (hfirst : ∀ s' c', s' < s → confs[s']? = some c' → c'.coll.name ≠ sch.name)
    (σ₀ σ σ₂ : ServerConc.State) (hr : ServerConc.Steps env confs ServerConc.init σ₀) (hsteps : ServerConc.Steps env confs σ₀ σ)
    (hlater : ServerConc.Steps env confs σ σ₂) (steps : List Step) (hreq : σ.reqs = steps.map Step.request)
    (hcorr : ∀ st ∈ steps, st.Correct) (hall : ∀ j ls, steps[j]? = some (.posted ls) → Acked σ₂ j)
    (j : Nat) (hj : σ₀.reqs.length ≤ j) (text : Bytes) (hask : steps[j]? = some (.other (askFor sch.name text)))
    (sel : List FM) (crit : List FV) (hq : Query.roughParse env.ord text = .ok ⟨sel, crit⟩)
    (k : U64) (hk : keyValue crit sch.keys = some k) (h0 : k ≠ 0)
    (happ : ∀ fs ∈ observations steps, keyValue fs sch.keys = some k → AgreeOn sch.keys fs crit) (rep : Reply) (hrep : (j, rep) ∈ σ.replies) :
    (rep = .ok (echo crit) ∧ ((acknowledged steps σ₀).filter fun fs => AgreeOn sch.keys fs crit) = []) ∨
    ∃ (τ τ' : ServerConc.State) (i : Nat) (buf : Bytes) (d : Nat) (out : Out (List FMV × Option Err)),
      ServerConc.Steps env confs σ₀ τ ∧ ServerConc.Steps env confs τ σ ∧ ServerConc.Steps env confs τ' σ₂ ∧
      StoreConc.Step env.lib (compile sch) l (τ.stores s) (τ'.stores s) ∧
      (τ'.stores s).m.rets = (τ.stores s).m.rets ++ [(i, .got true buf d)] ∧ (i, Ret.got true buf d) ∈ (σ.stores s).m.rets ∧
      (τ.stores s).calls[i]? = some (.read ⟨sel, crit⟩) ∧
      (∀ i' ∈ startedWrites sch.keys k (τ.stores s), (i', Ret.ran none) ∈ (σ₂.stores s).m.rets) ∧
      StoreConc.readReply env.lib (compile sch) ⟨sel, crit⟩ (.got true buf d) = some out ∧ rep = queryReply env ⟨sel, crit⟩ out ∧
      ((observations steps).filter fun fs => AgreeOn sch.keys fs crit) ≠ [] ∧
      ∀ ws, SerialOrder env.lib (compile sch) l k (τ.stores s) ws → ∃ order,
        ServedOrder env confs steps (fun fs => AgreeOn sch.keys fs crit) σ₀ order ∧
        order.filterMap (obsAt steps) = ws.map fun w => w.row.data := by
  have hkeys : (compile sch).keys = sch.keys := compile_keys sch
  have hI₀ := ServerConc.inv_reach hr
  have hI := ServerConc.inv_reach (hr.trans hsteps)
  have hI₂ := ServerConc.inv_reach ((hr.trans hsteps).trans hlater)
  have hx := ext_steps hsteps
  have hx₂ := ext_steps hlater
  have hst₀ := steps_store hr hs
  have hst := steps_store hsteps hs
  have htask := task_ask env confs sch.name text hn _ hq s _ hs (compile_name sch) hfirst
  have hreqj : σ.reqs[j]? = some (askFor sch.name text) := by rw [hreq, List.getElem?_map, hask]; rfl
  obtain ⟨c, hs', hcases⟩ := (hI.replies j rep hrep).ask _ s _ hreqj htask
  rw [hs] at hs'
  obtain rfl := Option.some.inj hs'
  -- the query's calls come after σ₀
  have h0' : ∀ (i : Nat), (σ.origin s)[i]? = some (j, 0) → (σ₀.stores s).calls.length ≤ i := by
    intro i ho
    by_contra hlt
    rw [Nat.not_le, ← hI₀.len] at hlt
    obtain ⟨o, ho'⟩ : ∃ o, (σ₀.origin s)[i]? = some o := ⟨_, List.getElem?_eq_getElem hlt⟩
    have e := prefix_get (hx.origin s) ho'
    rw [ho] at e
    obtain rfl := Option.some.inj e
    have := hI₀.olt s _ (List.mem_of_getElem? ho')
    simp only at this
    omega
  have hpost : ∀ {τ : ServerConc.State}, Ext τ σ → ServerConc.Inv env confs τ → ∀ {i : Nat} {r : Row},
      (τ.stores s).calls[i]? = some (.write r) → ∃ o, (τ.origin s)[i]? = some o ∧ obsAt steps o = some r.data ∧
        ∃ ls, steps[o.1]? = some (.posted ls) := fun h1 h2 _ _ h3 => post_of_write hreq hcorr h1 h2 h3
  have hobs : ∀ o fs, obsAt steps o = some fs → ∃ ls, steps[o.1]? = some (.posted ls) ∧ (ls.map Line.fs)[o.2]? = some fs ∧ fs ∈ observations steps :=
    fun _ _ h => obsAt_posted h
  have hackd : ∀ {τ : ServerConc.State}, ServerConc.Inv env confs τ → (τ.reqs <+: σ.reqs ∨ σ.reqs <+: τ.reqs) → ∀ o fs, obsAt steps o = some fs →
      AgreeOn sch.keys fs crit → Acked τ o.1 → ∃ i r, ServerConc.Made τ s i o.1 o.2 r ∧ r.data = fs ∧ (i, Ret.ran none) ∈ (τ.stores s).m.rets :=
    fun h1 h2 _ _ h3 h4 h5 => acked_made hs hreq hcorr hk h1 h2 h3 h4 h5
  rcases hcases with ⟨hnk, _⟩ | ⟨hneg, _⟩ | ⟨i, ret, out, ho, hcall, hret, hout, rfl⟩
  · rw [show (compile sch).keys = sch.keys from hkeys] at hnk
    rw [show (⟨sel, crit⟩ : Query).criteria = crit from rfl, hk] at hnk
    simp at hnk
  · obtain ⟨L, D, pos, h, _⟩ := laid_compile sch hv
    have h1 := h.size
    have h2 := h.pos
    simp only at hneg h1 h2
    omega
  · cases ret with
    | ran _ => simp [StoreConc.readReply] at hout
    | invalidKey => simp [StoreConc.readReply] at hout
    | outOfSlots => simp [StoreConc.readReply] at hout
    | got fnd buf d =>
      cases fnd with
      | false =>
        left
        have hout := Option.some.inj hout
        subst hout
        refine ⟨?_, ?_⟩
        · show queryReply env _ (.val ([], none)) = _
          unfold queryReply
          exact congrArg Reply.ok (render_none env crit)
        · by_contra hne
          obtain ⟨fs, hfs⟩ := List.exists_mem_of_ne_nil _ hne
          obtain ⟨hfs1, hfs2⟩ := List.mem_filter.1 hfs
          unfold acknowledged at hfs1
          obtain ⟨⟨st, j'⟩, hx1, hx2⟩ := List.mem_flatMap.1 hfs1
          obtain ⟨hx1, hx3⟩ := List.mem_filter.1 hx1
          obtain ⟨p, hp⟩ := List.mem_iff_getElem?.1 hx2
          rw [List.mem_zipIdx_iff_getElem?] at hx1
          obtain ⟨i', r, hmade, hrd, hran⟩ := hackd hI₀ (.inl hx.reqs) (j', p) fs (by rw [obsAt_of hx1]; exact hp) (by simpa using hfs2) (by simpa using hx3)
          have hdone : i' ∈ doneWrites (compile sch).keys k (σ₀.stores s) := by
            refine StoreConc.mem_done.2 ⟨r, none, ⟨hmade.2, ?_⟩, hran⟩
            rw [hkeys, hrd, C28_key sch.keys _ _ (by simpa using hfs2), hk]
          obtain ⟨buf', d', e⟩ := C64_found env.lib (compile sch) l hl (σ₀.stores s) (σ.stores s) hst₀ hst k h0 (List.ne_nil_of_mem hdone) i
            (h0' i ho) _ hcall (by rw [hkeys]; exact hk) _ hret
          simp at e
      | true =>
        right
        have hnot : (i, Ret.got true buf d) ∉ (σ₀.stores s).m.rets := by
          intro hmem
          have hlt := (BufmapConc.inv_reach hl (StoreConc.steps_m hst₀)).ids.dlt i (List.mem_map.2 ⟨_, hmem, rfl⟩)
          rw [← (StoreConc.callsOk_steps (StoreConc.callsOk_init env.lib (compile sch)) hst₀).len] at hlt
          have := h0' i ho
          omega
        obtain ⟨τ, τ', e1, e2, e5, hstep, e3, e4⟩ := server_returned hsteps hs hret hnot
        have hτ := hr.trans e1
        have hIτ := ServerConc.inv_reach hτ
        have hτσ : ServerConc.Steps env confs τ σ := (ServerConc.Steps.tail (.refl τ) e2).trans e5
        have hxτ := ext_steps hτσ
        have hsτ := steps_store hτ hs
        have hsτσ := steps_store hτσ hs
        have hiτ : i < (τ.stores s).calls.length := by
          have hr' : StoreConc.Steps env.lib (compile sch) l StoreConc.init (τ'.stores s) := .tail hsτ hstep
          have := (BufmapConc.inv_reach hl (StoreConc.steps_m hr')).ids.dlt i (List.mem_map.2 ⟨(i, .got true buf d), by rw [e3]; simp, rfl⟩)
          rw [← (StoreConc.callsOk_steps (StoreConc.callsOk_init env.lib (compile sch)) hr').len, e4] at this
          exact this
        have hqτ : (τ.stores s).calls[i]? = some (.read ⟨sel, crit⟩) := by
          obtain ⟨more, hmo⟩ := StoreConc.calls_grow hsτσ
          rw [hmo, List.getElem?_append_left hiτ] at hcall
          exact hcall
        -- all writes so far are accepted in the end
        have hacc : ∀ i' ∈ startedWrites sch.keys k (τ.stores s), (i', Ret.ran none) ∈ (σ₂.stores s).m.rets := by
          intro i' hi'
          obtain ⟨r, hw⟩ := StoreConc.mem_started.1 hi'
          obtain ⟨o, ho1, ho2, ls, ho3⟩ := hpost hxτ hIτ hw.1
          obtain ⟨_, _, _, hmem⟩ := hobs o _ ho2
          obtain ⟨i'', r', hmade, _, hran⟩ := hackd hI₂ (.inr hx₂.reqs) o _ ho2 (happ _ hmem hw.2) (hall _ _ ho3)
          have hx3 := hxτ.trans hx₂
          have := hI₂.once s i' i'' o.1 o.2 r r' (hx3.made ⟨ho1, hw.1⟩) hmade
          rw [this]; exact hran
        have hne : ((observations steps).filter fun fs => AgreeOn sch.keys fs crit) ≠ [] := by
          have hcτ := StoreConc.callsOk_steps (StoreConc.callsOk_init env.lib (compile sch)) hsτ
          obtain ⟨i', fn, hup⟩ := C40_bufmap_conc_partial l _ hl (τ.stores s).m (τ'.stores s).m (StoreConc.steps_m hsτ) (StoreConc.step_m hstep) i k h0 _
            buf d (hcτ.read hqτ (by rw [hkeys]; exact hk)) e3
          obtain ⟨r, hw1, hw2, _⟩ := hcτ.ok i' _ hup
          rw [hkeys] at hw2
          obtain ⟨o, _, ho2, _⟩ := hpost hxτ hIτ hw1
          obtain ⟨_, _, _, hmem⟩ := hobs o _ ho2
          exact List.ne_nil_of_mem (List.mem_filter.2 ⟨hmem, by simpa using happ _ hmem hw2⟩)
        refine ⟨τ, τ', i, buf, d, out, e1, hτσ, e5.trans hlater, hstep, e3, hret, hqτ, hacc, hout, rfl, hne, ?_⟩
        intro ws hord
        have hgw : ∀ w ∈ ws, ∃ o, (τ.origin s)[w.id]? = some o ∧ obsAt steps o = some w.row.data := by
          intro w hw
          obtain ⟨o, h1, h2, _⟩ := hpost hxτ hIτ (hord.writes w hw).1
          exact ⟨o, h1, h2⟩
        have hdata : (ws.filterMap fun w => (τ.origin s)[w.id]?).filterMap (obsAt steps) = ws.map fun w => w.row.data := by
          rw [List.filterMap_filterMap]
          clear hord
          induction ws with
          | nil => rfl
          | cons w ws ih =>
            obtain ⟨o, h1, h2⟩ := hgw w (by simp)
            rw [List.filterMap_cons, h1, Option.bind_some, h2]
            simp only [List.map_cons]
            rw [ih fun w' hw' => hgw w' (by simp [hw'])]
        -- the writes in a prefix of the order
        have hbefore : ∀ (σ₁ : ServerConc.State), ServerConc.Steps env confs ServerConc.init σ₁ → ServerConc.Steps env confs σ₁ τ →
            ∀ i₁ r₁ o₁ o', ServerConc.Made σ₁ s i₁ o₁.1 o₁.2 r₁ → keyValue r₁.data sch.keys = some k → (i₁, Ret.ran none) ∈ (σ₁.stores s).m.rets →
            (∀ i r, ¬ ServerConc.Made σ₁ s i o'.1 o'.2 r) → o' ∈ ws.filterMap (fun w => (τ.origin s)[w.id]?) →
            [o₁, o'].Sublist (ws.filterMap fun w => (τ.origin s)[w.id]?) := by
          intro σ₁ h1 h2 i₁ r₁ o₁ o' hm₁ hk₁ hran hno ho'
          have hx1 := ext_steps h2
          obtain ⟨a, b, hab, ha1, ha2⟩ := hord.time _ (steps_store h1 hs) (steps_store h2 hs)
          have hia := ha1 i₁ (StoreConc.mem_done.2 ⟨r₁, none, ⟨hm₁.2, by rw [hkeys]; exact hk₁⟩, hran⟩)
          obtain ⟨w₁, hw₁, hid⟩ := List.mem_map.1 hia
          rw [hab, List.filterMap_append] at ho' ⊢
          refine sublist_pair (List.mem_filterMap.2 ⟨w₁, hw₁, ?_⟩) ?_
          · rw [hid]; exact prefix_get (hx1.origin s) hm₁.1
          · rcases List.mem_append.1 ho' with ho' | ho'
            · exfalso
              obtain ⟨w, hw, hwo⟩ := List.mem_filterMap.1 ho'
              obtain ⟨r, hwr⟩ := StoreConc.mem_started.1 (ha2 w hw)
              have hlt := (List.getElem?_eq_some_iff.1 hwr.1).1
              rw [← (ServerConc.inv_reach h1).len] at hlt
              have e := prefix_get (hx1.origin s) (List.getElem?_eq_getElem hlt)
              rw [hwo] at e
              refine hno w.id r ⟨?_, hwr.1⟩
              rw [List.getElem?_eq_getElem hlt, ← e]
            · exact ho'
        have hmem₀ : ∀ (σ₁ : ServerConc.State), ServerConc.Steps env confs ServerConc.init σ₁ → ServerConc.Steps env confs σ₁ τ →
            ∀ i₁ r₁ o₁, ServerConc.Made σ₁ s i₁ o₁.1 o₁.2 r₁ → keyValue r₁.data sch.keys = some k → (i₁, Ret.ran none) ∈ (σ₁.stores s).m.rets →
            o₁ ∈ ws.filterMap (fun w => (τ.origin s)[w.id]?) := by
          intro σ₁ h1 h2 i₁ r₁ o₁ hm₁ hk₁ hran
          obtain ⟨a, b, hab, ha1, _⟩ := hord.time _ (steps_store h1 hs) (steps_store h2 hs)
          have hia := ha1 i₁ (StoreConc.mem_done.2 ⟨r₁, none, ⟨hm₁.2, by rw [hkeys]; exact hk₁⟩, hran⟩)
          obtain ⟨w₁, hw₁, hid⟩ := List.mem_map.1 hia
          refine List.mem_filterMap.2 ⟨w₁, by rw [hab]; exact List.mem_append_left _ hw₁, ?_⟩
          rw [hid]; exact prefix_get ((ext_steps h2).origin s) hm₁.1
        have hkind : ∀ fs, AgreeOn sch.keys fs crit → keyValue fs sch.keys = some k := fun fs h => by rw [C28_key sch.keys _ _ h, hk]
        refine ⟨ws.filterMap fun w => (τ.origin s)[w.id]?, ⟨?_, ?_, ?_, ?_, ?_⟩, hdata⟩
        · -- none twice
          have hnd := hord.once
          have hinj : ∀ w ∈ ws, ∀ w' ∈ ws, (τ.origin s)[w.id]? = (τ.origin s)[w'.id]? → w.id = w'.id := by
            intro w hw w' hw' e
            obtain ⟨o, h1, _⟩ := hgw w hw
            exact hIτ.once s _ _ o.1 o.2 _ _ ⟨h1, (hord.writes w hw).1⟩ ⟨by rw [← e]; exact h1, (hord.writes w' hw').1⟩
          have key : (ws.map fun w => (τ.origin s)[w.id]?).Nodup := by
            rw [List.Nodup, List.pairwise_map] at hnd ⊢
            refine (hnd.and (List.pairwise_of_forall_mem_list fun w hw w' hw' => hinj w hw w' hw')).imp ?_
            rintro w w' ⟨h1, h2⟩ e
            exact h1 (h2 e)
          have e : (ws.filterMap fun w => (τ.origin s)[w.id]?).map some = ws.map fun w => (τ.origin s)[w.id]? := by
            clear hord hdata hbefore hmem₀ hnd hinj key
            induction ws with
            | nil => rfl
            | cons w ws ih =>
              obtain ⟨o, h1, _⟩ := hgw w (by simp)
              rw [List.filterMap_cons, h1]
              simp only [List.map_cons]
              rw [ih fun w' hw' => hgw w' (by simp [hw']), h1]
          rw [← e] at key
          exact List.Nodup.of_map _ key
        · intro o ho
          obtain ⟨w, hw, hwo⟩ := List.mem_filterMap.1 ho
          obtain ⟨o', h1, h2⟩ := hgw w hw
          rw [hwo] at h1
          obtain rfl := Option.some.inj h1
          obtain ⟨_, _, _, hmem⟩ := hobs _ _ h2
          exact ⟨_, h2, happ _ hmem (by rw [← hkeys]; exact (hord.writes w hw).2)⟩
        · intro o fs h1 h2 h3
          obtain ⟨i', r, hmade, hrd, hran⟩ := hackd hI₀ (.inl hx.reqs) o fs h1 h2 h3
          exact hmem₀ σ₀ hr e1 i' r o hmade (by rw [hrd]; exact hkind _ h2) hran
        · intro j' p p' fs h1 h2 hp ho'
          obtain ⟨w, hw, hwo⟩ := List.mem_filterMap.1 ho'
          obtain ⟨σ₁, g1, g2, g3, g4⟩ := call_moment hτ ⟨hwo, (hord.writes w hw).1⟩
          obtain ⟨r, c', hline, hs', hkk⟩ := g4 p hp s (List.getElem?_eq_some_iff.1 hs).1
          rw [hs] at hs'
          obtain rfl := Option.some.inj hs'
          obtain ⟨ls, q1, q2, _⟩ := hobs _ _ h1
          have hls : ∀ l ∈ ls, l.Correct := hcorr _ (List.mem_of_getElem? q1)
          have hline := ((ext_steps g2).trans hxτ).lineIs hline
          have hfs := lineIs_post hls (by rw [hreq, List.getElem?_map, q1]; rfl) hline
          rw [q2] at hfs
          have hfs := Option.some.inj hfs
          have hkv : keyValue r.data sch.keys = some k := by rw [← hfs]; exact hkind _ h2
          rcases hkk with hkk | ⟨i₁, hmade, hran⟩
          · simp only [hkeys] at hkk
            rw [hkv] at hkk
            simp at hkk
          · refine hbefore σ₁ g1 g2 i₁ r (j', p) (j', p') hmade hkv hran ?_ ho'
            intro i₂ r₂ hm₂
            have hm3 := (ext_steps g2).made hm₂
            have := hIτ.once s _ _ _ _ _ _ hm3 ⟨hwo, (hord.writes w hw).1⟩
            have hlt := (List.getElem?_eq_some_iff.1 hm₂.2).1
            omega
        · intro σ₁ g1 g2 o ho o' ho' hack hlate
          obtain ⟨w, hw, hwo⟩ := List.mem_filterMap.1 ho
          obtain ⟨o₂, q1, q2⟩ := hgw w hw
          rw [hwo] at q1
          obtain rfl := Option.some.inj q1
          obtain ⟨_, _, _, hmem⟩ := hobs _ _ q2
          have hag := happ _ hmem (by rw [← hkeys]; exact (hord.writes w hw).2)
          have hI₁ := ServerConc.inv_reach g1
          obtain ⟨i', r, hmade, hrd, hran⟩ := hackd hI₁ (.inl ((ext_steps g2).trans hx).reqs) o _ q2 hag hack
          refine hbefore σ₁ g1 (g2.trans e1) i' r o o' hmade (by rw [hrd]; exact hkind _ hag) hran ?_ ho'
          intro i₂ r₂ hm₂
          have := hI₁.olt s _ (List.mem_of_getElem? hm₂.1)
          simp only at this
          omega

/-- **C73**: the statistics the whole server reports under concurrent requests, partial. Let clients post correctly written observations and
make any other requests, handled by any number of goroutines in any interleaving, and let all posts received by the moment `σ` be
acknowledged in the end (`σ₂`). Let a query for sum, mean or var of a field be received after the moment `σ₀` and be answered by the moment `σ`. Then
it is answered with the criteria and that statistic of the numbers in the posted observations that agree with the criteria on the key
fields, in an order that respects time (the order may be empty if the first of them is being written): all those acknowledged at `σ₀` are in it, none is in it twice, and none that was not posted (or
with the criteria alone, if there is no record yet; and then nothing was acknowledged at `σ₀`). Missing: colliding key values (C29) and keys in
the first slots (C30_truncated). -/
theorem C73_partial (env : Env) (confs : List Conf) (s : Nat) (sch : Schema) (l : Nat) (hs : confs[s]? = some ⟨compile sch, l⟩)
    (hv : ValidSchema sch) (hn : GoodName sch.name) (hl : 0 < l)
    (hfirst : ∀ s' c', s' < s → confs[s']? = some c' → c'.coll.name ≠ sch.name)
    (σ₀ σ σ₂ : ServerConc.State) (hr : ServerConc.Steps env confs ServerConc.init σ₀) (hsteps : ServerConc.Steps env confs σ₀ σ)
    (hlater : ServerConc.Steps env confs σ σ₂) (hun : Unwrapped σ) (steps : List Step) (hreq : σ.reqs = steps.map Step.request)
    (hcorr : ∀ st ∈ steps, st.Correct) (hall : ∀ j ls, steps[j]? = some (.posted ls) → Acked σ₂ j)
    (j : Nat) (hj : σ₀.reqs.length ≤ j) (text : Bytes) (hask : steps[j]? = some (.other (askFor sch.name text)))
    (f : Bytes) (m : Measure) (hm : m = .sum ∨ m = .mean ∨ m = .variance) (hd : Declares sch f m)
    (crit : List FV) (hq : Query.roughParse env.ord text = .ok ⟨[⟨f, [m.name]⟩], crit⟩)
    (k : U64) (hk : keyValue crit sch.keys = some k) (h0 : k ≠ 0)
    (happ : ∀ fs ∈ observations steps, keyValue fs sch.keys = some k → AgreeOn sch.keys fs crit)
    (hlow : ∀ x, x < l → (σ.stores s).m.keys x = k → (compile sch).size.toNat ≤ x) (rep : Reply) (hrep : (j, rep) ∈ σ.replies) :
    (rep = .ok (echo crit) ∧ ((acknowledged steps σ₀).filter fun fs => AgreeOn sch.keys fs crit) = []) ∨
    ∃ order, ServedOrder env confs steps (fun fs => AgreeOn sch.keys fs crit) σ₀ order ∧
      ((observations steps).filter fun fs => AgreeOn sch.keys fs crit) ≠ [] ∧
      rep = .ok (echo crit ++ measureLine env m.name f (statOf m (numbersIn env.lib f (order.filterMap (obsAt steps))))) := by
  rcases served_any env confs s sch l hs hv hn hl hfirst σ₀ σ σ₂ hr hsteps hlater steps hreq hcorr hall j hj text hask _ crit hq k hk h0 happ rep hrep with
    h | ⟨τ, τ', i, buf, d, out, e1, hτσ, e5, hstep, e3, hret, hqτ, hacc, hout, rfl, hne, hser⟩
  · exact .inl h
  · right
    have hsτ := steps_store (hr.trans e1) hs
    have hsτσ := steps_store hτσ hs
    obtain ⟨ws, hord, hans⟩ := C65_partial env.lib sch hv l hl (τ.stores s) (τ'.stores s) (σ₂.stores s) hsτ hstep
      (steps_store e5 hs) i _ hqτ k hk h0 hacc
      (by
        intro x hx' hkx
        apply hlow x hx'
        rw [(BufmapConc.steps_mono hl (BufmapConc.inv_reach hl (StoreConc.steps_m hsτ)) (StoreConc.steps_m hsτσ)).1 x (by rw [hkx]; exact h0)]
        exact hkx)
      buf d (hun s i buf d hret) e3
    obtain ⟨order, ho, hdata⟩ := hser ws hord
    refine ⟨order, ho, hne, ?_⟩
    have hfin : StoreConc.readReply env.lib (compile sch) ⟨[⟨f, [m.name]⟩], crit⟩ (.got true buf d) =
        some (.val ([⟨f, m.name, statOf m (numbersIn env.lib f (order.filterMap (obsAt steps)))⟩], none)) := by
      rw [hdata, ← numbers_rows]
      rcases hm with rfl | rfl | rfl
      · exact (hans f).1 hd rfl
      · exact (hans f).2.1 hd rfl
      · exact (hans f).2.2 hd rfl
    have hout' := Option.some.inj (hout.symm.trans hfin)
    subst hout'
    show queryReply env _ (.val (_, none)) = _
    unfold queryReply
    exact congrArg Reply.ok (render_one env crit f m.name _)

theorem places_obs (keys : List Bytes) (k : U64) (steps : List Step) (L : List (Step × Nat)) (h : ∀ x ∈ L, steps[x.2]? = some x.1) :
    (places keys k L).filterMap (obsAt steps) = (L.flatMap fun x => x.1.posts).filter fun fs => keyValue fs keys = some k := by
  induction L with
  | nil => rfl
  | cons x L ih =>
    unfold places at ih ⊢
    rw [List.flatMap_cons, List.flatMap_cons, List.filter_append, List.filterMap_append, ih fun y hy => h y (by simp [hy])]
    congr 1
    have hx := h x (by simp)
    rw [List.filterMap_map]
    have e : ∀ y ∈ x.1.posts.zipIdx.filter (fun y => keyValue y.1 keys = some k), (obsAt steps ∘ fun y => (x.2, y.2)) y = some y.1 := by
      rintro ⟨fs, p⟩ hy
      have hy := (List.mem_filter.1 hy).1
      rw [List.mem_zipIdx_iff_getElem?] at hy
      simp only [Function.comp_apply]
      rw [obsAt_of hx]; exact hy
    rw [List.filterMap_congr e, show (fun y : List FV × Nat => some y.1) = some ∘ Prod.fst from rfl, List.filterMap_eq_map]
    conv_rhs => rw [← List.zipIdx_map_fst 0 x.1.posts]
    rw [List.filter_map]
    rfl

/-- if all posts had been acknowledged, an order of what was served is an order of all matching observations -/
theorem quiet_perm {env : Env} {confs : List Conf} {steps : List Step} {σ₀ : ServerConc.State} {keys : List Bytes} {crit : List FV} {order : List (Nat × Nat)}
    (hall : ∀ j ls, steps[j]? = some (.posted ls) → Acked σ₀ j) {k : U64} (hk : keyValue crit keys = some k)
    (happ : ∀ fs ∈ observations steps, keyValue fs keys = some k → AgreeOn keys fs crit)
    (h1 : ServedOrder env confs steps (fun fs => AgreeOn keys fs crit) σ₀ order) :
    (order.filterMap (obsAt steps)).Perm ((observations steps).filter fun fs => AgreeOn keys fs crit) := by
  have hagree : ((observations steps).filter fun fs => AgreeOn keys fs crit) =
      (observations steps).filter fun fs => keyValue fs keys = some k := by
    apply List.filter_congr
    intro fs hfs
    rw [decide_eq_decide]
    exact ⟨fun h => by rw [C28_key keys _ _ h, hk], happ fs hfs⟩
  have hzip : ∀ x ∈ steps.zipIdx, steps[x.2]? = some x.1 := by
    rintro ⟨st, n⟩ h
    exact List.mem_zipIdx_iff_getElem?.1 h
  have hp : order.Perm (places keys k steps.zipIdx) := by
    rw [List.perm_ext_iff_of_nodup h1.once (places_nodup _ _ _ (zipIdx_snd_nodup steps))]
    rintro ⟨j', p⟩
    rw [show steps.zipIdx = steps.zipIdx.filter (fun _ => true) from (List.filter_eq_self.2 (by simp)).symm, mem_places]
    constructor
    · intro ho
      obtain ⟨fs, g1, g2⟩ := h1.only _ ho
      unfold obsAt at g1
      rw [Option.bind_eq_some_iff] at g1
      obtain ⟨st, g3, g4⟩ := g1
      exact ⟨st, fs, g3, rfl, g4, by rw [C28_key keys _ _ g2, hk]⟩
    · rintro ⟨st, fs, g1, _, g2, g3⟩
      have hmem : fs ∈ observations steps := by
        rw [observations_flatMap, List.mem_flatMap]
        exact ⟨(st, j'), List.mem_zipIdx_iff_getElem?.2 g1, List.mem_of_getElem? g2⟩
      cases st with
      | other req => simp [Step.posts] at g2
      | posted ls => exact h1.acked (j', p) fs (by rw [obsAt_of g1]; exact g2) (happ _ hmem g3) (hall _ _ g1)
  have := hp.filterMap (obsAt steps)
  rw [places_obs keys k steps _ hzip, ← observations_flatMap, ← hagree] at this
  exact this

/-- **C73**, exact when nothing is in progress: if all posts had been acknowledged before the query was received, the answer is the statistic
of all posted observations that agree with the criteria, each taken once, in an order that respects time. -/
theorem C73_exact_partial (env : Env) (confs : List Conf) (s : Nat) (sch : Schema) (l : Nat) (hs : confs[s]? = some ⟨compile sch, l⟩)
    (hv : ValidSchema sch) (hn : GoodName sch.name) (hl : 0 < l)
    (hfirst : ∀ s' c', s' < s → confs[s']? = some c' → c'.coll.name ≠ sch.name)
    (σ₀ σ : ServerConc.State) (hr : ServerConc.Steps env confs ServerConc.init σ₀) (hsteps : ServerConc.Steps env confs σ₀ σ)
    (hun : Unwrapped σ) (steps : List Step) (hreq : σ.reqs = steps.map Step.request)
    (hcorr : ∀ st ∈ steps, st.Correct) (hall : ∀ j ls, steps[j]? = some (.posted ls) → Acked σ₀ j)
    (j : Nat) (hj : σ₀.reqs.length ≤ j) (text : Bytes) (hask : steps[j]? = some (.other (askFor sch.name text)))
    (f : Bytes) (m : Measure) (hm : m = .sum ∨ m = .mean ∨ m = .variance) (hd : Declares sch f m)
    (crit : List FV) (hq : Query.roughParse env.ord text = .ok ⟨[⟨f, [m.name]⟩], crit⟩)
    (k : U64) (hk : keyValue crit sch.keys = some k) (h0 : k ≠ 0)
    (happ : ∀ fs ∈ observations steps, keyValue fs sch.keys = some k → AgreeOn sch.keys fs crit)
    (hlow : ∀ x, x < l → (σ.stores s).m.keys x = k → (compile sch).size.toNat ≤ x) (rep : Reply) (hrep : (j, rep) ∈ σ.replies) :
    ∃ order, ServedOrder env confs steps (fun fs => AgreeOn sch.keys fs crit) σ₀ order ∧
      (order.filterMap (obsAt steps)).Perm ((observations steps).filter fun fs => AgreeOn sch.keys fs crit) ∧
      rep = .ok (echo crit ++ if ((observations steps).filter fun fs => AgreeOn sch.keys fs crit) = [] then []
        else measureLine env m.name f (statOf m (numbersIn env.lib f (order.filterMap (obsAt steps))))) := by
  have hx := ext_steps hsteps
  rcases C73_partial env confs s sch l hs hv hn hl hfirst σ₀ σ σ hr hsteps (.refl _) hun steps hreq hcorr
    (fun j ls h => hx.replies.subset (hall j ls h)) j hj text hask f m hm hd crit hq k hk h0 happ hlow rep hrep with ⟨h1, h2⟩ | ⟨order, h1, h2, h3⟩
  · rw [acked_all hall] at h2
    refine ⟨[], ⟨List.nodup_nil, by simp, ?_, by simp, by simp⟩, by rw [h2]; exact List.Perm.refl _, by rw [if_pos h2, List.append_nil]; exact h1⟩
    intro o fs ho hag _
    exfalso
    unfold obsAt at ho
    rw [Option.bind_eq_some_iff] at ho
    obtain ⟨st, g1, g2⟩ := ho
    have hmem : fs ∈ observations steps := by
      rw [observations_flatMap, List.mem_flatMap]
      exact ⟨(st, o.1), List.mem_zipIdx_iff_getElem?.2 g1, List.mem_of_getElem? g2⟩
    have : fs ∈ (observations steps).filter fun fs => AgreeOn sch.keys fs crit := List.mem_filter.2 ⟨hmem, by simpa using hag⟩
    rw [h2] at this
    simp at this
  · refine ⟨order, h1, ?_, by rw [if_neg h2]; exact h3⟩
    exact quiet_perm hall hk happ h1

/-- **C73**, whole numbers: if the numbers observed are integers, of which no partial sum can exceed 2^53, the sum reported is the exact sum, whatever the
interleaving was. -/
theorem C73_integers_partial (env : Env) (confs : List Conf) (s : Nat) (sch : Schema) (l : Nat) (hs : confs[s]? = some ⟨compile sch, l⟩)
    (hv : ValidSchema sch) (hn : GoodName sch.name) (hl : 0 < l)
    (hfirst : ∀ s' c', s' < s → confs[s']? = some c' → c'.coll.name ≠ sch.name)
    (σ₀ σ : ServerConc.State) (hr : ServerConc.Steps env confs ServerConc.init σ₀) (hsteps : ServerConc.Steps env confs σ₀ σ)
    (hun : Unwrapped σ) (steps : List Step) (hreq : σ.reqs = steps.map Step.request)
    (hcorr : ∀ st ∈ steps, st.Correct) (hall : ∀ j ls, steps[j]? = some (.posted ls) → Acked σ₀ j)
    (j : Nat) (hj : σ₀.reqs.length ≤ j) (text : Bytes) (hask : steps[j]? = some (.other (askFor sch.name text)))
    (f : Bytes) (hd : Declares sch f .sum)
    (crit : List FV) (hq : Query.roughParse env.ord text = .ok ⟨[⟨f, [asc "sum"]⟩], crit⟩)
    (k : U64) (hk : keyValue crit sch.keys = some k) (h0 : k ≠ 0)
    (happ : ∀ fs ∈ observations steps, keyValue fs sch.keys = some k → AgreeOn sch.keys fs crit)
    (hlow : ∀ x, x < l → (σ.stores s).m.keys x = k → (compile sch).size.toNat ≤ x) (rep : Reply) (hrep : (j, rep) ∈ σ.replies)
    (hsome : ((observations steps).filter fun fs => AgreeOn sch.keys fs crit) ≠ []) (ks : List Int)
    (hks : List.Forall₂ (fun x (n : Int) => value x = some (n : ℚ))
      (numbersIn env.lib f ((observations steps).filter fun fs => AgreeOn sch.keys fs crit)) ks)
    (hb : (ks.map fun n => |n|).sum ≤ 2 ^ 53) :
    ∃ x, value x = some ((ks.sum : Int) : ℚ) ∧ rep = .ok (echo crit ++ measureLine env (asc "sum") f x) := by
  obtain ⟨order, _, hperm, h3⟩ := C73_exact_partial env confs s sch l hs hv hn hl hfirst σ₀ σ hr hsteps hun steps hreq hcorr hall j hj text hask f .sum
    (.inl rfl) hd crit hq k hk h0 happ hlow rep hrep
  rw [if_neg hsome] at h3
  refine ⟨_, ?_, h3⟩
  have hp : (numbersIn env.lib f (order.filterMap (obsAt steps))).Perm
      (numbersIn env.lib f ((observations steps).filter fun fs => AgreeOn sch.keys fs crit)) := by
    unfold numbersIn
    exact (hperm.flatten).filterMap _
  generalize numbersIn env.lib f (order.filterMap (obsAt steps)) = xs at hp ⊢
  generalize numbersIn env.lib f ((observations steps).filter fun fs => AgreeOn sch.keys fs crit) = ys at hp hks
  have hg : ∀ x, ∀ n : Int, value x = some (n : ℚ) → ((value x).getD 0).num = n := by
    intro x n h
    rw [h, Option.getD_some, Rat.num_intCast]
  have hys : ks = ys.map fun x => ((value x).getD 0).num := by
    clear hp hb h3
    induction hks with
    | nil => rfl
    | cons h _ ih => rw [List.map_cons, hg _ _ h, ← ih]
  have hint : ∀ x ∈ ys, value x = some ((((value x).getD 0).num : Int) : ℚ) := by
    clear hp hb h3 hys
    induction hks with
    | nil => simp
    | cons h _ ih =>
      intro x hx
      rcases List.mem_cons.1 hx with rfl | hx
      · rw [hg _ _ h]; exact h
      · exact ih x hx
  have hkp : (xs.map fun x => ((value x).getD 0).num).Perm ks := by rw [hys]; exact hp.map _
  have hb' : ((xs.map fun x => ((value x).getD 0).num).map fun n => |n|).sum ≤ 2 ^ 53 := by
    rw [(hkp.map _).sum_eq]; exact hb
  rw [← hkp.sum_eq]
  have hpart : ∀ (ks : List Int) i, |(ks.take i).sum| ≤ (ks.map fun n => |n|).sum := by
    intro ks
    induction ks with
    | nil => intro i; simp
    | cons n ks ih =>
      intro i
      cases i with
      | zero =>
        simp only [List.take_zero, List.sum_nil, abs_zero]
        have := ih 0
        simp only [List.take_zero, List.sum_nil, abs_zero] at this
        rw [List.map_cons, List.sum_cons]
        exact Int.add_nonneg (abs_nonneg n) this
      | succ i =>
        rw [List.take_succ_cons, List.sum_cons, List.map_cons, List.sum_cons]
        exact (abs_add_le _ _).trans (by have := ih i; omega)
  have := C19_integer_sum xs _ (by
    rw [List.forall₂_map_right_iff, List.forall₂_same]
    intro x hx
    exact hint x (hp.subset hx)) (fun i => (hpart _ i).trans hb')
  rw [after_sum] at this
  exact this

end Starbow.Props
