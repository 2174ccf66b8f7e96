import Verif.Props.Untouched
import Verif.Props.Monotone
import Verif.Props.ServerMeasures
/-
Property C97 under concurrent requests.
-/
namespace Starbow.Props
open Starbow.Collation Starbow.Spec Starbow.Storage Starbow.Server Starbow.BufmapConc Starbow.Cell

section
variable {sch : Schema} {L : List (Owner × Collation.Cell)} {D : List (Bytes × Measure)} {pos : Int}

/-- rows without the fields leave their bytes of a record alone -/
theorem served_untouched (lib : Lib) (h : Laid ⟨compile sch, pos⟩ L D) {P : Bytes → Prop} (hstar : ¬ P rowPseudoField) (ws : List Served) (more : List Served)
    (hm : ∀ w ∈ more, ∀ fv ∈ w.row.data, ¬ P fv.f) {o : Owner} {w : Collation.Cell} (hw : (o, w) ∈ L) (ho : ∃ f, o.serves f ∧ P f) :
    slice (servedRecord lib (compile sch) (ws ++ more)) w.low.toNat w.high.toNat = slice (servedRecord lib (compile sch) ws) w.low.toNat w.high.toNat := by
  induction more using List.reverseRecOn with
  | nil => rw [List.append_nil]
  | append_singleton more v ih =>
    rw [← List.append_assoc, StoreConc.servedRecord_snoc,
      update_untouched lib h hstar v.row (hm v (by simp)) v.new (StoreConc.servedRecord_length lib _ _) hw ho]
    exact ih fun w hw => hm w (by simp [hw])

/-- One store, any interleaving: what two Reads of a key find says the same about the fields, if the Writes of the key that carry any of them, among those called before the second Read
returns, had all returned before the first Read does. -/
theorem untouched_store (lib : Lib) (hv : ValidSchema sch) (l : Nat) (hl : 0 < l) (σ₁ σ₁' σ₂ σ₂' : StoreConc.State)
    (hr : StoreConc.Steps lib (compile sch) l StoreConc.init σ₁) (h1 : StoreConc.Step lib (compile sch) l σ₁ σ₁') (hs : StoreConc.Steps lib (compile sch) l σ₁ σ₂)
    (h2 : StoreConc.Step lib (compile sch) l σ₂ σ₂') (i₁ i₂ : Nat) (q₁ q₂ : Query) (hq₁ : σ₁.calls[i₁]? = some (.read q₁)) (hq₂ : σ₂.calls[i₂]? = some (.read q₂))
    (k : U64) (hk₁ : keyValue q₁.criteria (compile sch).keys = some k) (hk₂ : keyValue q₂.criteria (compile sch).keys = some k) (h0 : k ≠ 0)
    (buf₁ buf₂ : Bytes) (d₁ d₂ : Nat) (hd₁ : d₁ < 2 ^ 32) (hd₂ : d₂ < 2 ^ 32) (hret₁ : σ₁'.m.rets = σ₁.m.rets ++ [(i₁, .got true buf₁ d₁)])
    (hret₂ : σ₂'.m.rets = σ₂.m.rets ++ [(i₂, .got true buf₂ d₂)]) {P : Bytes → Prop} (hstar : ¬ P rowPseudoField)
    (hdone : ∀ i r, WriteOf (compile sch).keys k σ₂ i r → (∃ fv ∈ r.data, P fv.f) → i ∈ doneWrites (compile sch).keys k σ₁) (fml : List FM) (hP : ∀ fm ∈ fml, P fm.f) :
    Collation.read lib (compile sch) fml buf₁ = Collation.read lib (compile sch) fml buf₂ := by
  obtain ⟨L, D, pos, h, -⟩ := laid_compile sch hv
  have hr₂ := hr.trans hs
  have hI := inv_reach hl (StoreConc.steps_m hr)
  have key : ∀ (σ σ' : StoreConc.State), StoreConc.Steps lib (compile sch) l StoreConc.init σ → StoreConc.Step lib (compile sch) l σ σ' →
      ∀ (i : Nat) (q : Query), σ.calls[i]? = some (.read q) → keyValue q.criteria (compile sch).keys = some k → ∀ (buf : Bytes) (d : Nat), d < 2 ^ 32 →
      σ'.m.rets = σ.m.rets ++ [(i, .got true buf d)] → ∃ x, x < l ∧ σ.m.keys x = k ∧
        buf = Storage.seen x (servedRecord lib (compile sch) ((writesOf σ.m.cells.log x).map (StoreConc.servedOf σ))) := by
    intro σ σ' hr hs i q hq hk buf d hd hret
    have hcall := (StoreConc.callsOk_steps (StoreConc.callsOk_init lib (compile sch)) hr).read hq hk
    obtain ⟨x, hx, hkx, hb, he⟩ := C35_partial l (compile sch).size.toNat hl σ.m σ'.m (StoreConc.steps_m hr) (StoreConc.step_m hs) i k h0
      (List.replicate (compile sch).size.toNat 0) buf (by simp) d hd hcall hret
    refine ⟨x, hx, hkx, ?_⟩
    have hrun : runAll (compile sch).size.toNat (writesOf σ.m.cells.log x) = servedRecord lib (compile sch) ((writesOf σ.m.cells.log x).map (StoreConc.servedOf σ)) :=
      StoreConc.runAll_served _ fun e he => (StoreConc.log_served hl hr hkx e he).2
    have hlen := StoreConc.servedRecord_length lib (compile sch) ((writesOf σ.m.cells.log x).map (StoreConc.servedOf σ))
    rw [he, hb, hrun, List.length_replicate]
    unfold Storage.seen
    rw [hlen, List.drop_replicate]
    rcases Nat.le_total (compile sch).size.toNat x with hc | hc
    · rw [Nat.min_eq_left hc, List.take_of_length_le (by omega), List.take_of_length_le (by omega), Nat.sub_self, Nat.sub_eq_zero_of_le hc]
      rfl
    · rw [Nat.min_eq_right hc]
      rfl
  obtain ⟨x, hx, hkx, e1⟩ := key σ₁ σ₁' hr h1 i₁ q₁ hq₁ hk₁ buf₁ d₁ hd₁ hret₁
  obtain ⟨y, hy, hky, e2⟩ := key σ₂ σ₂' hr₂ h2 i₂ q₂ hq₂ hk₂ buf₂ d₂ hd₂ hret₂
  have hkx₂ : σ₂.m.keys x = k := by
    rw [(BufmapConc.steps_mono hl hI (StoreConc.steps_m hs)).1 x (by rw [hkx]; exact h0)]; exact hkx
  have hxy : y = x := (inv_reach hl (StoreConc.steps_m hr₂)).keys.unique hy hx (by rw [hky]; exact h0) (by rw [hky, hkx₂])
  subst hxy
  obtain ⟨more, hm⟩ := (BufmapConc.steps_mono hl hI (StoreConc.steps_m hs)).2.2.1
  have hsplit : (writesOf σ₂.m.cells.log y).map (StoreConc.servedOf σ₂) = (writesOf σ₁.m.cells.log y).map (StoreConc.servedOf σ₁) ++ (writesOf more y).map (StoreConc.servedOf σ₂) := by
    rw [hm, writesOf_append, List.map_append, served_later hl hr hs hkx]
  have hord₁ := StoreConc.serial_order (lib := lib) (c := compile sch) hl hr hx h0 hkx
  have hord₂ := StoreConc.serial_order (lib := lib) (c := compile sch) hl hr₂ hx h0 hkx₂
  rw [hsplit] at e2 hord₂
  rw [e1, e2]
  refine read_untouched lib h ?_ ?_ y fml hP
  · rw [StoreConc.servedRecord_length, StoreConc.servedRecord_length]
  · intro o w hw ho
    refine (served_untouched lib h hstar _ _ ?_ hw ho).symm
    intro v hv fv hfv hPf
    have hwr := hord₂.writes v (by simp only [List.mem_append]; exact .inr hv)
    have hin := hdone v.id v.row hwr ⟨fv, hfv, hPf⟩
    obtain ⟨a, b, hab, ha, -⟩ := hord₁.time σ₁ hr (.refl _)
    have h1 : v.id ∈ ((writesOf σ₁.m.cells.log y).map (StoreConc.servedOf σ₁)).map Served.id := by
      rw [hab, List.map_append]
      exact List.mem_append_left _ (ha _ hin)
    have hnd := hord₂.once
    rw [List.map_append, List.nodup_append] at hnd
    exact hnd.2.2 _ h1 _ (List.mem_map.2 ⟨v, hv, rfl⟩) rfl

end

section
open Starbow.ServerConc

/-- **C97** under concurrent requests: any number of posts and queries are in progress, in any interleaving. Take a query text, asked in two requests (or more) that were made when all
posts with an observation of the key that carries any of the fields asked for had been acknowledged (`σ₀`). Both get the same answer, unless one finds no observation of the key.
Other observations, of this key without the fields or of other keys, may be in progress, accepted or refused. (2^32 as in C35.) -/
theorem C97_concurrent (env : Env) (confs : List Conf) (s : Nat) (sch : Schema) (l : Nat) (hs : confs[s]? = some ⟨compile sch, l⟩)
    (hv : ValidSchema sch) (hn : GoodName sch.name) (hl : 0 < l) (hfirst : ∀ s' c', s' < s → confs[s']? = some c' → c'.coll.name ≠ sch.name)
    (σ₀ σ : ServerConc.State) (hr : ServerConc.Steps env confs ServerConc.init σ₀) (hsteps : ServerConc.Steps env confs σ₀ σ) (hun : Unwrapped σ)
    (steps : List Step) (hreq : σ.reqs = steps.map Step.request) (hcorr : ∀ st ∈ steps, st.Correct)
    (text : Bytes) (sel : List FM) (crit : List FV) (hq : Query.roughParse env.ord text = .ok ⟨sel, crit⟩)
    (k : U64) (hk : keyValue crit sch.keys = some k) (h0 : k ≠ 0) (hstar : ∀ fm ∈ sel, fm.f ≠ asc "*")
    (hacked : ∀ o fs, obsAt steps o = some fs → keyValue fs sch.keys = some k → (∃ fv ∈ fs, ∃ fm ∈ sel, fv.f = fm.f) → Acked σ₀ o.1)
    (j₁ j₂ : Nat) (hj₁ : σ₀.reqs.length ≤ j₁) (hj₂ : σ₀.reqs.length ≤ j₂) (hask₁ : steps[j₁]? = some (.other (askFor sch.name text)))
    (hask₂ : steps[j₂]? = some (.other (askFor sch.name text))) (rep₁ rep₂ : Reply) (hrep₁ : (j₁, rep₁) ∈ σ.replies) (hrep₂ : (j₂, rep₂) ∈ σ.replies)
    (hseen₁ : rep₁ ≠ .ok (echo crit)) (hseen₂ : rep₂ ≠ .ok (echo crit)) : rep₁ = rep₂ := by
  have hkeys : (compile sch).keys = sch.keys := compile_keys sch
  have hI₀ := ServerConc.inv_reach hr
  have hI := ServerConc.inv_reach (hr.trans hsteps)
  have hx := ext_steps hsteps
  have hst₀ := steps_store hr hs
  have htask := task_ask env confs sch.name text hn _ hq s _ hs (compile_name sch) hfirst
  -- what was answered comes from a Read that returned after σ₀
  have found : ∀ j rep, σ₀.reqs.length ≤ j → steps[j]? = some (.other (askFor sch.name text)) → (j, rep) ∈ σ.replies → rep ≠ .ok (echo crit) →
      ∃ i buf d, (i, Ret.got true buf d) ∈ (σ.stores s).m.rets ∧ (i, Ret.got true buf d) ∉ (σ₀.stores s).m.rets ∧
        (σ.stores s).calls[i]? = some (.read ⟨sel, crit⟩) ∧ rep = queryReply env ⟨sel, crit⟩ (Collation.read env.lib (compile sch) sel buf) := by
    intro j rep hj hask hrep hseen
    have hreqj : σ.reqs[j]? = some (askFor sch.name text) := by rw [hreq, List.getElem?_map, hask]; rfl
    obtain ⟨c, hs', hcases⟩ := (hI.replies j rep hrep).ask _ s _ hreqj htask
    rw [hs] at hs'
    obtain rfl := Option.some.inj hs'
    rcases hcases with ⟨hnk, _⟩ | ⟨hneg, _⟩ | ⟨i, ret, out, ho, hcall, hret, hout, rfl⟩
    · rw [show (compile sch).keys = sch.keys from hkeys] at hnk
      rw [show (⟨sel, crit⟩ : Query).criteria = crit from rfl, hk] at hnk
      simp at hnk
    · obtain ⟨L, D, pos, h, _⟩ := laid_compile sch hv
      have h1 := h.size
      have h2 := h.pos
      simp only at hneg h1 h2
      omega
    · have hlater : (σ₀.stores s).calls.length ≤ i := by
        by_contra hlt
        rw [Nat.not_le, ← hI₀.len] at hlt
        obtain ⟨o, ho'⟩ : ∃ o, (σ₀.origin s)[i]? = some o := ⟨_, List.getElem?_eq_getElem hlt⟩
        have e := prefix_get (hx.origin s) ho'
        rw [ho] at e
        obtain rfl := Option.some.inj e
        have := hI₀.olt s _ (List.mem_of_getElem? ho')
        simp only at this
        omega
      cases ret with
      | ran _ => simp [StoreConc.readReply] at hout
      | invalidKey => simp [StoreConc.readReply] at hout
      | outOfSlots => simp [StoreConc.readReply] at hout
      | got fnd buf d =>
        cases fnd with
        | false =>
          have hout := Option.some.inj hout
          subst hout
          refine absurd ?_ hseen
          show queryReply env _ (.val ([], none)) = _
          unfold queryReply
          exact congrArg Reply.ok (render_none env crit)
        | true =>
          have hout := Option.some.inj hout
          subst hout
          refine ⟨i, buf, d, hret, ?_, hcall, rfl⟩
          intro hmem
          have hlt := (BufmapConc.inv_reach hl (StoreConc.steps_m hst₀)).ids.dlt i (List.mem_map.2 ⟨_, hmem, rfl⟩)
          rw [← (StoreConc.callsOk_steps (StoreConc.callsOk_init env.lib (compile sch)) hst₀).len] at hlt
          omega
  obtain ⟨i₁, buf₁, d₁, a1, a2, a3, a4⟩ := found j₁ rep₁ hj₁ hask₁ hrep₁ hseen₁
  obtain ⟨i₂, buf₂, d₂, b1, b2, b3, b4⟩ := found j₂ rep₂ hj₂ hask₂ hrep₂ hseen₂
  -- two Reads, one returning after the other
  have pair : ∀ (i₁ i₂ : Nat) (buf₁ buf₂ : Bytes) (d₁ d₂ : Nat) (τ₁ τ₁' τ₂ τ₂' : ServerConc.State), ServerConc.Steps env confs σ₀ τ₁ → ServerConc.Steps env confs τ₁ τ₂ →
      ServerConc.Steps env confs τ₂ σ →
      StoreConc.Step env.lib (compile sch) l (τ₁.stores s) (τ₁'.stores s) → StoreConc.Step env.lib (compile sch) l (τ₂.stores s) (τ₂'.stores s) →
      (τ₁'.stores s).m.rets = (τ₁.stores s).m.rets ++ [(i₁, .got true buf₁ d₁)] → (τ₂'.stores s).m.rets = (τ₂.stores s).m.rets ++ [(i₂, .got true buf₂ d₂)] →
      (τ₁'.stores s).calls = (τ₁.stores s).calls → (τ₂'.stores s).calls = (τ₂.stores s).calls →
      (σ.stores s).calls[i₁]? = some (.read ⟨sel, crit⟩) → (σ.stores s).calls[i₂]? = some (.read ⟨sel, crit⟩) → d₁ < 2 ^ 32 → d₂ < 2 ^ 32 →
      Collation.read env.lib (compile sch) sel buf₁ = Collation.read env.lib (compile sch) sel buf₂ := by
    intro i₁ i₂ buf₁ buf₂ d₁ d₂ τ₁ τ₁' τ₂ τ₂' g1 g2 g3 s1 s2 r1 r2 c1 c2 q1 q2 hd₁ hd₂
    have early : ∀ (τ τ' : ServerConc.State) (i : Nat) (buf : Bytes) (d : Nat), ServerConc.Steps env confs σ₀ τ → ServerConc.Steps env confs τ σ →
        StoreConc.Step env.lib (compile sch) l (τ.stores s) (τ'.stores s) → (τ'.stores s).m.rets = (τ.stores s).m.rets ++ [(i, .got true buf d)] →
        (τ'.stores s).calls = (τ.stores s).calls → (σ.stores s).calls[i]? = some (.read ⟨sel, crit⟩) → (τ.stores s).calls[i]? = some (.read ⟨sel, crit⟩) := by
      intro τ τ' i buf d g1 g3 s1 r1 c1 q1
      have hr' : StoreConc.Steps env.lib (compile sch) l StoreConc.init (τ'.stores s) := .tail (steps_store (hr.trans g1) hs) s1
      have hlt := (BufmapConc.inv_reach hl (StoreConc.steps_m hr')).ids.dlt i (List.mem_map.2 ⟨(i, .got true buf d), by rw [r1]; simp, rfl⟩)
      rw [← (StoreConc.callsOk_steps (StoreConc.callsOk_init env.lib (compile sch)) hr').len, c1] at hlt
      obtain ⟨more, hmo⟩ := StoreConc.calls_grow (steps_store g3 hs)
      rw [hmo, List.getElem?_append_left hlt] at q1
      exact q1
    have hxτ := ext_steps g3
    have hτ₂ := (hr.trans g1).trans g2
    have hIτ := ServerConc.inv_reach hτ₂
    refine untouched_store env.lib hv l hl (τ₁.stores s) (τ₁'.stores s) (τ₂.stores s) (τ₂'.stores s) (steps_store (hr.trans g1) hs) s1 (steps_store g2 hs) s2 i₁ i₂ _ _
      (early τ₁ τ₁' i₁ buf₁ d₁ g1 (g2.trans g3) s1 r1 c1 q1) (early τ₂ τ₂' i₂ buf₂ d₂ (g1.trans g2) g3 s2 r2 c2 q2) k (by rw [hkeys]; exact hk) (by rw [hkeys]; exact hk) h0
      buf₁ buf₂ d₁ d₂ hd₁ hd₂ r1 r2 (P := fun f => ∃ fm ∈ sel, f = fm.f) ?_ ?_ sel fun fm hfm => ⟨fm, hfm, rfl⟩
    · rintro ⟨fm, hfm, e⟩
      exact hstar fm hfm e.symm
    · rintro i r ⟨hw1, hw2⟩ hfield
      rw [hkeys] at hw2
      obtain ⟨o, ho1, ho2, _⟩ := post_of_write hreq hcorr hxτ hIτ hw1
      have hack := hacked o r.data ho2 hw2 hfield
      obtain ⟨i', r', hmade, hrd, hran⟩ := acked_made hs hreq hcorr hw2 hI₀ (.inl hx.reqs) ho2 (fun _ _ => rfl) hack
      have hx1 := ext_steps g1
      have hx2 := ext_steps g2
      have hmade₂ := (hx1.trans hx2).made hmade
      have := hIτ.once s i i' o.1 o.2 r r' ⟨ho1, hw1⟩ hmade₂
      subst this
      exact StoreConc.mem_done.2 ⟨r', none, ⟨(hx1.made hmade).2, by rw [hkeys, hrd]; exact hw2⟩, (hx1.rets s).subset hran⟩
  rw [a4, b4]
  congr 1
  obtain ⟨τ₂, τ₂', e1, e2, e3, e4, e5, e6⟩ := server_returned hsteps hs b1 b2
  have e7 : ServerConc.Steps env confs τ₂ σ := (ServerConc.Steps.tail (.refl τ₂) e2).trans e3
  by_cases hmem : (i₁, Ret.got true buf₁ d₁) ∈ (τ₂.stores s).m.rets
  · obtain ⟨τ₁, τ₁', f1, f2, f3, f4, f5, f6⟩ := server_returned e1 hs hmem a2
    exact pair i₁ i₂ buf₁ buf₂ d₁ d₂ τ₁ τ₁' τ₂ τ₂' f1 ((ServerConc.Steps.tail (.refl τ₁) f2).trans f3) e7 f4 e4 f5 e5 f6 e6 a3 b3 (hun s i₁ buf₁ d₁ a1) (hun s i₂ buf₂ d₂ b1)
  · obtain ⟨τ₁, τ₁', f1, f2, f3, f4, f5, f6⟩ := server_returned e7 hs a1 hmem
    exact (pair i₂ i₁ buf₂ buf₁ d₂ d₁ τ₂ τ₂' τ₁ τ₁' e1 f1 ((ServerConc.Steps.tail (.refl τ₁) f2).trans f3) e4 f4 e5 f5 e6 f6 b3 a3 (hun s i₂ buf₂ d₂ b1) (hun s i₁ buf₁ d₁ a1)).symm

end

end Starbow.Props
