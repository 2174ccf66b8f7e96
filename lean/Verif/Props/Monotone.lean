import Verif.Props.ServerMeasures
import Verif.Proof.ServerLive
import Verif.Proof.ServerReplies
/-
Property C88: successive queries see successive states, and the same state while nothing is posted.
-/
namespace Starbow.Props
open Starbow.Collation Starbow.Spec Starbow.Storage Starbow.Server Starbow.ServerConc Starbow.BufmapConc Starbow.Cell Starbow.Probe

/-! ### one store -/

theorem writesOf_append (a b : List (Nat × Entry)) (x : Nat) : writesOf (a ++ b) x = writesOf a x ++ writesOf b x := by
  unfold writesOf
  rw [List.filter_append, List.map_append]

/-- what a Read that found a record worked on -/
theorem snapshot_seen {lib : Lib} {c : Collator} {l : Nat} (hl : 0 < l) {σ σ' : StoreConc.State} (hr : StoreConc.Steps lib c l StoreConc.init σ)
    (hs : StoreConc.Step lib c l σ σ') {i : Nat} {q : Query} (hq : σ.calls[i]? = some (.read q)) {k : U64}
    (hk : keyValue q.criteria c.keys = some k) (h0 : k ≠ 0) {buf : Bytes} {d : Nat} (hd : d < 2 ^ 32)
    (hret : σ'.m.rets = σ.m.rets ++ [(i, .got true buf d)]) :
    ∃ x, x < l ∧ σ.m.keys x = k ∧ buf = seen x (servedRecord lib c ((writesOf σ.m.cells.log x).map (StoreConc.servedOf σ))) := by
  have hc := StoreConc.callsOk_steps (StoreConc.callsOk_init lib c) hr
  have hcall := hc.read hq hk
  obtain ⟨x, hx, hkx, hb, he⟩ := C35_partial l c.size.toNat hl σ.m σ'.m (StoreConc.steps_m hr) (StoreConc.step_m hs) i k h0
    (List.replicate c.size.toNat 0) buf (by simp) d hd hcall hret
  refine ⟨x, hx, hkx, ?_⟩
  have hrun : runAll c.size.toNat (writesOf σ.m.cells.log x) = servedRecord lib c ((writesOf σ.m.cells.log x).map (StoreConc.servedOf σ)) :=
    StoreConc.runAll_served _ fun e he => (StoreConc.log_served hl hr hkx e he).2
  rw [he, hb, hrun]
  have hlen : (servedRecord lib c ((writesOf σ.m.cells.log x).map (StoreConc.servedOf σ))).length = c.size.toNat := by
    rw [← hrun]; exact StoreConc.runAll_length _ _
  unfold seen
  rw [List.length_replicate, List.drop_replicate, hlen]
  congr 1
  · rw [← List.take_take, List.take_of_length_le (i := c.size.toNat)]
    rw [List.length_take]; omega
  · congr 1; omega

/-- the rows of the log of a slot do not change -/
theorem served_later {lib : Lib} {c : Collator} {l : Nat} (hl : 0 < l) {σ σ' : StoreConc.State} (hr : StoreConc.Steps lib c l StoreConc.init σ)
    (hs : StoreConc.Steps lib c l σ σ') {x : Nat} {k : U64} (hkx : σ.m.keys x = k) :
    (writesOf σ.m.cells.log x).map (StoreConc.servedOf σ') = (writesOf σ.m.cells.log x).map (StoreConc.servedOf σ) := by
  apply List.map_congr_left
  intro e he
  have h := (StoreConc.log_served hl hr hkx e he).1
  unfold StoreConc.servedOf
  rw [StoreConc.rowAt_eq (StoreConc.WriteOf.later hs h).1]

/-- **C88, one store**: let a Read of key `k` that finds a record return, and later another. Whatever Writes and Reads run at the same time, both work on the record of the same slot
(as much of it as is read, C30_truncated), and what the second sees is what the first saw with further Writes served after it: the order of Writes that explains the first Read
is an initial part of the order that explains the second. Proviso of C35: fewer than 2^32 steps of the sequence number during either copy. -/
theorem C88_store (lib : Lib) (c : Collator) (l : Nat) (hl : 0 < l) (σ₁ σ₁' σ₂ σ₂' : StoreConc.State)
    (hr : StoreConc.Steps lib c l StoreConc.init σ₁) (h1 : StoreConc.Step lib c l σ₁ σ₁') (hs : StoreConc.Steps lib c l σ₁' σ₂) (h2 : StoreConc.Step lib c l σ₂ σ₂')
    (i₁ i₂ : Nat) (q₁ q₂ : Query) (hq₁ : σ₁.calls[i₁]? = some (.read q₁)) (hq₂ : σ₂.calls[i₂]? = some (.read q₂)) (k : U64)
    (hk₁ : keyValue q₁.criteria c.keys = some k) (hk₂ : keyValue q₂.criteria c.keys = some k) (h0 : k ≠ 0)
    (buf₁ buf₂ : Bytes) (d₁ d₂ : Nat) (hd₁ : d₁ < 2 ^ 32) (hd₂ : d₂ < 2 ^ 32) (hret₁ : σ₁'.m.rets = σ₁.m.rets ++ [(i₁, .got true buf₁ d₁)])
    (hret₂ : σ₂'.m.rets = σ₂.m.rets ++ [(i₂, .got true buf₂ d₂)]) :
    ∃ x ws₁ ws₂, x < l ∧ σ₂.m.keys x = k ∧ ws₁ <+: ws₂ ∧ SerialOrder lib c l k σ₁ ws₁ ∧ SerialOrder lib c l k σ₂ ws₂ ∧
      buf₁ = seen x (servedRecord lib c ws₁) ∧ buf₂ = seen x (servedRecord lib c ws₂) := by
  have hs' : StoreConc.Steps lib c l σ₁ σ₂ := (StoreConc.Steps.tail (.refl _) h1).trans hs
  have hr₂ := hr.trans hs'
  obtain ⟨x, hx, hkx, e1⟩ := snapshot_seen hl hr h1 hq₁ hk₁ h0 hd₁ hret₁
  obtain ⟨y, hy, hky, e2⟩ := snapshot_seen hl hr₂ h2 hq₂ hk₂ h0 hd₂ hret₂
  obtain ⟨hg, _, ⟨more, hm⟩, _⟩ := BufmapConc.steps_mono hl (BufmapConc.inv_reach hl (StoreConc.steps_m hr)) (StoreConc.steps_m hs')
  have hkx' : σ₂.m.keys x = k := by rw [hg x (by rw [hkx]; exact h0)]; exact hkx
  have hxy : x = y := (BufmapConc.inv_reach hl (StoreConc.steps_m hr₂)).keys.unique hx hy (by rw [hkx']; exact h0) (by rw [hkx', hky])
  subst hxy
  refine ⟨x, _, _, hx, hkx', ?_, StoreConc.serial_order hl hr hx h0 hkx, StoreConc.serial_order hl hr₂ hx h0 hkx', e1, e2⟩
  rw [hm, writesOf_append, List.map_append, served_later hl hr hs' hkx]
  exact ⟨_, rfl⟩

/-- a Read called when the key already has a slot finds it -/
theorem found_of_key {lib : Lib} {c : Collator} {l : Nat} (hl : 0 < l) {σ₀ σ : StoreConc.State} (hr : StoreConc.Steps lib c l StoreConc.init σ₀)
    (hs : StoreConc.Steps lib c l σ₀ σ) {k : U64} (h0 : k ≠ 0) {x : Nat} (hx : x < l) (hkx : σ₀.m.keys x = k) {i : Nat} (hlate : σ₀.calls.length ≤ i)
    {q : Query} (hq : σ.calls[i]? = some (.read q)) (hk : keyValue q.criteria c.keys = some k) {buf : Bytes} {d : Nat} : (i, Ret.got false buf d) ∉ σ.m.rets := by
  intro hret
  have hc0 := StoreConc.callsOk_steps (StoreConc.callsOk_init lib c) hr
  have hc := StoreConc.callsOk_steps hc0 hs
  have h := BufmapConc.inv_reach hl (StoreConc.steps_m hr)
  have hinv := hc.read hq hk
  obtain ⟨j, hj, hpos, _⟩ := h.keys x hx (by rw [hkx]; exact h0)
  have hthere : σ₀.m.keys (Probe.pos l k j) = k := by rw [← hkx, hpos]
  have hkn := known_steps hl h0 hj h (Nat.le_refl _) (known_start h hthere) (StoreConc.steps_m hs)
  have := hkn.miss i buf d _ hret hinv
  rw [hc0.len] at hlate
  omega

/-- a Read returns what Reads return -/
theorem read_got {lib : Lib} {c : Collator} {l : Nat} (hl : 0 < l) {σ : StoreConc.State} (hr : StoreConc.Steps lib c l StoreConc.init σ) {i : Nat}
    {q : Query} (hq : σ.calls[i]? = some (.read q)) {k : U64} (hk : keyValue q.criteria c.keys = some k) {ret : Ret} (hret : (i, ret) ∈ σ.m.rets) :
    ∃ f buf d, ret = .got f buf d := by
  have h' := BufmapConc.inv_reach hl (StoreConc.steps_m hr)
  have hinv := (StoreConc.callsOk_steps (StoreConc.callsOk_init lib c) hr).read hq hk
  have hok := h'.rok i ret hret
  cases ret with
  | ran err =>
    obtain ⟨x, e, es, rest, he, hx, hes, _⟩ := hok
    obtain ⟨_, _, hi⟩ := h'.logok x e (Props.BufmapConc.mem_writesOf.mp (by rw [hes]; simp))
    rw [he, hinv] at hi
    injection hi with hi
    exact absurd hi (by simp)
  | invalidKey => obtain ⟨fn, hi⟩ := hok; rw [hinv] at hi; simp at hi
  | outOfSlots => obtain ⟨_, fn, hi, _⟩ := hok; rw [hinv] at hi; simp at hi
  | got f buf d => exact ⟨f, buf, d, rfl⟩

/-- **C88, one store, found stays found**: a Read of key `k` called after another Read of `k` has returned with a record finds a record. -/
theorem C88_found (lib : Lib) (c : Collator) (l : Nat) (hl : 0 < l) (σ₁ σ₁' σ : StoreConc.State)
    (hr : StoreConc.Steps lib c l StoreConc.init σ₁) (h1 : StoreConc.Step lib c l σ₁ σ₁') (hs : StoreConc.Steps lib c l σ₁' σ)
    (i₁ i₂ : Nat) (q₁ q₂ : Query) (hq₁ : σ₁.calls[i₁]? = some (.read q₁)) (hq₂ : σ.calls[i₂]? = some (.read q₂)) (hlate : σ₁'.calls.length ≤ i₂) (k : U64)
    (hk₁ : keyValue q₁.criteria c.keys = some k) (hk₂ : keyValue q₂.criteria c.keys = some k) (h0 : k ≠ 0)
    (buf : Bytes) (d : Nat) (hd : d < 2 ^ 32) (hret₁ : σ₁'.m.rets = σ₁.m.rets ++ [(i₁, .got true buf d)]) (ret : Ret) (hret : (i₂, ret) ∈ σ.m.rets) :
    ∃ buf d, ret = .got true buf d := by
  obtain ⟨x, hx, hkx, _⟩ := snapshot_seen hl hr h1 hq₁ hk₁ h0 hd hret₁
  have hr' := hr.trans (.tail (.refl _) h1)
  have hg := (BufmapConc.steps_mono hl (BufmapConc.inv_reach hl (StoreConc.steps_m hr)) (StoreConc.steps_m (.tail (.refl _) h1))).1
  obtain ⟨f, buf', d', rfl⟩ := read_got hl (hr'.trans hs) hq₂ hk₂ hret
  cases f with
  | true => exact ⟨buf', d', rfl⟩
  | false => exact absurd hret (found_of_key hl hr' hs h0 hx (by rw [hg x (by rw [hkx]; exact h0)]; exact hkx) hlate hq₂ hk₂)

/-! ### the server -/

theorem reply_eq (env : Env) (sel : List FM) (crit : List FV) (out : Out (List FMV × Option Err)) :
    queryReply env ⟨sel, crit⟩ out = resultReply env crit out := by
  cases out with
  | panic => rfl
  | val p =>
    obtain ⟨r, e⟩ := p
    cases e <;> rfl

/-- an answered query with a key has read the store -/
theorem asked {env : Env} {confs : List Conf} {σ : ServerConc.State} (hr : ServerConc.Steps env confs ServerConc.init σ) {s l : Nat} {sch : Schema}
    (hs : confs[s]? = some ⟨compile sch, l⟩) (hv : ValidSchema sch) (hn : GoodName sch.name) (hl : 0 < l)
    (hfirst : ∀ s' c', s' < s → confs[s']? = some c' → c'.coll.name ≠ sch.name) {j : Nat} {text : Bytes} (hreq : σ.reqs[j]? = some (askFor sch.name text))
    {sel : List FM} {crit : List FV} (hq : Query.roughParse env.ord text = .ok ⟨sel, crit⟩) {k : U64} (hk : keyValue crit sch.keys = some k)
    {rep : Reply} (hrep : (j, rep) ∈ σ.replies) :
    ∃ i f buf d, (σ.origin s)[i]? = some (j, 0) ∧ (σ.stores s).calls[i]? = some (.read ⟨sel, crit⟩) ∧ (i, Ret.got f buf d) ∈ (σ.stores s).m.rets ∧
      rep = resultReply env crit (if f then Collation.read env.lib (compile sch) sel buf else .val ([], none)) := by
  have hkeys : (compile sch).keys = sch.keys := compile_keys sch
  have htask := task_ask env confs sch.name text hn _ hq s _ hs (compile_name sch) hfirst
  obtain ⟨c, hs', hcases⟩ := ((ServerConc.inv_reach hr).replies j rep hrep).ask _ s _ hreq htask
  rw [hs] at hs'
  obtain rfl := Option.some.inj hs'
  rcases hcases with ⟨hnk, _⟩ | ⟨hneg, _⟩ | ⟨i, ret, out, ho, hcall, hret, hout, rfl⟩
  · simp only at hnk
    rw [hkeys, hk] at hnk
    simp at hnk
  · obtain ⟨L, D, pos, h, _⟩ := laid_compile sch hv
    have h1 := h.size
    have h2 := h.pos
    simp only at hneg h1 h2
    omega
  · obtain ⟨f, buf, d, rfl⟩ := read_got hl (steps_store hr hs) hcall (by rw [hkeys]; exact hk) hret
    refine ⟨i, f, buf, d, ho, hcall, hret, ?_⟩
    rw [reply_eq]
    cases f with
    | true => exact congrArg _ (Option.some.inj hout).symm
    | false => exact congrArg _ (Option.some.inj hout).symm

/-- a call made for a request received after `σ₀` is made after `σ₀` -/
theorem called_late {env : Env} {confs : List Conf} {σ₀ σ : ServerConc.State} (hr : ServerConc.Steps env confs ServerConc.init σ₀)
    (hsteps : ServerConc.Steps env confs σ₀ σ) {s i j : Nat} (hj : σ₀.reqs.length ≤ j) (ho : (σ.origin s)[i]? = some (j, 0)) :
    (σ₀.stores s).calls.length ≤ i := by
  have hI₀ := ServerConc.inv_reach hr
  by_contra hlt
  rw [Nat.not_le, ← hI₀.len] at hlt
  obtain ⟨o, ho'⟩ : ∃ o, (σ₀.origin s)[i]? = some o := ⟨_, List.getElem?_eq_getElem hlt⟩
  have e := prefix_get ((ext_steps hsteps).origin s) ho'
  rw [ho] at e
  obtain rfl := Option.some.inj e
  have := hI₀.olt s _ (List.mem_of_getElem? ho')
  simp only at this
  omega

/-- the moment a Read returned, with what is known of it then -/
theorem returned_read {lib : Lib} {c : Collator} {l : Nat} (hl : 0 < l) {a b : StoreConc.State} (ha : StoreConc.Steps lib c l StoreConc.init a)
    (hs : StoreConc.Steps lib c l a b) {i : Nat} {f : Bool} {buf : Bytes} {d : Nat} (hb : (i, Ret.got f buf d) ∈ b.m.rets) (hn : (i, Ret.got f buf d) ∉ a.m.rets)
    {q : Query} (hq : b.calls[i]? = some (.read q)) :
    ∃ τ τ', StoreConc.Steps lib c l a τ ∧ StoreConc.Step lib c l τ τ' ∧ τ'.m.rets = τ.m.rets ++ [(i, .got f buf d)] ∧ τ'.calls = τ.calls ∧
      StoreConc.Steps lib c l τ' b ∧ τ.calls[i]? = some (.read q) := by
  obtain ⟨τ, τ', e1, e2, e3, e4, e5⟩ := store_returned hs hb hn
  refine ⟨τ, τ', e1, e2, e3, e4, e5, ?_⟩
  have hr' : StoreConc.Steps lib c l StoreConc.init τ' := .tail (ha.trans e1) e2
  have hlt := (BufmapConc.inv_reach hl (StoreConc.steps_m hr')).ids.dlt i (List.mem_map.2 ⟨(i, .got f buf d), by rw [e3]; simp, rfl⟩)
  rw [← (StoreConc.callsOk_steps (StoreConc.callsOk_init lib c) hr').len, e4] at hlt
  obtain ⟨more, hm⟩ := StoreConc.calls_grow ((StoreConc.Steps.tail (.refl τ) e2).trans e5)
  rw [hm, List.getElem?_append_left hlt] at hq
  exact hq

theorem not_returned {lib : Lib} {c : Collator} {l : Nat} (hl : 0 < l) {a : StoreConc.State} (ha : StoreConc.Steps lib c l StoreConc.init a) {i : Nat}
    (h : a.calls.length ≤ i) (ret : Ret) : (i, ret) ∉ a.m.rets := by
  intro hm
  have hlt := (BufmapConc.inv_reach hl (StoreConc.steps_m ha)).ids.dlt i (List.mem_map.2 ⟨_, hm, rfl⟩)
  rw [← (StoreConc.callsOk_steps (StoreConc.callsOk_init lib c) ha).len] at hlt
  omega

/-- **C88, the whole server**: let a query about a key value be answered by the moment `σ₀`, and let another query about the same key value of the same
collation be received after that and answered by `σ`, whatever other requests are handled at the same time. Then either the first was
told that there is no record yet, or both are answered from the record of the same slot (as much as is read of it, C30_truncated), the first after some writes `ws₁`, the second
after `ws₁` and possibly more: an order of the writes of that key that respects time. Proviso `Unwrapped` as in C68. -/
theorem C88_server (env : Env) (confs : List Conf) (s : Nat) (sch : Schema) (l : Nat) (hs : confs[s]? = some ⟨compile sch, l⟩)
    (hv : ValidSchema sch) (hn : GoodName sch.name) (hl : 0 < l) (hfirst : ∀ s' c', s' < s → confs[s']? = some c' → c'.coll.name ≠ sch.name)
    (σ₀ σ : ServerConc.State) (hr : ServerConc.Steps env confs ServerConc.init σ₀) (hsteps : ServerConc.Steps env confs σ₀ σ) (hun : Unwrapped σ)
    (j₁ j₂ : Nat) (text₁ text₂ : Bytes) (hreq₁ : σ₀.reqs[j₁]? = some (askFor sch.name text₁)) (hreq₂ : σ.reqs[j₂]? = some (askFor sch.name text₂))
    (hj : σ₀.reqs.length ≤ j₂) (sel₁ sel₂ : List FM) (crit₁ crit₂ : List FV)
    (hq₁ : Query.roughParse env.ord text₁ = .ok ⟨sel₁, crit₁⟩) (hq₂ : Query.roughParse env.ord text₂ = .ok ⟨sel₂, crit₂⟩) (k : U64)
    (hk₁ : keyValue crit₁ sch.keys = some k) (hk₂ : keyValue crit₂ sch.keys = some k) (h0 : k ≠ 0)
    (rep₁ rep₂ : Reply) (hrep₁ : (j₁, rep₁) ∈ σ₀.replies) (hrep₂ : (j₂, rep₂) ∈ σ.replies) :
    rep₁ = .ok (render env crit₁ []) ∨
    ∃ x ws₁ ws₂ τ, x < l ∧ (σ.stores s).m.keys x = k ∧ ws₁ <+: ws₂ ∧ StoreConc.Steps env.lib (compile sch) l (σ₀.stores s) τ ∧ StoreConc.Steps env.lib (compile sch) l τ (σ.stores s) ∧
      SerialOrder env.lib (compile sch) l k τ ws₂ ∧
      rep₁ = resultReply env crit₁ (Collation.read env.lib (compile sch) sel₁ (seen x (servedRecord env.lib (compile sch) ws₁))) ∧
      rep₂ = resultReply env crit₂ (Collation.read env.lib (compile sch) sel₂ (seen x (servedRecord env.lib (compile sch) ws₂))) := by
  have hkeys : (compile sch).keys = sch.keys := compile_keys sch
  have hst₀ := steps_store hr hs
  have hst := steps_store hsteps hs
  obtain ⟨i₁, f₁, buf₁, d₁, ho₁, hc₁, hr₁, e₁⟩ := asked hr hs hv hn hl hfirst hreq₁ hq₁ hk₁ hrep₁
  obtain ⟨i₂, f₂, buf₂, d₂, ho₂, hc₂, hr₂, e₂⟩ := asked (hr.trans hsteps) hs hv hn hl hfirst hreq₂ hq₂ hk₂ hrep₂
  have hlate := called_late hr hsteps hj ho₂
  cases f₁ with
  | false => left; rw [e₁]; rfl
  | true =>
    right
    have hk₁' : keyValue (Query.mk sel₁ crit₁).criteria (compile sch).keys = some k := by rw [hkeys]; exact hk₁
    have hk₂' : keyValue (Query.mk sel₂ crit₂).criteria (compile sch).keys = some k := by rw [hkeys]; exact hk₂
    obtain ⟨τ₁, τ₁', a1, a2, a3, a4, a5, a6⟩ := returned_read hl (.refl _) hst₀ hr₁ (by simp [StoreConc.init, BufmapConc.init]) hc₁
    have hd₁ : d₁ < 2 ^ 32 := hun s i₁ buf₁ d₁ (((ext_steps hsteps).rets s).subset hr₁)
    obtain ⟨buf', d', hf⟩ := C88_found env.lib (compile sch) l hl τ₁ τ₁' (σ.stores s) a1 a2 (a5.trans hst) i₁ i₂ _ _ a6 hc₂
      (by obtain ⟨more, hm⟩ := StoreConc.calls_grow a5; rw [hm, List.length_append] at hlate; omega) k hk₁' hk₂' h0 buf₁ d₁ hd₁ a3 _ hr₂
    injection hf with hf _ _
    subst hf
    obtain ⟨τ₂, τ₂', b1, b2, b3, b4, b5, b6⟩ := returned_read hl hst₀ hst hr₂ (not_returned hl hst₀ hlate _) hc₂
    obtain ⟨x, ws₁, ws₂, hx, hkx, hp, s1, s2, g1, g2⟩ := C88_store env.lib (compile sch) l hl τ₁ τ₁' τ₂ τ₂' a1 a2 (a5.trans b1) b2 i₁ i₂ _ _ a6 b6 k hk₁' hk₂' h0
      buf₁ buf₂ d₁ d₂ hd₁ (hun s i₂ buf₂ d₂ hr₂) a3 b3
    have hτσ := (StoreConc.Steps.tail (.refl _) b2).trans b5
    have hg := (BufmapConc.steps_mono hl (BufmapConc.inv_reach hl (StoreConc.steps_m (hst₀.trans b1))) (StoreConc.steps_m hτσ)).1
    refine ⟨x, ws₁, ws₂, τ₂, hx, by rw [hg x (by rw [hkx]; exact h0)]; exact hkx, hp, b1, hτσ, s2, ?_, ?_⟩
    · rw [e₁, g1]; rfl
    · rw [e₂, g2]; rfl

/-- the count that a record says, for slots from which it is read -/
theorem count_seen (lib : Lib) (sch : Schema) (hv : ValidSchema sch) (hd : sch.recordMeasures ≠ []) (x : Nat) (hx : 8 * sch.recordMeasures.length ≤ x) (ws : List Served) :
    Collation.read lib (compile sch) [⟨asc "*", [asc "count"]⟩] (seen x (servedRecord lib (compile sch) ws)) =
      .val ([⟨asc "*", asc "count", F64.ofU64 (BitVec.ofNat 64 ws.length)⟩], none) := by
  obtain ⟨L, D, pos, h, hD⟩ := laid_compile sch hv
  obtain ⟨w, hw, e1, e2, hin⟩ := count_cell h hD hd
  obtain ⟨c1, c2⟩ := count_served lib h hw ws
  have hlen : 0 < sch.recordMeasures.length := List.length_pos_iff.2 hd
  have hrd := count_place sch hd
  have hcl : (servedRecord lib (compile sch) ws).length = (compile sch).size.toNat := c1.len
  have hin' : InRec (compile sch).size.toNat ⟨8 * (sch.recordMeasures.length - 1 : Nat), 8 * sch.recordMeasures.length, .count⟩ :=
    ⟨by simp only; omega, by simp only; omega, by have := hin.high; simp only; omega⟩
  have hhigh := hin.high
  obtain ⟨buf, hseen⟩ : ∃ b, b = seen x (servedRecord lib (compile sch) ws) := ⟨_, rfl⟩
  rw [← hseen]
  have key := ask_reply lib hrd buf
  have e3 : Collation.read lib (compile sch) [⟨asc "*", [asc "count"]⟩] buf = ask lib (compile sch) buf (asc "*") (asc "count") := rfl
  rw [e3, key, cell_read_eq lib hin' (by rw [hseen, seen_length]; exact hcl)]
  simp only
  have hsl := slice_seen (x := x) (lo := w.low.toNat) (hi := w.high.toNat) (d := servedRecord lib (compile sch) ws) (by omega) (by omega)
  rw [← hseen, c2, e1, e2] at hsl
  rw [hsl, readerFn, if_neg]
  · rw [leU64_le64]; rfl
  · simp

/-- **C88, counts**: let a query for count(*) be answered by the moment `σ₀`, and let another for the same key value be received after that and answered by `σ`, whatever other requests are
handled at the same time. If the first answer was a count `n₁`, the second is a count `n₂ ≥ n₁`. (For slots from which the count is read, C30_truncated; `Unwrapped` as in C68.) -/
theorem C88_count_partial (env : Env) (confs : List Conf) (s : Nat) (sch : Schema) (l : Nat) (hs : confs[s]? = some ⟨compile sch, l⟩)
    (hv : ValidSchema sch) (hd : sch.recordMeasures ≠ []) (hn : GoodName sch.name) (hl : 0 < l)
    (hfirst : ∀ s' c', s' < s → confs[s']? = some c' → c'.coll.name ≠ sch.name)
    (σ₀ σ : ServerConc.State) (hr : ServerConc.Steps env confs ServerConc.init σ₀) (hsteps : ServerConc.Steps env confs σ₀ σ) (hun : Unwrapped σ)
    (j₁ j₂ : Nat) (text₁ text₂ : Bytes) (hreq₁ : σ₀.reqs[j₁]? = some (askFor sch.name text₁)) (hreq₂ : σ.reqs[j₂]? = some (askFor sch.name text₂))
    (hj : σ₀.reqs.length ≤ j₂) (crit₁ crit₂ : List FV)
    (hq₁ : Query.roughParse env.ord text₁ = .ok (countQuery crit₁)) (hq₂ : Query.roughParse env.ord text₂ = .ok (countQuery crit₂)) (k : U64)
    (hk₁ : keyValue crit₁ sch.keys = some k) (hk₂ : keyValue crit₂ sch.keys = some k) (h0 : k ≠ 0)
    (hlow : ∀ x, x < l → (σ.stores s).m.keys x = k → 8 * sch.recordMeasures.length ≤ x)
    (rep₁ rep₂ : Reply) (hrep₁ : (j₁, rep₁) ∈ σ₀.replies) (hrep₂ : (j₂, rep₂) ∈ σ.replies) :
    rep₁ = .ok (echo crit₁) ∨
    ∃ n₁ n₂, n₁ ≤ n₂ ∧ rep₁ = .ok (echo crit₁ ++ countLine env n₁) ∧ rep₂ = .ok (echo crit₂ ++ countLine env n₂) := by
  rcases C88_server env confs s sch l hs hv hn hl hfirst σ₀ σ hr hsteps hun j₁ j₂ text₁ text₂ hreq₁ hreq₂ hj _ _ crit₁ crit₂ hq₁ hq₂ k hk₁ hk₂ h0 rep₁ rep₂
    hrep₁ hrep₂ with h | ⟨x, ws₁, ws₂, τ, hx, hkx, hp, _, _, _, e1, e2⟩
  · left; rw [h, render_none]
  · right
    refine ⟨ws₁.length, ws₂.length, hp.length_le, ?_, ?_⟩
    · rw [e1, count_seen env.lib sch hv hd x (hlow x hx hkx) ws₁, ← render_count]; rfl
    · rw [e2, count_seen env.lib sch hv hd x (hlow x hx hkx) ws₂, ← render_count]; rfl

/-! ### while nothing is posted -/

/-- a step inside the map by a goroutine that is not in an Update changes neither keys nor records -/
theorem step_get {l s : Nat} {m m' : BufmapConc.State} {t : Nat} (h : BufmapConc.step l s m t = some m')
    (hu : ∀ id k fn i p, m.pc t ≠ .uProbe id k fn i p) (hw : ∀ k x e p, m.pc t ≠ .w k x e p) : m'.keys = m.keys ∧ m'.cells = m.cells := by
  unfold BufmapConc.step at h
  cases hp : m.pc t with
  | idle => rw [hp] at h; simp at h
  | gone => rw [hp] at h; simp at h
  | uProbe id k fn i p => exact absurd hp (hu _ _ _ _ _)
  | w k x e p => exact absurd hp (hw _ _ _ _)
  | gProbe id k buf i =>
    rw [hp] at h
    simp only at h
    split at h <;> (have h := Option.some.inj h; subst h; exact ⟨rfl, rfl⟩)
  | r id k buf x p =>
    rw [hp] at h
    simp only at h
    split at h
    · have h := Option.some.inj h; subst h; exact ⟨rfl, rfl⟩
    · split at h <;> (have h := Option.some.inj h; subst h; exact ⟨rfl, rfl⟩)

/-- while all posts received are answered, a step changes no record -/
theorem quiet_step {env : Env} {confs : List Conf} (hpos : ∀ c ∈ confs, 0 < c.slots) {σ σ' : ServerConc.State}
    (hr : ServerConc.Steps env confs ServerConc.init σ) (hs : ServerConc.Step env confs σ σ')
    (hq : ∀ j req ls e, σ.reqs[j]? = some req → task env confs req = .observe ls e → ∃ rep, (j, rep) ∈ σ.replies) (s : Nat) :
    (σ'.stores s).m.keys = (σ.stores s).m.keys ∧ (σ'.stores s).m.cells = (σ.stores s).m.cells := by
  have hI := ServerConc.inv_reach hr
  have hI2 := inv2_reach hr
  have hfree : ∀ {t j req ls e}, job (σ.pc t) = some j → σ.reqs[j]? = some req → task env confs req = .observe ls e → False := by
    intro t j req ls e hj h1 h2
    obtain ⟨rep, hrep⟩ := hq j req ls e h1 h2
    exact (hI2.all j rep hrep).free t hj
  have hlines : ∀ {t j p ls e}, σ.pc t = .lines j p ls e → False := by
    intro t j p ls e h
    have := hI.pcs t
    rw [h] at this
    obtain ⟨req, all, h1, h2, _⟩ := this
    exact hfree (t := t) (by rw [h]; rfl) h1 h2
  have hrow : ∀ {t j p ls e r s}, σ.pc t = .row j p ls e r s → False := by
    intro t j p ls e r s h
    have := hI.pcs t
    rw [h] at this
    obtain ⟨req, all, _, h1, h2, _⟩ := this
    exact hfree (t := t) (by rw [h]; rfl) h1 h2
  have hwriting : ∀ {t j p ls e r s i}, σ.pc t = .writing j p ls e r s i → False := by
    intro t j p ls e r s i h
    have := hI.pcs t
    rw [h] at this
    obtain ⟨req, all, _, h1, h2, _⟩ := this
    exact hfree (t := t) (by rw [h]; rfl) h1 h2
  cases hs with
  | receive t req h => unfold State.receive; split <;> exact ⟨rfl, rfl⟩
  | finish t j p e h => exact ⟨rfl, rfl⟩
  | cancelLine t j p line ls e h hc => exact ⟨rfl, rfl⟩
  | parse t j p line ls e h => exact (hlines h).elim
  | stored t j p ls e r h => exact ⟨rfl, rfl⟩
  | skip t j p ls e r s c h hs hk => exact ⟨rfl, rfl⟩
  | cancelWrite t j p ls e r s c k h hs hk hc => exact ⟨rfl, rfl⟩
  | write t j p ls e r s' c k fn h hs hi hk hf => exact (hrow h).elim
  | wrote t j p ls e r s' i ret err h hr' he => exact (hwriting h).elim
  | noKey t j q s c h hs hk => exact ⟨rfl, rfl⟩
  | noBuffer t j q s c k h hs hk hn => exact ⟨rfl, rfl⟩
  | read t j q s' c k h hs hi hk hn =>
    unfold State.enter
    simp only
    by_cases e : s = s'
    · subst e; rw [upd_same]; exact ⟨rfl, rfl⟩
    · rw [upd_other _ _ e]; exact ⟨rfl, rfl⟩
  | answer t j q s i c ret out h hs hr' ho => exact ⟨rfl, rfl⟩
  | inside t s' c m' hs h =>
    by_cases e : s = s'
    · subst e
      simp only
      rw [upd_same]
      have hm := store_inv hpos hr hs
      have hlink := link_reach hpos hr
      -- goroutine `t` is not in an Update
      have hnot : ∀ {id k fn}, (( (σ.stores s).m.pc t).id = some id) → (σ.stores s).m.pc t ≠ .idle → (σ.stores s).m.invs[id]? = some (.upd k fn) → False := by
        intro id k fn hid hne hinv
        by_cases hcall : ∃ i, callOf (σ.pc t) = some (s, i)
        · obtain ⟨i, hcall⟩ := hcall
          have hin := hlink.call t s i hcall
          have hii : i = id := by
            rcases hin.2 with ⟨h1, _⟩ | h1 | ⟨h1, _⟩
            · exact absurd h1 hne
            · rw [hid] at h1; exact (Option.some.inj h1).symm
            · rw [h1] at hid; simp [BufmapConc.PC.id] at hid
          cases hpc : σ.pc t with
          | writing j p ls e r s i => exact hwriting hpc
          | reading j q s0 i0 =>
            rw [hpc] at hcall
            simp only [callOf, Option.some.injEq, Prod.mk.injEq] at hcall
            obtain ⟨rfl, rfl⟩ := hcall
            have hp := hI.pcs t
            rw [hpc] at hp
            obtain ⟨req, _, _, _, hcl⟩ := hp
            have hok := StoreConc.callsOk_steps (StoreConc.callsOk_init env.lib c.coll) (steps_store hr hs)
            obtain ⟨c', k', hs', hk'⟩ := hI2.rd t j q s0 i0 hpc
            rw [hs] at hs'
            obtain rfl := Option.some.inj hs'
            have := hok.read hcl hk'
            rw [hii, hinv] at this
            simp at this
          | idle => rw [hpc] at hcall; simp [callOf] at hcall
          | lines j p ls e => rw [hpc] at hcall; simp [callOf] at hcall
          | row j p ls e r s => rw [hpc] at hcall; simp [callOf] at hcall
          | ask j q s => rw [hpc] at hcall; simp [callOf] at hcall
        · exact hne (hlink.idle t s (fun i hi => hcall ⟨i, hi⟩))
      have ht := hm.thr t
      refine step_get h ?_ ?_
      · intro id k fn i p hp
        rw [hp] at ht
        exact hnot (by rw [hp]; rfl) (by rw [hp]; simp) ht.1
      · intro k x e p hp
        rw [hp] at ht
        exact hnot (by rw [hp]; rfl) (by rw [hp]; simp) ht.1
    · simp only
      rw [upd_other _ _ e]
      exact ⟨rfl, rfl⟩

/-- while all posts received are answered, the records stay as they are -/
theorem quiet_steps {env : Env} {confs : List Conf} (hpos : ∀ c ∈ confs, 0 < c.slots) {σ₁ σ : ServerConc.State}
    (hr : ServerConc.Steps env confs ServerConc.init σ₁) (hs : ServerConc.Steps env confs σ₁ σ)
    (hq : ∀ j req ls e, σ.reqs[j]? = some req → task env confs req = .observe ls e → ∃ rep, (j, rep) ∈ σ₁.replies) (s : Nat) :
    (σ.stores s).m.keys = (σ₁.stores s).m.keys ∧ (σ.stores s).m.cells = (σ₁.stores s).m.cells := by
  induction hs with
  | refl => exact ⟨rfl, rfl⟩
  | @tail a b h0 h1 ih =>
    have hx := ext_step h1
    have hx0 := ext_steps h0
    obtain ⟨e1, e2⟩ := ih fun j req ls e h => hq j req ls e (prefix_get hx.reqs h)
    obtain ⟨g1, g2⟩ := quiet_step hpos (hr.trans h0) h1 (fun j req ls e h h' => by
      obtain ⟨rep, hrep⟩ := hq j req ls e (prefix_get hx.reqs h) h'
      exact ⟨rep, hx0.replies.subset hrep⟩) s
    exact ⟨g1.trans e1, g2.trans e2⟩

/-- **C88, while nothing is posted**: let every post received by the moment `σ` have been answered by `σ₁`, and let the same query (about a key value) be received twice, or by two clients, after `σ₁`,
and be answered by `σ`. Both get the same answer, whatever other queries are handled at the same time. -/
theorem C88_stable (env : Env) (confs : List Conf) (hpos : ∀ c ∈ confs, 0 < c.slots) (s : Nat) (sch : Schema) (l : Nat) (hs : confs[s]? = some ⟨compile sch, l⟩)
    (hv : ValidSchema sch) (hn : GoodName sch.name) (hfirst : ∀ s' c', s' < s → confs[s']? = some c' → c'.coll.name ≠ sch.name)
    (σ₁ σ : ServerConc.State) (hr : ServerConc.Steps env confs ServerConc.init σ₁) (hsteps : ServerConc.Steps env confs σ₁ σ) (hun : Unwrapped σ)
    (hquiet : ∀ j req, σ.reqs[j]? = some req → req.path = asc "/obs" → ∃ rep, (j, rep) ∈ σ₁.replies)
    (j₁ j₂ : Nat) (hj₁ : σ₁.reqs.length ≤ j₁) (hj₂ : σ₁.reqs.length ≤ j₂) (text : Bytes) (hreq₁ : σ.reqs[j₁]? = some (askFor sch.name text))
    (hreq₂ : σ.reqs[j₂]? = some (askFor sch.name text)) (sel : List FM) (crit : List FV) (hq : Query.roughParse env.ord text = .ok ⟨sel, crit⟩) (k : U64)
    (hk : keyValue crit sch.keys = some k) (h0 : k ≠ 0) (rep₁ rep₂ : Reply) (hrep₁ : (j₁, rep₁) ∈ σ.replies) (hrep₂ : (j₂, rep₂) ∈ σ.replies) :
    rep₁ = rep₂ := by
  have hl : 0 < l := hpos _ (List.mem_of_getElem? hs)
  have hkeys : (compile sch).keys = sch.keys := compile_keys sch
  have hk' : keyValue (Query.mk sel crit).criteria (compile sch).keys = some k := by rw [hkeys]; exact hk
  have hst₁ := steps_store hr hs
  have hst := steps_store hsteps hs
  obtain ⟨ek, ec⟩ := quiet_steps hpos hr hsteps (fun j req ls e h h' => hquiet j req h (task_observe h').1) s
  -- what one of them sees
  have one : ∀ j rep, σ₁.reqs.length ≤ j → σ.reqs[j]? = some (askFor sch.name text) → (j, rep) ∈ σ.replies →
      (rep = resultReply env crit (.val ([], none)) ∧ ∀ x, x < l → (σ₁.stores s).m.keys x ≠ k) ∨
      ∃ x, x < l ∧ (σ₁.stores s).m.keys x = k ∧ rep = resultReply env crit (Collation.read env.lib (compile sch) sel
        (seen x (servedRecord env.lib (compile sch) ((writesOf (σ₁.stores s).m.cells.log x).map (StoreConc.servedOf (σ₁.stores s)))))) := by
    intro j rep hj hreq hrep
    obtain ⟨i, f, buf, d, ho, hc, hret, e⟩ := asked (hr.trans hsteps) hs hv hn hl hfirst hreq hq hk hrep
    have hlate := called_late hr hsteps hj ho
    cases f with
    | false =>
      refine .inl ⟨e, fun x hx hkx => ?_⟩
      exact found_of_key hl hst₁ hst h0 hx hkx hlate hc hk' hret
    | true =>
      right
      obtain ⟨τ, τ', b1, b2, b3, b4, b5, b6⟩ := returned_read hl hst₁ hst hret (not_returned hl hst₁ hlate _) hc
      obtain ⟨x, hx, hkx, eb⟩ := snapshot_seen hl (hst₁.trans b1) b2 b6 hk' h0 (hun s i buf d hret) b3
      have hτσ := (StoreConc.Steps.tail (.refl _) b2).trans b5
      obtain ⟨g1, _, ⟨m1, hm1⟩, _⟩ := BufmapConc.steps_mono hl (BufmapConc.inv_reach hl (StoreConc.steps_m hst₁)) (StoreConc.steps_m b1)
      obtain ⟨g2, _, ⟨m2, hm2⟩, _⟩ := BufmapConc.steps_mono hl (BufmapConc.inv_reach hl (StoreConc.steps_m (hst₁.trans b1))) (StoreConc.steps_m hτσ)
      have hm : m1 = [] := by
        rw [ec, hm1, List.append_assoc] at hm2
        have := congrArg List.length hm2
        simp only [List.length_append] at this
        exact List.length_eq_zero_iff.1 (by omega)
      rw [hm, List.append_nil] at hm1
      have hkx₁ : (σ₁.stores s).m.keys x = k := by
        rw [← ek, g2 x (by rw [hkx]; exact h0)]; exact hkx
      refine ⟨x, hx, hkx₁, ?_⟩
      rw [e, eb, hm1, served_later hl hst₁ b1 hkx₁]
      rfl
  rcases one j₁ rep₁ hj₁ hreq₁ hrep₁ with ⟨e1, n1⟩ | ⟨x, hx, hkx, e1⟩ <;> rcases one j₂ rep₂ hj₂ hreq₂ hrep₂ with ⟨e2, n2⟩ | ⟨y, hy, hky, e2⟩
  · rw [e1, e2]
  · exact absurd hky (n1 y hy)
  · exact absurd hkx (n2 x hx)
  · have hxy : x = y := (BufmapConc.inv_reach hl (StoreConc.steps_m hst₁)).keys.unique hx hy (by rw [hkx]; exact h0) (by rw [hkx, hky])
    subst hxy
    rw [e1, e2]

end Starbow.Props
