import Verif.Proof.StoreServe
import Verif.Props.StoreConc
/-
Properties C65 and C66: the statistics the store reports under concurrent calls of Write and Read.
-/
namespace Starbow.Props
open Starbow.Collation Starbow.Spec Starbow.Storage Starbow.StoreConc Starbow.BufmapConc Starbow.Cell

/-- what a Read sees, with the serial order of the log -/
theorem snapshot_log (lib : Lib) (c : Collator) (l : Nat) (hl : 0 < l) (σ σ' : StoreConc.State) (hr : StoreConc.Steps lib c l StoreConc.init σ)
    (hs : StoreConc.Step lib c l σ σ') (i : Nat) (q : Query) (hq : σ.calls[i]? = some (.read q)) (k : U64)
    (hk : keyValue q.criteria c.keys = some k) (h0 : k ≠ 0) (hlow : ∀ x, x < l → σ.m.keys x = k → c.size.toNat ≤ x)
    (buf : Bytes) (d : Nat) (hd : d < 2 ^ 32) (hret : σ'.m.rets = σ.m.rets ++ [(i, .got true buf d)]) :
    ∃ x, x < l ∧ σ.m.keys x = k ∧ buf = servedRecord lib c ((writesOf σ.m.cells.log x).map (servedOf σ)) := by
  have hc := callsOk_steps (callsOk_init lib c) hr
  have hcall := hc.read hq hk
  obtain ⟨x, hx, hkx, hb, he⟩ := C35_partial l c.size.toNat hl σ.m σ'.m (steps_m hr) (step_m hs) i k h0
    (List.replicate c.size.toNat 0) buf (by simp) d hd hcall hret
  refine ⟨x, hx, hkx, ?_⟩
  have hrun : runAll c.size.toNat (writesOf σ.m.cells.log x) = servedRecord lib c ((writesOf σ.m.cells.log x).map (servedOf σ)) :=
    runAll_served _ fun e he => (log_served hl hr hkx e he).2
  have hx2 := hlow x hx hkx
  rw [he, hb, hrun, List.length_replicate, Nat.min_eq_left hx2, List.drop_replicate, Nat.sub_self, List.replicate_zero, List.append_nil,
    List.take_of_length_le (by rw [servedRecord_length])]

/-- **C65**: take any interleaving of Writes and Reads, and a Read that found a record, at the moment it returns. If the Writes of that
key called so far are all accepted in the end (`σ₂`), then sum, mean and var of every field, if the Read asks for them, are the running
sum, mean and sample variance (C17 to C21) of the numbers that those Writes carried that are in a serial order respecting time: nothing
is lost and nothing is counted twice, even while the record is being created by several Writes at once. (For slots whose whole record
is read, see C30_truncated; 2^32 as in C35.) -/
theorem C65_partial (lib : Lib) (sch : Schema) (hv : ValidSchema sch) (l : Nat) (hl : 0 < l)
    (σ σ' σ₂ : StoreConc.State) (hr : StoreConc.Steps lib (compile sch) l StoreConc.init σ)
    (hs : StoreConc.Step lib (compile sch) l σ σ') (h2 : StoreConc.Steps lib (compile sch) l σ' σ₂)
    (i : Nat) (q : Query) (hq : σ.calls[i]? = some (.read q)) (k : U64) (hk : keyValue q.criteria sch.keys = some k) (h0 : k ≠ 0)
    (hacc : ∀ j ∈ startedWrites sch.keys k σ, (j, .ran none) ∈ σ₂.m.rets)
    (hlow : ∀ x, x < l → σ.m.keys x = k → (compile sch).size.toNat ≤ x)
    (buf : Bytes) (d : Nat) (hdur : d < 2 ^ 32) (hret : σ'.m.rets = σ.m.rets ++ [(i, .got true buf d)]) :
    ∃ ws, SerialOrder lib (compile sch) l k σ ws ∧ ∀ f,
      (Declares sch f .sum → q.fieldMeasures = [⟨f, [asc "sum"]⟩] → readReply lib (compile sch) q (.got true buf d) =
        some (.val ([⟨f, asc "sum", (numbersOf lib f (ws.map Served.row)).foldl F64.add (.fin false 0)⟩], none))) ∧
      (Declares sch f .mean → q.fieldMeasures = [⟨f, [asc "mean"]⟩] → readReply lib (compile sch) q (.got true buf d) =
        some (.val ([⟨f, asc "mean", (after (numbersOf lib f (ws.map Served.row))).mean⟩], none))) ∧
      (Declares sch f .variance → q.fieldMeasures = [⟨f, [asc "var"]⟩] → readReply lib (compile sch) q (.got true buf d) =
        some (.val ([⟨f, asc "var", (after (numbersOf lib f (ws.map Served.row))).variance.getD .nan⟩], none))) := by
  have hkeys : (compile sch).keys = sch.keys := compile_keys sch
  obtain ⟨x, hx, hkx, hbuf⟩ := snapshot_log lib (compile sch) l hl σ σ' hr hs i q hq k (by rw [hkeys]; exact hk) h0 hlow buf d hdur hret
  have hacc' := accepted_log (c := compile sch) hl hr (StoreConc.Steps.trans (.tail (.refl _) hs) h2) hkx (by rw [hkeys]; exact hacc)
  refine ⟨_, serial_order hl hr hx h0 hkx, ?_⟩
  generalize (writesOf σ.m.cells.log x).map (servedOf σ) = ws at *
  obtain ⟨L, D, pos, h, hD⟩ := laid_compile sch hv
  intro f
  have key : ∀ m : Measure, Declares sch f m → m.stat = true → m.continuousInput = true →
      ∃ b, 32 ≤ b.length ∧ Stat64.load b = after (numbersOf lib f (ws.map Served.row)) ∧
        ask lib (compile sch) buf f m.name = reply f m.name (readerFn lib m b) := by
    intro m hd hs hm
    obtain ⟨r, w, h1, h2, h3, e1, e2, hc, hin⟩ := cont_reader h ((hD f m).2 hd) hm
    obtain ⟨g1, g2⟩ := compat_stat hc hs hm
    have hst := stat_served lib h h3 g1 ws hacc'
    have hlen : 32 ≤ (List.replicate (32 : Int).toNat 0#8).length := by simp
    obtain ⟨k1, k2⟩ := stat_fold (numbersOf lib f (ws.map Served.row)) (List.replicate (32 : Int).toNat 0#8) hlen
    rw [stat_size g1 g2] at hst
    refine ⟨_, by rw [k1]; exact hlen, ?_, ?_⟩
    · rw [k2]
      have := Stat64.load_zero []
      rw [List.append_nil] at this
      rw [show List.replicate (32 : Int).toNat 0#8 = Stat64.new from rfl, this]
      rfl
    · rw [ask_reply lib h1, cell_read_eq lib hin (by rw [hbuf, servedRecord_length]), h2, ← e1, ← e2, hbuf]
      rw [hst]
  have rep : ∀ m : Measure, q.fieldMeasures = [⟨f, [m.name]⟩] →
      readReply lib (compile sch) q (.got true buf d) = some (ask lib (compile sch) buf f m.name) := by
    intro m hm
    unfold readReply ask
    rw [hm]
  refine ⟨fun hd hm => ?_, fun hd hm => ?_, fun hd hm => ?_⟩
  · obtain ⟨b, b1, b2, b3⟩ := key _ hd rfl rfl
    rw [rep .sum hm, b3, readerFn, (accessors b b1).2.1, b2, after_sum]
    rfl
  · obtain ⟨b, b1, b2, b3⟩ := key _ hd rfl rfl
    rw [rep .mean hm, b3, readerFn, (accessors b b1).2.2.1, b2]
    rfl
  · obtain ⟨b, b1, b2, b3⟩ := key _ hd rfl rfl
    rw [rep .variance hm, b3, readerFn, (accessors b b1).2.2.2, b2]
    rfl

/-- **C66**, partial: if the first Write of a key returned before any other Write of it was called (`σ₀`), and the key got its home slot,
then, whatever the interleaving of later Writes and Reads, every Read that found a record is answered from the record of the observations
in a serial order respecting time, exactly as if they had been written one after the other (what that record says of each measure is
C25). Provisos as in C65. Missing: several first Writes at once and keys out of their home slot, where the claim fails. -/
theorem C66_partial (lib : Lib) (c : Collator) (l : Nat) (hl : 0 < l)
    (σ₀ σ σ' σ₂ : StoreConc.State) (hr₀ : StoreConc.Steps lib c l StoreConc.init σ₀) (hr₁ : StoreConc.Steps lib c l σ₀ σ)
    (hs : StoreConc.Step lib c l σ σ') (h2 : StoreConc.Steps lib c l σ' σ₂)
    (i : Nat) (q : Query) (hq : σ.calls[i]? = some (.read q)) (k : U64) (hk : keyValue q.criteria c.keys = some k) (h0 : k ≠ 0)
    (i₀ : Nat) (hfirst : startedWrites c.keys k σ₀ = [i₀]) (hdone : doneWrites c.keys k σ₀ = [i₀]) (hhome : σ₀.m.keys (k.toNat % l) = k)
    (hacc : ∀ j ∈ startedWrites c.keys k σ, (j, .ran none) ∈ σ₂.m.rets) (hlow : c.size.toNat ≤ k.toNat % l)
    (buf : Bytes) (d : Nat) (hdur : d < 2 ^ 32) (hret : σ'.m.rets = σ.m.rets ++ [(i, .got true buf d)]) :
    ∃ ws rec, SerialOrder lib c l k σ ws ∧ RecordOf lib c (ws.map Served.row) rec ∧
      readReply lib c q (.got true buf d) = some (Collation.read lib c q.fieldMeasures rec) := by
  have hr := hr₀.trans hr₁
  have hI₀ := inv_reach hl (steps_m hr₀)
  have hI := inv_reach hl (steps_m hr)
  have hc₀ := callsOk_steps (callsOk_init lib c) hr₀
  have hmlt : k.toNat % l < l := Nat.mod_lt _ hl
  have hgrow : σ.m.keys (k.toNat % l) = k := by
    rw [(BufmapConc.steps_mono hl hI₀ (steps_m hr₁)).1 _ (by rw [hhome]; exact h0)]; exact hhome
  have huniq : ∀ x, x < l → σ.m.keys x = k → x = k.toNat % l := by
    intro x hx hkx
    exact hI.keys.unique hx hmlt (by rw [hkx]; exact h0) (by rw [hkx, hgrow])
  obtain ⟨x, hx, hkx, hbuf⟩ := snapshot_log lib c l hl σ σ' hr hs i q hq k hk h0
    (fun x hx hkx => by rw [huniq x hx hkx]; exact hlow) buf d hdur hret
  have hacc' := accepted_log hl hr (StoreConc.Steps.trans (.tail (.refl _) hs) h2) hkx hacc
  have hord := serial_order (lib := lib) (c := c) hl hr hx h0 hkx
  have hlog := log_served hl hr hkx
  obtain ⟨_, ⟨moreI, hmI⟩, ⟨moreL, hmL⟩, _⟩ := BufmapConc.steps_mono hl hI₀ (steps_m hr₁)
  -- the first write was told so
  obtain ⟨r₀, err₀, hw₀, hret₀⟩ := mem_done.1 (show i₀ ∈ doneWrites c.keys k σ₀ by rw [hdone]; simp)
  obtain ⟨fn₀, hfn₀, _⟩ := hc₀.write hw₀.1 hw₀.2
  have hall : AllReturned σ₀.m k := by
    intro id fn hid
    obtain ⟨r, h1, h2, _⟩ := hc₀.ok id _ hid
    have : id ∈ startedWrites c.keys k σ₀ := mem_started.2 ⟨r, h1, h2⟩
    rw [hfirst, List.mem_singleton] at this
    subst this
    exact ⟨_, hret₀⟩
  obtain ⟨x', e, hx', he, hinit⟩ := C31_told_partial l c.size.toNat hl σ₀.m (steps_m hr₀) k hall i₀ fn₀ err₀ hfn₀ hret₀
  have hel₀ := BufmapConc.mem_writesOf.mp he
  have hel : (x', e) ∈ σ.m.cells.log := by rw [hmL]; exact List.mem_append_left _ hel₀
  have hxx : x' = x := by
    have h1 := (hI.logok x' e hel).1
    have h3 : σ.m.keys x' = k := by
      rw [(BufmapConc.steps_mono hl hI₀ (steps_m hr₁)).1 _ (by rw [hx']; exact h0)]; exact hx'
    rw [huniq x hx hkx, huniq x' h1 h3]
  subst hxx
  have hsub₀ : ∀ e', e' ∈ writesOf σ.m.cells.log x' → e'.id < σ₀.m.invs.length → e'.id = i₀ := by
    intro e' he' hlt
    have hwe := (hlog e' he').1
    obtain ⟨more, hm⟩ := calls_grow hr₁
    have h1 := hwe.1
    rw [hm, List.getElem?_append_left (by rw [hc₀.len]; exact hlt)] at h1
    have : e'.id ∈ startedWrites c.keys k σ₀ := mem_started.2 ⟨_, h1, hwe.2⟩
    rw [hfirst, List.mem_singleton] at this
    exact this
  have heid : e.id = i₀ := hsub₀ e (BufmapConc.mem_writesOf.mpr hel) (inv_lt (hI₀.logok x' e hel₀).2.2)
  have hnd := BufmapConc.writesOf_nodup hI.lg.nodup x'
  have hnew : ∀ e' ∈ writesOf σ.m.cells.log x', e'.id = i₀ → e'.init = true := by
    intro e' he' hid
    obtain ⟨u, v, huv⟩ := List.append_of_mem he'
    obtain ⟨u', v', huv'⟩ := List.append_of_mem (BufmapConc.mem_writesOf.mpr hel)
    rw [huv] at hnd
    have := (nodup_split (·.id) u u' v v' e' e hnd (huv.symm.trans huv') (by rw [hid, heid])).2
    rw [this]; exact hinit
  have hold : ∀ e' ∈ writesOf σ.m.cells.log x', e'.id ≠ i₀ → e'.init = false := by
    intro e' he' hid
    refine C31_home_partial l c.size.toNat hl σ₀.m σ.m (steps_m hr₀) (steps_m hr₁) k h0 hhome x' hkx e' he' ?_
    rcases Nat.lt_or_ge e'.id σ₀.m.invs.length with h1 | h1
    · exact absurd (hsub₀ e' he' h1) hid
    · exact h1
  -- it comes first
  obtain ⟨a, b, hab, ha1, ha2⟩ := hord.time σ₀ hr₀ hr₁
  have hmem : ∀ w ∈ (writesOf σ.m.cells.log x').map (servedOf σ), (w.id = i₀ → w.new = true) ∧ (w.id ≠ i₀ → w.new = false) := by
    intro w hw
    obtain ⟨e', he', rfl⟩ := List.mem_map.1 hw
    exact ⟨hnew e' he', hold e' he'⟩
  have hi₀ : i₀ ∈ a.map Served.id := ha1 i₀ (by rw [hdone]; simp)
  have honly : ∀ w ∈ a, w.id = i₀ := by
    intro w hw
    have := ha2 w hw
    rw [hfirst, List.mem_singleton] at this
    exact this
  have honce := hord.once
  rw [hab] at honce hmem hacc' hbuf hord
  cases a with
  | nil => simp at hi₀
  | cons w₀ a =>
    rw [List.cons_append, List.map_cons, List.nodup_cons] at honce
    have hid₀ := honly w₀ (by simp)
    have hrest : ∀ v ∈ a ++ b, v.new = false := by
      intro v hv
      refine (hmem v (by rw [List.cons_append]; simp only [List.mem_cons]; exact .inr hv)).2 ?_
      intro e
      exact honce.1 (by rw [hid₀, ← e]; exact List.mem_map.2 ⟨v, hv, rfl⟩)
    rw [List.cons_append] at hacc' hbuf hord hmem
    refine ⟨_, _, hord, recordOf_served lib c w₀ (a ++ b) ((hmem w₀ (by simp)).1 hid₀) hrest hacc', ?_⟩
    rw [hbuf]; rfl

end Starbow.Props
