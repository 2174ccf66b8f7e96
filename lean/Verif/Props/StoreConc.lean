import Verif.Proof.StoreAlone
import Verif.Props.StoreRun
/-
Properties C64 and C65: the store under concurrent calls of Write and Read.
`Steps lib c l init σ`: σ is reachable, under some interleaving of calls of any number of goroutines, from a fresh store with the collator
`c` on a map of `l` slots.
-/
namespace Starbow.Props
open Starbow.Collation Starbow.Spec Starbow.Storage Starbow.StoreConc Starbow.BufmapConc Starbow.Cell

/-- **C64**, what a Read sees: when a Read of key `k` that found a record returns, in any interleaving, the buffer it works on is made of
the first `x` bytes of a record, followed by zeroes, where `x` is the number of the slot of the key (see C30_truncated), and that record is
what results from serving, one after the other, writes of `k` in an order that respects time: it contains every write that had returned
and no write that was not yet called when the Read returned (`SerialOrder.time` at that moment). Proviso: fewer than 2^32 increments of the sequence number during the copy, as in C35. -/
theorem C64_snapshot (lib : Lib) (c : Collator) (l : Nat) (hl : 0 < l) (σ σ' : StoreConc.State) (hr : StoreConc.Steps lib c l StoreConc.init σ)
    (hs : StoreConc.Step lib c l σ σ') (i : Nat) (q : Query) (hq : σ.calls[i]? = some (.read q)) (k : U64)
    (hk : keyValue q.criteria c.keys = some k) (h0 : k ≠ 0) (buf : Bytes) (d : Nat) (hd : d < 2 ^ 32)
    (hret : σ'.m.rets = σ.m.rets ++ [(i, .got true buf d)]) :
    ∃ x ws, x < l ∧ σ.m.keys x = k ∧ SerialOrder lib c l k σ ws ∧
      buf = (servedRecord lib c ws).take x ++ List.replicate (c.size.toNat - x) 0#8 := by
  have hc := callsOk_steps (callsOk_init lib c) hr
  have hcall := hc.read hq hk
  obtain ⟨x, hx, hkx, hb, he⟩ := C35_partial l c.size.toNat hl σ.m σ'.m (steps_m hr) (step_m hs) i k h0
    (List.replicate c.size.toNat 0) buf (by simp) d hd hcall hret
  refine ⟨x, _, hx, hkx, serial_order hl hr hx h0 hkx, ?_⟩
  have hrun : runAll c.size.toNat (writesOf σ.m.cells.log x) = servedRecord lib c ((writesOf σ.m.cells.log x).map (servedOf σ)) :=
    runAll_served _ fun e he => (log_served hl hr hkx e he).2
  rw [he, hb, hrun]
  have hlen : (servedRecord lib c ((writesOf σ.m.cells.log x).map (servedOf σ))).length = c.size.toNat := by
    rw [← hrun]; exact runAll_length _ _
  rw [List.length_replicate, List.drop_replicate]
  congr 1
  · rw [← List.take_take, List.take_of_length_le (i := c.size.toNat)]
    rw [List.length_take]; omega
  · congr 1; omega

section
variable {sch : Schema} {L : List (Owner × Collation.Cell)} {D : List (Bytes × Measure)} {pos : Int}

/-- every served write is counted, whatever it was told and returned -/
theorem count_served (lib : Lib) (h : Laid ⟨compile sch, pos⟩ L D) {w : Collation.Cell} (hw : (Owner.row, w) ∈ L) (ws : List Served) :
    Hold ⟨compile sch, pos⟩ L [] (servedRecord lib (compile sch) ws) ∧
    slice (servedRecord lib (compile sch) ws) w.low.toNat w.high.toNat = le64 (BitVec.ofNat 64 ws.length) := by
  have hm : w.m = .count := (h.cell _ w hw).2.2.2.2
  induction ws using List.reverseRecOn with
  | nil =>
    refine ⟨hold_blank h, ?_⟩
    rw [show slice (servedRecord lib (compile sch) []) w.low.toNat w.high.toNat = _ from blank_slice h hw, hm]
    decide
  | append_singleton ws s ih =>
    rw [servedRecord_snoc]
    refine ⟨update_length lib h ih.1 _ _, ?_⟩
    rw [count_update lib h hw ih.1, ih.2, countWriter_eq _ (by simp), leU64_le64, List.length_append, List.length_singleton]
    congr 1
    apply BitVec.eq_of_toNat_eq
    simp [BitVec.toNat_add, BitVec.toNat_ofNat]

end

/-- **C64**: when a Read of count(*) that found a record returns, in any interleaving of Writes and Reads, the count it reports is at least
the number of observations of that key whose Write had then returned and at most the number of
those whose Write had then been called. So without Writes in progress it is exact. (For slots from which the count is
read, see C30_truncated; 2^32 as in C35.) -/
theorem C64_count_partial (lib : Lib) (sch : Schema) (hv : ValidSchema sch) (hd : sch.recordMeasures ≠ []) (l : Nat) (hl : 0 < l)
    (σ σ' : StoreConc.State) (hr : StoreConc.Steps lib (compile sch) l StoreConc.init σ)
    (hs : StoreConc.Step lib (compile sch) l σ σ') (i : Nat) (crit : List FV) (hq : σ.calls[i]? = some (.read (countQuery crit))) (k : U64) (hk : keyValue crit sch.keys = some k) (h0 : k ≠ 0)
    (hlow : ∀ x, x < l → σ.m.keys x = k → 8 * sch.recordMeasures.length ≤ x)
    (buf : Bytes) (d : Nat) (hdur : d < 2 ^ 32) (hret : σ'.m.rets = σ.m.rets ++ [(i, .got true buf d)]) :
    ∃ n, readReply lib (compile sch) (countQuery crit) (.got true buf d) =
        some (.val ([⟨asc "*", asc "count", F64.ofU64 (BitVec.ofNat 64 n)⟩], none)) ∧
      (doneWrites sch.keys k σ).length ≤ n ∧ n ≤ (startedWrites sch.keys k σ).length := by
  obtain ⟨L, D, pos, h, hD⟩ := laid_compile sch hv
  have hkeys : (compile sch).keys = sch.keys := compile_keys sch
  obtain ⟨x, ws, hx, hkx, hord, hbuf⟩ := C64_snapshot lib (compile sch) l hl σ σ' hr hs i _ hq k (by rw [hkeys]; exact hk) h0 buf d
    hdur hret
  have hxl := hlow x hx hkx
  refine ⟨ws.length, ?_, ?_, ?_⟩
  · obtain ⟨w, hw, e1, e2, hin⟩ := count_cell h hD hd
    obtain ⟨c1, c2⟩ := count_served lib h hw ws
    have hlen : 0 < sch.recordMeasures.length := List.length_pos_iff.2 hd
    have hrd := count_place sch hd
    have hcl : (servedRecord lib (compile sch) ws).length = (compile sch).size.toNat := c1.len
    have hseen : buf = seen x (servedRecord lib (compile sch) ws) := by rw [hbuf]; unfold seen; rw [hcl]
    have hin' : InRec (compile sch).size.toNat ⟨8 * (sch.recordMeasures.length - 1 : Nat), 8 * sch.recordMeasures.length, .count⟩ :=
      ⟨by simp only; omega, by simp only; omega, by have := hin.high; simp only; omega⟩
    have hhigh := hin.high
    have key := ask_reply lib hrd buf
    unfold readReply countQuery
    simp only
    have e3 : Collation.read lib (compile sch) [⟨asc "*", [asc "count"]⟩] buf = ask lib (compile sch) buf (asc "*") (asc "count") := rfl
    rw [e3, key, cell_read_eq lib hin' (by rw [hseen, seen_length]; exact hcl)]
    simp only
    have hsl := slice_seen (x := x) (lo := w.low.toNat) (hi := w.high.toNat) (d := servedRecord lib (compile sch) ws) (by omega) (by omega)
    rw [← hseen, c2, e1, e2] at hsl
    rw [hsl, readerFn, if_neg]
    · rw [leU64_le64]; rfl
    · simp
  · obtain ⟨a, b, hab, hdone, _⟩ := hord.time σ hr (.refl _)
    have hsub : doneWrites sch.keys k σ ⊆ ws.map Served.id := by
      intro j hj
      rw [hab, List.map_append]
      exact List.mem_append_left _ (hdone j (by rw [hkeys]; exact hj))
    have := ((done_nodup sch.keys k σ).subperm hsub).length_le
    rw [List.length_map] at this
    exact this
  · have hsub : ws.map Served.id ⊆ startedWrites sch.keys k σ := by
      intro j hj
      obtain ⟨w, hw, rfl⟩ := List.mem_map.1 hj
      have := hord.writes w hw
      rw [hkeys] at this
      exact mem_started.2 ⟨_, this⟩
    have := (hord.once.subperm hsub).length_le
    rw [List.length_map] at this
    exact this

/-- **C64**, records are found: a Read called after some Write of its key had returned (having updated the record) never answers that
there is no record, whatever the interleaving. -/
theorem C64_found (lib : Lib) (c : Collator) (l : Nat) (hl : 0 < l) (σ₀ σ : StoreConc.State) (hr : StoreConc.Steps lib c l StoreConc.init σ₀)
    (hs : StoreConc.Steps lib c l σ₀ σ) (k : U64) (h0 : k ≠ 0) (hdone : doneWrites c.keys k σ₀ ≠ []) (i : Nat) (hlate : σ₀.calls.length ≤ i)
    (q : Query) (hq : σ.calls[i]? = some (.read q)) (hk : keyValue q.criteria c.keys = some k) (ret : Ret) (hret : (i, ret) ∈ σ.m.rets) :
    ∃ buf d, ret = .got true buf d := by
  have hc0 := callsOk_steps (callsOk_init lib c) hr
  have hc := callsOk_steps hc0 hs
  have h := inv_reach hl (steps_m hr)
  have h' := inv_reach hl (steps_m (hr.trans hs))
  have hinv := hc.read hq hk
  have hok := h'.rok i ret hret
  cases ret with
  | ran err =>
    obtain ⟨x, e, es, rest, he, hx, hes, _⟩ := hok
    obtain ⟨_, _, hi⟩ := h'.logok x e (Props.BufmapConc.mem_writesOf.mp (by rw [hes]; simp))
    rw [he, hinv] at hi
    injection hi with hi
    exact absurd hi (by simp)
  | invalidKey => obtain ⟨fn, hi⟩ := hok; rw [hinv] at hi; simp at hi
  | outOfSlots => obtain ⟨_, fn, hi, _⟩ := hok; rw [hinv] at hi; simp at hi
  | got f buf d =>
    cases f with
    | true => exact ⟨buf, d, rfl⟩
    | false =>
      exfalso
      obtain ⟨j0, rest0, hj0⟩ := List.exists_cons_of_ne_nil hdone
      obtain ⟨r, e0, hw, hran⟩ := mem_done.1 (show j0 ∈ doneWrites c.keys k σ₀ by rw [hj0]; simp)
      obtain ⟨x, e, es, rest, he, hx, hes, _⟩ := h.rok j0 _ hran
      obtain ⟨_, hne, hi⟩ := h.logok x e (Props.BufmapConc.mem_writesOf.mp (by rw [hes]; simp))
      obtain ⟨fn, hfn, _⟩ := hc0.write hw.1 hw.2
      rw [he, hfn] at hi
      injection hi with hi
      injection hi with hkx _
      obtain ⟨j, hj, hpos, _⟩ := h.keys x hx hne
      have hthere : σ₀.m.keys (Probe.pos l k j) = k := by rw [hkx, hpos]
      have hkn := known_steps hl h0 hj h (Nat.le_refl _) (known_start h hthere) (steps_m hs)
      have := hkn.miss i buf d _ hret hinv
      rw [hc0.len] at hlate
      omega

/-- **C64**, agreement with the sequential model: if the shared memory is that of the sequential store's map `m`, then a Write by a
goroutine that is the only one to move returns what the sequential Write returns and leaves the memory of the sequential result. -/
theorem C64_write_alone (lib : Lib) (c : Collator) (l t : Nat) (hl : 0 < l) (σ : StoreConc.State) (m : Bufmap.Map)
    (hs : Same l c.size.toNat σ.m m) (hpc : σ.m.pc t = .idle) (r : Row) (k : U64) (hk : keyValue r.data c.keys = some k)
    (st : Store) (err : Option Err) (h : Storage.write lib ⟨m, c⟩ false r = (st, .ret err)) :
    ∃ σ' ret, StoreConc.Steps lib c l σ σ' ∧ σ'.calls = σ.calls ++ [.write r] ∧ σ'.m.pc = σ.m.pc ∧
      σ'.m.rets = σ.m.rets ++ [(σ.m.invs.length, ret)] ∧ writeReply ret = some err ∧ Same l c.size.toNat σ'.m st.backend := by
  unfold Storage.write at h
  simp only [hk] at h
  rw [if_neg (by simp)] at h
  simp only [Prod.mk.injEq] at h
  obtain ⟨h1, h2⟩ := h
  have hf := performs_rewrite lib c r
  obtain ⟨m', ret, a1, a2, a3, a4, a5⟩ := C34_update_alone l c.size.toNat t hl σ.m m (Bufmap.update m k (transaction lib c r)).1 hs hpc k
    _ _ (performs_fnOf hf) err (Prod.ext rfl h2)
  refine ⟨⟨m', σ.calls ++ [.write r]⟩, ret, ?_, rfl, a2, a3, ?_, ?_⟩
  · exact StoreConc.Steps.trans (.tail (.refl _) (.write σ t r k _ hpc hk hf)) (alone_lift a1 _)
  · rw [← a4]; cases ret <;> rfl
  · rw [← h1]; exact a5

/-- a call returns in some step -/
theorem alone_returns {l s t : Nat} {a b : BufmapConc.State} (h : Alone l s t a b) {r : Nat × Ret} (hr : b.rets = a.rets ++ [r]) :
    ∃ a' b', Alone l s t a a' ∧ a'.rets = a.rets ∧ BufmapConc.step l s a' t = some b' ∧ b'.rets = a'.rets ++ [r] ∧ Alone l s t b' b := by
  have grow : ∀ {x y : BufmapConc.State}, Alone l s t x y → ∃ more, y.rets = x.rets ++ more := by
    intro x y h
    induction h with
    | refl _ => exact ⟨[], by simp⟩
    | head h1 _ ih =>
      obtain ⟨more, hm⟩ := ih
      rcases step_rets h1 with e | ⟨r', e⟩
      · exact ⟨more, by rw [hm, e]⟩
      · exact ⟨r' :: more, by rw [hm, e]; simp⟩
  induction h with
  | refl σ => simp at hr
  | @head σ σ' σ'' h1 h2 ih =>
    rcases step_rets h1 with e | ⟨r', e⟩
    · obtain ⟨a', b', i1, i2, i3, i4, i5⟩ := ih (by rw [hr, e])
      exact ⟨a', b', .head h1 i1, by rw [i2, e], i3, i4, i5⟩
    · obtain ⟨more, hm⟩ := grow h2
      rw [hr, e, List.append_assoc, List.append_cancel_left_eq] at hm
      simp only [List.singleton_append, List.cons.injEq] at hm
      exact ⟨σ, σ', .refl _, rfl, h1, by rw [e, hm.1], h2⟩

/-- **C64**, the same for Read: it returns (in the step from `σ₁` to `σ₂`) what the sequential Read returns and changes nothing. -/
theorem C64_read_alone (lib : Lib) (c : Collator) (l t : Nat) (hl : 0 < l) (σ : StoreConc.State) (m : Bufmap.Map)
    (hs : Same l c.size.toNat σ.m m) (hpc : σ.m.pc t = .idle) (q : Query) (k : U64) (hk : keyValue q.criteria c.keys = some k)
    (ans : List FMV × Option Err) (h : Storage.read lib ⟨m, c⟩ q = .ret ans) :
    ∃ σ₁ σ₂ σ' found buf, StoreConc.Steps lib c l σ σ₁ ∧ StoreConc.Step lib c l σ₁ σ₂ ∧ StoreConc.Steps lib c l σ₂ σ' ∧
      σ₁.calls = σ.calls ++ [.read q] ∧ σ₁.m.rets = σ.m.rets ∧ σ₂.m.rets = σ₁.m.rets ++ [(σ.m.invs.length, .got found buf 0)] ∧
      readReply lib c q (.got found buf 0) = some (.val ans) ∧
      σ'.calls = σ₁.calls ∧ σ'.m.rets = σ₂.m.rets ∧ σ'.m.pc = σ.m.pc ∧ σ'.m.keys = σ.m.keys ∧ σ'.m.cells = σ.m.cells := by
  unfold Storage.read at h
  simp only [hk] at h
  split at h
  · simp at h
  have key : ∃ found buf, Bufmap.get m k (List.replicate c.size.toNat 0) = .ret (found, buf) ∧
      readReply lib c q (.got found buf 0) = some (.val ans) := by
    split at h
    · simp at h
    · simp at h
    · next b hg => injection h with h; subst h; exact ⟨false, b, hg, rfl⟩
    · next b hg =>
      split at h
      · simp at h
      · next a ha => injection h with h; subst h; exact ⟨true, b, hg, by unfold readReply; simp only; rw [ha]⟩
  obtain ⟨found, buf, hg, hrep⟩ := key
  obtain ⟨m', a1, a2, a3, a4, a5⟩ := C35_get_alone l c.size.toNat t hl σ.m m hs hpc k _ buf found hg
  obtain ⟨x, y, b1, b2, b3, b4, b5⟩ := alone_returns a1 (r := (σ.m.invs.length, .got found buf 0)) (by rw [a3]; rfl)
  refine ⟨⟨x, σ.calls ++ [.read q]⟩, ⟨y, σ.calls ++ [.read q]⟩, ⟨m', σ.calls ++ [.read q]⟩, found, buf, ?_, .step _ t _ b3,
    alone_lift b5 _, rfl, b2, b4, hrep, rfl, ?_, a2, a4, a5⟩
  · exact StoreConc.Steps.trans (.tail (.refl _) (.read σ t q k hpc hk)) (alone_lift b1 _)
  · simp only; rw [b4, b2, a3]; rfl

end Starbow.Props
