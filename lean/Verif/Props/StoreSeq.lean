import Verif.Props.StoreStats
/-
Property C64: every sequential history of the store is a run of the concurrent model, so the theorems about interleavings speak about the
sequential histories too.
-/
namespace Starbow.Props
open Starbow.Collation Starbow.Spec Starbow.Storage Starbow.StoreConc Starbow.BufmapConc Starbow.Cell Starbow.Probe

/-- the observations of a history that are passed to the backend: not cancelled, with all key fields -/
def passedOn (keys : List Bytes) (ps : List (Obs × Bufmap.Res (Option Err))) : List (Obs × Bufmap.Res (Option Err)) :=
  ps.filter fun p => !p.1.canceled && (keyValue p.1.row.data keys).isSome

/-- **C64**: what one goroutine gets from a sequence of Writes on a fresh store (the sequential model, for any schema and any observations)
is what it gets in a run of the concurrent model: same calls, same results, same memory. -/
theorem C64_history (lib : Lib) (sch : Schema) (hv : ValidSchema sch) (l : Nat) (hl : 0 < l) (os : List Obs) :
    ∃ σ, StoreConc.Steps lib (compile sch) l StoreConc.init σ ∧ (∀ t, σ.m.pc t = .idle) ∧
      Same l (compile sch).size.toNat σ.m (writes lib (newStore sch l) os).1.backend ∧
      σ.calls = (passedOn sch.keys (writes lib (newStore sch l) os).2).map (fun p => .write p.1.row) ∧
      σ.m.rets.map (fun p => (p.1, (writeReply p.2).map Bufmap.Res.ret)) =
        (passedOn sch.keys (writes lib (newStore sch l) os).2).zipIdx.map (fun p => (p.2, some p.1.2)) := by
  obtain ⟨L, D, pos, h, hD⟩ := laid_compile sch hv
  induction os using List.reverseRecOn with
  | nil => exact ⟨StoreConc.init, .refl _, fun _ => rfl, same_init _ _, rfl, rfl⟩
  | append_singleton os o ih =>
    obtain ⟨σ, hr, hidle, hsame, hcalls, hrets⟩ := ih
    have hg := good_writes (l := l) lib h os (good_new h hl)
    have e1 : (writes lib (newStore sch l) (os ++ [o])).1 = (write lib (writes lib (newStore sch l) os).1 o.canceled o.row).1 := by
      rw [(writes_append lib os [o] (newStore sch l)).1]; rfl
    have e2 : (writes lib (newStore sch l) (os ++ [o])).2 = (writes lib (newStore sch l) os).2 ++
        [(o, (write lib (writes lib (newStore sch l) os).1 o.canceled o.row).2)] := by
      rw [(writes_append lib os [o] (newStore sch l)).2]; rfl
    rw [e1, e2]
    have hkeys : (compile sch).keys = sch.keys := compile_keys sch
    have hc := callsOk_steps (callsOk_init lib (compile sch)) hr
    by_cases hp : (!o.canceled && (keyValue o.row.data sch.keys).isSome) = true
    · have hpass : passedOn sch.keys ((writes lib (newStore sch l) os).2 ++
          [(o, (write lib (writes lib (newStore sch l) os).1 o.canceled o.row).2)]) = passedOn sch.keys (writes lib (newStore sch l) os).2 ++
          [(o, (write lib (writes lib (newStore sch l) os).1 o.canceled o.row).2)] := by
        unfold passedOn
        rw [List.filter_append, List.filter_cons, if_pos hp]; rfl
      rw [hpass]
      rw [Bool.and_eq_true, Bool.not_eq_true'] at hp
      obtain ⟨k, hk⟩ := Option.isSome_iff_exists.1 hp.2
      have hout : ∃ err, (write lib (writes lib (newStore sch l) os).1 o.canceled o.row).2 = .ret err := by
        cases write_cases lib h hg o.canceled o.row with
        | nokey hk e => exact ⟨_, by rw [e]⟩
        | refused k hk e he hwhy hw => exact ⟨_, by rw [hw]⟩
        | ran k hk hc h0 x hx hxk hslot init hinit hdata hkeys e he hu hw => exact ⟨_, by rw [hw]⟩
      obtain ⟨err, herr⟩ := hout
      rw [hp.1] at herr ⊢
      have hst : (⟨(writes lib (newStore sch l) os).1.backend, compile sch⟩ : Store) = (writes lib (newStore sch l) os).1 := by rw [← hg.coll]
      obtain ⟨σ', ret, a1, a2, a3, a4, a5, a6⟩ := C64_write_alone lib (compile sch) l 0 hl σ _ hsame (hidle 0) o.row k (by rw [hkeys]; exact hk)
        (write lib (writes lib (newStore sch l) os).1 false o.row).1 err (by rw [hst]; exact Prod.ext rfl herr)
      refine ⟨σ', hr.trans a1, fun t => by rw [a3]; exact hidle t, a6, ?_, ?_⟩
      · rw [a2, hcalls, List.map_append]; rfl
      · rw [a4, List.map_append, hrets, List.zipIdx_append, List.map_append]
        congr 1
        have : σ.m.invs.length = (passedOn sch.keys (writes lib (newStore sch l) os).2).length := by
          rw [← hc.len, hcalls, List.length_map]
        simp [this, a5, herr]
    · have hpass : passedOn sch.keys ((writes lib (newStore sch l) os).2 ++
          [(o, (write lib (writes lib (newStore sch l) os).1 o.canceled o.row).2)]) = passedOn sch.keys (writes lib (newStore sch l) os).2 := by
        unfold passedOn
        rw [List.filter_append, List.filter_cons, if_neg hp, List.filter_nil, List.append_nil]
      rw [hpass]
      have : (write lib (writes lib (newStore sch l) os).1 o.canceled o.row).1 = (writes lib (newStore sch l) os).1 := by
        cases write_cases lib h hg o.canceled o.row with
        | nokey hk e => rw [e]
        | refused k hk e he hwhy hw => rw [hw]
        | ran k hk hc h0 x hx hxk hslot init hinit hdata hkeys e he hu hw =>
          exfalso; apply hp; rw [hk, hc]; rfl
      rw [this]
      exact ⟨σ, hr, hidle, hsame, hcalls, hrets⟩

theorem writeReply_ran {ret : Ret} (h : writeReply ret = some none) : ret = .ran none := by
  cases ret with
  | ran e => injection h with h; rw [h]
  | invalidKey => simp [writeReply] at h
  | outOfSlots => simp [writeReply] at h
  | got _ _ _ => simp [writeReply] at h

theorem pair_of {α β : Type} {p : α × β} {b : β} (h : p.2 = b) : ∃ a, p = (a, b) := ⟨p.1, Prod.ext rfl h⟩

theorem writes_cons (lib : Lib) {st st' : Store} {o : Obs} {out : Bufmap.Res (Option Err)} (h : write lib st o.canceled o.row = (st', out))
    (os : List Obs) : writes lib st (o :: os) = ((writes lib st' os).1, (o, out) :: (writes lib st' os).2) := by
  rw [writes, h]

theorem height_declares_mean : Declares Demo.country (asc "height") .mean := .inr ⟨by simp, _, List.mem_cons_self .., by simp⟩

theorem france (v : Bytes) : keyValue (seenHeight (asc "FR") v).row.data Demo.country.keys = some 12582602682680778473 := by
  have : keyValue [⟨asc "country", asc "FR"⟩] Demo.country.keys = some 12582602682680778473 := by decide +kernel
  rw [← this]
  apply C28_key
  intro k hk
  have : k = asc "country" := by simpa [Demo.country] using hk
  subst this
  unfold valueOf seenHeight
  rw [List.find?_cons_of_pos (by simp), List.find?_cons_of_pos (by simp)]

/-- A case meeting all the hypotheses of C64, C65 and C66: Writes of heights 5 and 3 in France, both accepted, then a Read of mean(height). -/
theorem france_case (lib : Lib) (h5 : lib.parseFloat (asc "5") = some (F64.ofNat 5)) (h3 : lib.parseFloat (asc "3") = some (F64.ofNat 3)) :
    ∃ σ₀ σ σ' σ₂ buf, StoreConc.Steps lib (compile Demo.country) Demo.slots StoreConc.init σ₀ ∧
      StoreConc.Steps lib (compile Demo.country) Demo.slots σ₀ σ ∧ StoreConc.Step lib (compile Demo.country) Demo.slots σ σ' ∧
      StoreConc.Steps lib (compile Demo.country) Demo.slots σ' σ₂ ∧
      σ.calls[2]? = some (.read ⟨[⟨asc "height", [asc "mean"]⟩], [⟨asc "country", asc "FR"⟩]⟩) ∧
      startedWrites (compile Demo.country).keys 12582602682680778473 σ₀ = [0] ∧ doneWrites (compile Demo.country).keys 12582602682680778473 σ₀ = [0] ∧
      σ₀.m.keys ((12582602682680778473 : U64).toNat % Demo.slots) = 12582602682680778473 ∧
      (∀ j ∈ startedWrites (compile Demo.country).keys 12582602682680778473 σ, (j, .ran none) ∈ σ₂.m.rets) ∧
      startedWrites (compile Demo.country).keys 12582602682680778473 σ = [0, 1] ∧
      (∀ x, x < Demo.slots → σ.m.keys x = 12582602682680778473 → (compile Demo.country).size.toNat ≤ x) ∧
      σ'.m.rets = σ.m.rets ++ [(2, .got true buf 0)] := by
  obtain ⟨L, D, pos, h, hD⟩ := laid_compile Demo.country country_valid
  have hsz : (compile Demo.country).size.toNat = 900 := by rw [country_size]; rfl
  have hsl : Demo.slots = 5000 := rfl
  have hkeys : (compile Demo.country).keys = Demo.country.keys := compile_keys _
  have hg0 := good_new (l := Demo.slots) h (by decide)
  have p5 := height_all_plain (lib := lib) (v := asc "5") (by rw [h5]; simp) (asc "FR")
  have p3 := height_all_plain (lib := lib) (v := asc "3") (by rw [h3]; simp) (asc "FR")
  have w1 := write_plain lib h hD hg0 (seenHeight (asc "FR") (asc "5")).row (france _) (by decide) (.inr (room_new (by decide) _)) p5
  have hg1 := good_write lib h hg0 false (seenHeight (asc "FR") (asc "5")).row
  obtain ⟨st1, hw1⟩ : ∃ st1, write lib (newStore Demo.country Demo.slots) false (seenHeight (asc "FR") (asc "5")).row = (st1, .ret none) :=
    pair_of w1
  rw [hw1] at hg1
  simp only at hg1
  have hs1 : slotOf st1.backend 12582602682680778473 = some 3473 := by
    have hs := stored_run lib h (l := Demo.slots) (by decide) (k := 12582602682680778473) (by decide) [seenHeight (asc "FR") (asc "5")]
    have hw : (writes lib (newStore Demo.country Demo.slots) [seenHeight (asc "FR") (asc "5")]) =
        (st1, [(seenHeight (asc "FR") (asc "5"), .ret none)]) := by
      rw [writes_cons lib (o := seenHeight (asc "FR") (asc "5")) hw1, writes]
    rw [hw] at hs
    rcases hs with ⟨hr, _⟩ | ⟨_, x, _, hs, _⟩
    · exfalso
      unfold rowsFor at hr
      rw [List.filter_cons, if_pos (by simp only; rw [france]; simp [touched])] at hr
      simp at hr
    · have := home_run lib h (l := Demo.slots) (by decide) [seenHeight (asc "FR") (asc "5")] (apart_one _ _ _)
        (k := 12582602682680778473) (by decide) (x := x) (by rw [hw]; exact hs)
      rw [hs, this]
      decide
  have w2 := write_plain lib h hD hg1 (seenHeight (asc "FR") (asc "3")).row (france _) (by decide) (.inl (by rw [hs1]; simp)) p3
  have hg2 := good_write lib h hg1 false (seenHeight (asc "FR") (asc "3")).row
  obtain ⟨st2, hw2⟩ : ∃ st2, write lib st1 false (seenHeight (asc "FR") (asc "3")).row = (st2, .ret none) :=
    pair_of w2
  rw [hw2] at hg2
  simp only at hg2
  have hst : ∀ {st : Store}, Good Demo.country L pos Demo.slots st → (⟨st.backend, compile Demo.country⟩ : Store) = st := by
    intro st hg; rw [← hg.coll]
  -- the first Write
  obtain ⟨σ₀, r0, a1, a2, a3, a4, a5, a6⟩ := C64_write_alone lib (compile Demo.country) Demo.slots 0 (by decide) StoreConc.init
    (newStore Demo.country Demo.slots).backend (same_init _ _) rfl (seenHeight (asc "FR") (asc "5")).row _ (by rw [hkeys]; exact france _)
    st1 none (by rw [hst hg0]; exact hw1)
  have hr0 := writeReply_ran a5
  subst hr0
  have hrets0 : σ₀.m.rets = [(0, .ran none)] := a4
  have hcalls0 : σ₀.calls = [.write (seenHeight (asc "FR") (asc "5")).row] := a2
  have hidle0 : ∀ t, σ₀.m.pc t = .idle := fun t => by rw [a3]; rfl
  have hlen0 : σ₀.m.invs.length = 1 := by
    rw [← (callsOk_steps (callsOk_init lib (compile Demo.country)) a1).len, hcalls0]; rfl
  have hkey0 : σ₀.m.keys 3473 = 12582602682680778473 := by
    have hx := ((Bufmap.slotOf_eq hg1.wf (by decide)).1 hs1).2
    unfold Bufmap.Map.keyAt at hx
    rw [a6.slot 3473 (by decide)] at hx
    exact hx
  -- the second
  obtain ⟨σ₁, r1, b1, b2, b3, b4, b5, b6⟩ := C64_write_alone lib (compile Demo.country) Demo.slots 0 (by decide) σ₀ _ a6 (hidle0 0)
    (seenHeight (asc "FR") (asc "3")).row _ (by rw [hkeys]; exact france _)
    st2 none (by rw [hst hg1]; exact hw2)
  have hr1 := writeReply_ran b5
  subst hr1
  have hrets1 : σ₁.m.rets = [(0, .ran none), (1, .ran none)] := by rw [b4, hrets0, hlen0]; rfl
  have hcalls1 : σ₁.calls = [.write (seenHeight (asc "FR") (asc "5")).row, .write (seenHeight (asc "FR") (asc "3")).row] := by
    rw [b2, hcalls0]; rfl
  have hlen1 : σ₁.m.invs.length = 2 := by
    rw [← (callsOk_steps (callsOk_init lib (compile Demo.country)) (a1.trans b1)).len, hcalls1]; rfl
  -- the Read
  have hww : (writes lib (newStore Demo.country Demo.slots) [seenHeight (asc "FR") (asc "5"), seenHeight (asc "FR") (asc "3")]) =
      (st2, [(seenHeight (asc "FR") (asc "5"), .ret none), (seenHeight (asc "FR") (asc "3"), .ret none)]) := by
    rw [writes_cons lib (o := seenHeight (asc "FR") (asc "5")) hw1, writes_cons lib (o := seenHeight (asc "FR") (asc "3")) hw2, writes]
  have hans := (C59_values_partial lib Demo.country country_valid Demo.slots (by decide)
    [seenHeight (asc "FR") (asc "5"), seenHeight (asc "FR") (asc "3")]
    (by
      rw [hww]
      intro p hp
      simp only [List.mem_cons, List.not_mem_nil, or_false] at hp
      rcases hp with rfl | rfl <;> rfl)
    (by
      intro o ho o' ho' k k' hk hk' _
      simp only [List.mem_cons, List.not_mem_nil, or_false] at ho ho'
      have e1 : some k = some 12582602682680778473 := by rcases ho with rfl | rfl <;> exact hk.symm.trans (france _)
      have e2 : some k' = some 12582602682680778473 := by rcases ho' with rfl | rfl <;> exact hk'.symm.trans (france _)
      exact (Option.some.inj e1).trans (Option.some.inj e2).symm)
    [⟨asc "country", asc "FR"⟩] 12582602682680778473 (by decide +kernel) (by decide)
    (by
      unfold rowsWith
      rw [List.map_cons, List.filter_cons, if_pos (by rw [france]; simp)]
      simp)
    (by rw [hsz]; decide) (by rw [hsz]; decide) (asc "height")).2.1 height_declares_mean
  rw [hww] at hans
  simp only at hans
  obtain ⟨σ, σ', σ₂, found, buf, c1, c2, c3, c4, c5, c6, c7, c8, c9, _⟩ := C64_read_alone lib (compile Demo.country) Demo.slots 0 (by decide) σ₁ _ b6
    (by rw [b3]; exact hidle0 0) ⟨[⟨asc "height", [asc "mean"]⟩], [⟨asc "country", asc "FR"⟩]⟩ 12582602682680778473
    (by rw [hkeys]; decide +kernel) _
    (by rw [hst hg2]; exact hans)
  have hfound : found = true := by
    cases found with
    | true => rfl
    | false => simp [readReply] at c7
  subst hfound
  rw [hlen1] at c6
  have hcalls : σ.calls = [.write (seenHeight (asc "FR") (asc "5")).row, .write (seenHeight (asc "FR") (asc "3")).row,
    .read ⟨[⟨asc "height", [asc "mean"]⟩], [⟨asc "country", asc "FR"⟩]⟩] := by rw [c4, hcalls1]; rfl
  have hstart : startedWrites (compile Demo.country).keys 12582602682680778473 σ = [0, 1] := by
    unfold startedWrites
    rw [hcalls, hkeys]
    simp [List.range_succ, france]
  have hst0 : startedWrites (compile Demo.country).keys 12582602682680778473 σ₀ = [0] := by
    unfold startedWrites
    rw [hcalls0, hkeys]
    simp [List.range_succ, france]
  have hhome : ((12582602682680778473 : U64).toNat % Demo.slots) = 3473 := by decide
  have hrσ := (a1.trans b1).trans c1
  have hkeyσ : σ.m.keys 3473 = 12582602682680778473 := by
    rw [(BufmapConc.steps_mono (by decide) (inv_reach (by decide) (steps_m a1)) (steps_m (b1.trans c1))).1 _ (by rw [hkey0]; decide)]
    exact hkey0
  refine ⟨σ₀, σ, σ', σ₂, buf, a1, b1.trans c1, c2, c3, by rw [hcalls]; rfl, hst0, ?_, hhome ▸ hkey0, ?_, hstart, ?_, c6⟩
  · unfold doneWrites
    rw [hst0]
    have : ran σ₀ 0 = true := ran_iff.2 ⟨none, by rw [hrets0]; simp⟩
    rw [List.filter_cons, if_pos this]; rfl
  · rw [hstart, c9, c6, c5, hrets1]
    intro j hj
    simp only [List.mem_cons, List.not_mem_nil, or_false] at hj
    rcases hj with rfl | rfl <;> simp
  · intro x hx hkx
    have := (inv_reach (by decide) (steps_m hrσ)).keys.unique hx (by decide : 3473 < Demo.slots) (by rw [hkx]; decide) (by rw [hkx, hkeyσ])
    rw [hsz]; omega

/-- the case of C65: the Read is answered with the mean of 5 and 3 in the order of the calls or the other -/
example (lib : Lib) (h5 : lib.parseFloat (asc "5") = some (F64.ofNat 5)) (h3 : lib.parseFloat (asc "3") = some (F64.ofNat 3)) :
    ∃ σ buf ws, SerialOrder lib (compile Demo.country) Demo.slots 12582602682680778473 σ ws ∧
      readReply lib (compile Demo.country) ⟨[⟨asc "height", [asc "mean"]⟩], [⟨asc "country", asc "FR"⟩]⟩ (.got true buf 0) =
        some (.val ([⟨asc "height", asc "mean", (after (numbersOf lib (asc "height") (ws.map Served.row))).mean⟩], none)) := by
  obtain ⟨σ₀, σ, σ', σ₂, buf, x1, x2, x3, x4, x5, x6, x7, x8, x9, x10, x11, x12⟩ := france_case lib h5 h3
  have hkeys : (compile Demo.country).keys = Demo.country.keys := compile_keys _
  obtain ⟨ws, y1, y2⟩ := C65_partial lib Demo.country country_valid Demo.slots (by decide) σ σ' σ₂ (x1.trans x2) x3 x4 2 _ x5
    12582602682680778473 (by decide +kernel) (by decide) (by rw [← hkeys]; exact x9) x11 buf 0 (by decide) x12
  exact ⟨σ, buf, ws, y1, (y2 _).2.1 height_declares_mean rfl⟩

/-- the case of C66 -/
example (lib : Lib) (h5 : lib.parseFloat (asc "5") = some (F64.ofNat 5)) (h3 : lib.parseFloat (asc "3") = some (F64.ofNat 3)) :
    ∃ σ buf ws rec, SerialOrder lib (compile Demo.country) Demo.slots 12582602682680778473 σ ws ∧
      RecordOf lib (compile Demo.country) (ws.map Served.row) rec ∧
      readReply lib (compile Demo.country) ⟨[⟨asc "height", [asc "mean"]⟩], [⟨asc "country", asc "FR"⟩]⟩ (.got true buf 0) =
        some (Collation.read lib (compile Demo.country) [⟨asc "height", [asc "mean"]⟩] rec) := by
  obtain ⟨σ₀, σ, σ', σ₂, buf, x1, x2, x3, x4, x5, x6, x7, x8, x9, x10, x11, x12⟩ := france_case lib h5 h3
  have hkeys : (compile Demo.country).keys = Demo.country.keys := compile_keys _
  obtain ⟨ws, rec, y⟩ := C66_partial lib (compile Demo.country) Demo.slots (by decide) σ₀ σ σ' σ₂ x1 x2 x3 x4 2 _ x5
    12582602682680778473 (by rw [hkeys]; decide +kernel) (by decide) 0 x6 x7 x8 x9 (by rw [country_size]; decide) buf 0 (by decide) x12
  exact ⟨σ, buf, ws, rec, y⟩

end Starbow.Props
