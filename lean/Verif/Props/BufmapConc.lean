import Verif.Proof.BufmapConc
/-
Properties C34, C35, C36 (concurrent part), C31 (concurrent part), C40 (concurrent bufmap).
`Steps l s init σ`: σ is reachable, under some interleaving of calls of any number of goroutines, on a fresh map of `l`
slots of `s` bytes.
-/
namespace Starbow.Props
open Starbow.BufmapConc Starbow.Probe Starbow.Cell Starbow.Spec

namespace BufmapConc

theorem step_mono {l s : Nat} (hl : 0 < l) {σ σ' : State} (h : Inv l s σ) (hs : Step l s σ σ') :
    Grow σ.keys σ'.keys ∧ (∃ more, σ'.invs = σ.invs ++ more) ∧ (∃ more, σ'.cells.log = σ.cells.log ++ more) ∧
    (∃ more, σ'.rets = σ.rets ++ more) := by
  have same : ∀ {α : Type} (a : List α), ∃ more, a = a ++ more := fun a => ⟨[], by simp⟩
  cases hs with
  | call t op ht =>
    unfold call
    cases op with
    | upd k d =>
      simp only
      split
      · exact ⟨Grow.refl _, ⟨_, rfl⟩, same _, ⟨_, rfl⟩⟩
      · exact ⟨Grow.refl _, ⟨_, rfl⟩, same _, same _⟩
    | get k b => exact ⟨Grow.refl _, ⟨_, rfl⟩, same _, same _⟩
  | step _ t hs =>
    have ht := h.thr t
    unfold step at hs
    cases hpc : σ.pc t with
    | idle => rw [hpc] at hs; simp at hs
    | gone => rw [hpc] at hs; simp at hs
    | uProbe id k fn ini p =>
      rw [hpc] at hs ht
      simp only at hs
      obtain ⟨hinv, hk, hp⟩ := ht
      obtain ⟨_, k2, _, _⟩ := probeStep_ok hl hk h.keys ini hp
      generalize probeStep l k σ.keys ini p = ps at *
      obtain ⟨keys, res⟩ := ps
      cases res with
      | go p' i => have hs := Option.some.inj hs; subst hs; exact ⟨k2, same _, same _, same _⟩
      | found p' i => have hs := Option.some.inj hs; subst hs; exact ⟨k2, same _, same _, same _⟩
      | full => have hs := Option.some.inj hs; subst hs; exact ⟨k2, same _, same _, ⟨_, rfl⟩⟩
    | w k x e p =>
      rw [hpc] at hs
      simp only at hs
      cases hst : wstep s t x e σ.cells p with
      | none => rw [hst] at hs; simp at hs
      | some cr =>
        obtain ⟨c, r⟩ := cr
        rw [hst] at hs
        have hlog := (wstep_guar (h.cells.wok t x e p (by unfold wOf; rw [hpc]; rfl)) hst).log
        cases r with
        | go q => have hs := Option.some.inj hs; subst hs; exact ⟨Grow.refl _, same _, hlog, same _⟩
        | ret err => have hs := Option.some.inj hs; subst hs; exact ⟨Grow.refl _, same _, hlog, ⟨_, rfl⟩⟩
    | gProbe id k buf i =>
      rw [hpc] at hs
      simp only at hs
      split at hs
      · have hs := Option.some.inj hs; subst hs; exact ⟨Grow.refl _, same _, same _, same _⟩
      · have hs := Option.some.inj hs; subst hs; exact ⟨Grow.refl _, same _, same _, ⟨_, rfl⟩⟩
      · have hs := Option.some.inj hs; subst hs; exact ⟨Grow.refl _, same _, same _, same _⟩
    | r id k buf x p =>
      rw [hpc] at hs
      simp only at hs
      split at hs
      · have hs := Option.some.inj hs; subst hs; exact ⟨Grow.refl _, same _, same _, same _⟩
      · split at hs
        · have hs := Option.some.inj hs; subst hs; exact ⟨Grow.refl _, same _, same _, same _⟩
        · have hs := Option.some.inj hs; subst hs; exact ⟨Grow.refl _, same _, same _, ⟨_, rfl⟩⟩

theorem steps_mono {l s : Nat} (hl : 0 < l) {σ σ' : State} (h : Inv l s σ) (hs : Steps l s σ σ') :
    Grow σ.keys σ'.keys ∧ (∃ more, σ'.invs = σ.invs ++ more) ∧ (∃ more, σ'.cells.log = σ.cells.log ++ more) ∧
    (∃ more, σ'.rets = σ.rets ++ more) := by
  induction hs with
  | refl => exact ⟨Grow.refl _, ⟨[], by simp⟩, ⟨[], by simp⟩, ⟨[], by simp⟩⟩
  | tail h0 h1 ih =>
    obtain ⟨g, ⟨a, ha⟩, ⟨b, hb⟩, ⟨c, hc⟩⟩ := ih
    obtain ⟨g', ⟨a', ha'⟩, ⟨b', hb'⟩, ⟨c', hc'⟩⟩ := step_mono hl (inv_steps hl h h0) h1
    exact ⟨g.trans g', ⟨a ++ a', by rw [ha', ha]; simp⟩, ⟨b ++ b', by rw [hb', hb]; simp⟩,
      ⟨c ++ c', by rw [hc', hc]; simp⟩⟩

theorem mem_ranIds {rets : List (Nat × Ret)} {id : Nat} : id ∈ ranIds rets ↔ ∃ err, (id, Ret.ran err) ∈ rets := by
  unfold ranIds
  rw [List.mem_filterMap]
  constructor
  · rintro ⟨⟨i, r⟩, hm, he⟩
    cases r <;> simp [ranId] at he
    subst he; exact ⟨_, hm⟩
  · rintro ⟨err, hm⟩
    exact ⟨_, hm, rfl⟩

theorem mem_writesOf {log : List (Nat × Entry)} {x : Nat} {e : Entry} : e ∈ writesOf log x ↔ (x, e) ∈ log := by
  unfold writesOf
  simp only [List.mem_map, List.mem_filter, beq_iff_eq]
  constructor
  · rintro ⟨⟨a, b⟩, ⟨h1, h2⟩, h3⟩
    simp only at h2 h3; subst h2; subst h3; exact h1
  · intro h; exact ⟨(x, e), ⟨h, rfl⟩, rfl⟩

theorem writesOf_nodup {c : Cells} (h : (logIds c).Nodup) (x : Nat) : ((writesOf c.log x).map (·.id)).Nodup := by
  have : List.Sublist ((writesOf c.log x).map (·.id)) (logIds c) := by
    unfold writesOf logIds
    rw [List.map_map]
    exact (List.filter_sublist).map _
  exact h.sublist this

end BufmapConc
open BufmapConc

/-- all started Update calls for key `k` have returned -/
def AllReturned (σ : State) (k : U64) : Prop :=
  ∀ (id : Nat) (fn : CFn), σ.invs[id]? = some (.upd k fn) → ∃ r, (id, r) ∈ σ.rets

/-- call `id` is an Update(k) that ran its function and returned `err` -/
def RanUpdate (σ : State) (k : U64) (id : Nat) (err : Option Err) : Prop :=
  (∃ fn, σ.invs[id]? = some (.upd k fn)) ∧ (id, Ret.ran err) ∈ σ.rets

/-- **C34**: take any interleaving of any number of goroutines calling Update and Get, and a moment when every Update(k)
that was started has returned. Then the calls of Update(k) that ran their function can be put in one order `es` (the order in which they completed) such that
the buffer of `k` is the result of running their functions one after the other, each alone, on zeroes; every such call
occurs exactly once; and each returned the error its function returns when run at its place in that order. -/
theorem C34_serial (l s : Nat) (hl : 0 < l) (σ : State) (hr : Steps l s init σ) (k : U64) (hk : k ≠ 0)
    (hall : AllReturned σ k) (x : Nat) (hx : x < l) (hkx : σ.keys x = k) :
    ∃ es : List Entry, es = writesOf σ.cells.log x ∧
      bytesOf s σ.cells x = runAll s es ∧
      (es.map (·.id)).Nodup ∧
      (∀ id, id ∈ es.map (·.id) ↔ ∃ err, RanUpdate σ k id err) ∧
      (∀ e ∈ es, σ.invs[e.id]? = some (.upd k e.fn)) ∧
      (∀ es1 e es2 err, es = es1 ++ e :: es2 → RanUpdate σ k e.id err → (e.fn (runAll s es1) e.init).2 = .ret err) := by
  have h := inv_reach hl hr
  have hfree : σ.cells.lock x = none := by
    cases hlk : σ.cells.lock x with
    | none => rfl
    | some t =>
      exfalso
      obtain ⟨e, p, hW, _⟩ := h.cells.holder x t hlk
      cases hpc : σ.pc t with
      | w k' x' e' p' =>
        unfold wOf at hW
        rw [hpc] at hW
        have hW := Option.some.inj hW
        simp only [Prod.mk.injEq] at hW
        have ht := h.thr t
        rw [hpc] at ht
        obtain ⟨hinv, _, _, hkk⟩ := ht
        rw [hW.1, hkx] at hkk
        subst hkk
        obtain ⟨r, hm⟩ := hall _ _ hinv
        refine h.ids.fresh t e'.id ?_ (List.mem_map.mpr ⟨_, hm, rfl⟩)
        unfold curOf; rw [hpc]; rfl
      | _ => unfold wOf at hW; rw [hpc] at hW; simp [PC.w?] at hW
  have hent : ∀ e ∈ writesOf σ.cells.log x, σ.invs[e.id]? = some (.upd k e.fn) := by
    intro e he
    have := (h.logok x e (mem_writesOf.mp he)).2.2
    rw [hkx] at this; exact this
  have hnd := writesOf_nodup h.lg.nodup x
  refine ⟨writesOf σ.cells.log x, rfl, (h.cells.free x hfree).2, hnd, ?_, hent, ?_⟩
  · intro id
    constructor
    · intro hm
      obtain ⟨e, he, rfl⟩ := List.mem_map.mp hm
      have hlog : e.id ∈ logIds σ.cells := List.mem_map.mpr ⟨(x, e), mem_writesOf.mp he, rfl⟩
      rcases h.lg.src _ hlog with h1 | ⟨t, x', e', p, hW, hp, hid⟩
      · obtain ⟨err, h1⟩ := mem_ranIds.mp h1
        exact ⟨err, ⟨_, hent e he⟩, h1⟩
      · exfalso
        -- the call would still be running
        obtain ⟨r, hm⟩ := hall _ _ (hent e he)
        have hcur := h.lg.curW t x' e' p hW
        refine h.ids.fresh t e'.id hcur ?_
        rw [hid]
        exact List.mem_map.mpr ⟨_, hm, rfl⟩
    · rintro ⟨err, ⟨fn, hinv⟩, hm⟩
      obtain ⟨x', e, es, rest, hid, hx', hw, _⟩ := h.rok id _ hm
      have hmem : e ∈ writesOf σ.cells.log x' := by rw [hw]; simp
      obtain ⟨_, hk0, hinv'⟩ := h.logok x' e (mem_writesOf.mp hmem)
      rw [hid, hinv] at hinv'
      have hkk := Option.some.inj hinv'
      have hkk : k = σ.keys x' := by injection hkk
      have : x' = x := h.keys.unique hx' hx hk0 (hkk.symm.trans hkx.symm)
      subst this
      exact List.mem_map.mpr ⟨e, hmem, hid⟩
  · rintro es1 e es2 err hes ⟨_, hm⟩
    obtain ⟨x', e', es', rest, hid, hx', hw, hres⟩ := h.rok _ _ hm
    have hmem : e' ∈ writesOf σ.cells.log x' := by rw [hw]; simp
    obtain ⟨_, hk0, hinv'⟩ := h.logok x' e' (mem_writesOf.mp hmem)
    have hinv := hent e (by rw [hes]; simp)
    rw [hid, hinv] at hinv'
    have hkk : k = σ.keys x' := by injection (Option.some.inj hinv')
    have : x' = x := h.keys.unique hx' hx hk0 (hkk.symm.trans hkx.symm)
    subst this
    -- the same place in the list, as call numbers are distinct
    rw [hes] at hw hnd
    have key : ∀ (a b c d : List Entry) (u v : Entry), u.id = v.id → a ++ u :: b = c ++ v :: d →
        ((a ++ u :: b).map (·.id)).Nodup → a = c ∧ u = v := by
      intro a
      induction a with
      | nil =>
        intro b c d u v hid he hnd
        cases c with
        | nil => exact ⟨rfl, by simpa using (List.cons.inj he).1⟩
        | cons c0 c =>
          exfalso
          have h1 := List.cons.inj he
          rw [List.nil_append, List.map_cons, List.nodup_cons] at hnd
          apply hnd.1
          rw [h1.2, hid]
          exact List.mem_map.mpr ⟨v, by simp, rfl⟩
      | cons a0 a ih =>
        intro b c d u v hid he hnd
        cases c with
        | nil =>
          exfalso
          have h1 := List.cons.inj he
          rw [List.cons_append, List.map_cons, List.nodup_cons] at hnd
          apply hnd.1
          rw [h1.1, ← hid]
          exact List.mem_map.mpr ⟨u, by simp, rfl⟩
        | cons c0 c =>
          have h1 := List.cons.inj he
          rw [List.cons_append, List.map_cons, List.nodup_cons] at hnd
          obtain ⟨e1, e2⟩ := ih b c d u v hid h1.2 hnd.2
          exact ⟨by rw [h1.1, e1], e2⟩
    obtain ⟨e1, e2⟩ := key es1 es2 es' rest e e' hid.symm hw hnd
    rw [e1, e2]; exact hres

/-- **C34**, real time: the order above respects time. At any earlier moment of the run there is a point in the order such
that every Update(k) that had returned by then comes before it and every Update(k) started later comes after it. -/
theorem C34_real_time (l s : Nat) (hl : 0 < l) (σ σ' : State) (hr : Steps l s init σ) (hs : Steps l s σ σ') (k : U64)
    (hk : k ≠ 0) (x : Nat) (hx : x < l) (hkx : σ'.keys x = k) :
    ∃ es1 es2, writesOf σ'.cells.log x = es1 ++ es2 ∧ (∀ id err, RanUpdate σ k id err → id ∈ es1.map (·.id)) ∧
      (∀ e ∈ es1, e.id < σ.invs.length) ∧ ∀ e ∈ es2, ∀ err, ¬ RanUpdate σ k e.id err := by
  have h := inv_reach hl hr
  have h' := inv_steps hl h hs
  obtain ⟨hg, _, ⟨more, hm⟩, _⟩ := steps_mono hl h hs
  have hran : ∀ id err, RanUpdate σ k id err → id ∈ (writesOf σ.cells.log x).map (·.id) := by
    rintro id err ⟨⟨fn, hinv⟩, hret⟩
    obtain ⟨y, e, es, rest, hid, hy, hw, _⟩ := h.rok id _ hret
    have hmem : e ∈ writesOf σ.cells.log y := by rw [hw]; simp
    obtain ⟨_, hk0, hinv'⟩ := h.logok y e (mem_writesOf.mp hmem)
    rw [hid, hinv] at hinv'
    have hkk : k = σ.keys y := by injection (Option.some.inj hinv')
    have hky : σ'.keys y = k := by rw [hg y hk0]; exact hkk.symm
    have : y = x := h'.keys.unique hy hx (by rw [hky]; exact hk) (hky.trans hkx.symm)
    subst this
    exact List.mem_map.mpr ⟨e, hmem, hid⟩
  have hsplit : writesOf σ'.cells.log x = writesOf σ.cells.log x ++ writesOf more x := by rw [hm, writesOf_append]
  refine ⟨writesOf σ.cells.log x, writesOf more x, hsplit, hran, ?_, ?_⟩
  · intro e he
    exact inv_lt (h.logok x e (mem_writesOf.mp he)).2.2
  · intro e he err hc
    have hnd := writesOf_nodup h'.lg.nodup x
    rw [hsplit, List.map_append, List.nodup_append] at hnd
    exact hnd.2.2 _ (hran _ _ hc) _ (List.mem_map.mpr ⟨e, he, rfl⟩) rfl

/-- the result a step appends, if it is a successful Get -/
theorem BufmapConc.got_cases {l s : Nat} {σ σ' : State} (hs : Step l s σ σ') {id : Nat} {b : Bytes} {d : Nat}
    (hret : σ'.rets = σ.rets ++ [(id, .got true b d)]) :
    ∃ t k buf x p got, σ.pc t = .r id k buf x p ∧ rstep s x (min buf.length x) σ.cells p = .done got d ∧
      b = got ++ buf.drop got.length ∧ σ'.cells = σ.cells ∧ σ'.keys = σ.keys := by
  have ne : ∀ (a : List (Nat × Ret)) (r r' : Nat × Ret), a ++ [r] = a ++ [r'] → r = r' := by
    intro a r r' e
    have := List.append_cancel_left e
    simpa using this
  have nn : ∀ (a : List (Nat × Ret)) (r : Nat × Ret), a = a ++ [r] → False := by
    intro a r e
    have := congrArg List.length e; simp at this
  cases hs with
  | call t op ht =>
    exfalso
    unfold call at hret
    cases op with
    | upd k d =>
      simp only at hret
      split at hret
      · have := ne _ _ _ hret; simp at this
      · exact nn _ _ hret
    | get k => exact nn _ _ hret
  | step _ t hs =>
    unfold step at hs
    cases hpc : σ.pc t with
    | idle => rw [hpc] at hs; simp at hs
    | gone => rw [hpc] at hs; simp at hs
    | uProbe id' k fn ini p =>
      exfalso
      rw [hpc] at hs
      simp only at hs
      split at hs <;> (have hs := Option.some.inj hs; subst hs)
      · exact nn _ _ hret
      · exact nn _ _ hret
      · have := ne _ _ _ hret; simp at this
    | w k x e p =>
      exfalso
      rw [hpc] at hs
      simp only at hs
      split at hs
      · simp at hs
      · have hs := Option.some.inj hs; subst hs; exact nn _ _ hret
      · have hs := Option.some.inj hs; subst hs; have := ne _ _ _ hret; simp at this
    | gProbe id' k buf i =>
      exfalso
      rw [hpc] at hs
      simp only at hs
      split at hs <;> (have hs := Option.some.inj hs; subst hs)
      · exact nn _ _ hret
      · have := ne _ _ _ hret; simp at this
      · exact nn _ _ hret
    | r id' k buf x p =>
      rw [hpc] at hs
      simp only at hs
      split at hs
      · exfalso; have hs := Option.some.inj hs; subst hs; exact nn _ _ hret
      · cases hst : rstep s x (min buf.length x) σ.cells p with
        | go p' =>
          exfalso
          rw [hst] at hs
          have hs := Option.some.inj hs; subst hs; exact nn _ _ hret
        | done got during =>
          rw [hst] at hs
          have hs := Option.some.inj hs; subst hs
          have := ne _ _ _ hret
          simp only [Prod.mk.injEq, Ret.got.injEq] at this
          obtain ⟨h1, _, h2, h3⟩ := this
          subst h1; subst h3
          exact ⟨t, k, buf, x, p, got, hpc, hst, h2.symm, rfl, rfl⟩

/-- **C35**: when a Get(k, buf) with a buffer of at most the stride returns, in any interleaving, the bytes it copied are
those of the buffer left by the completed updates of the slot at that very moment (which is what the slot then holds), if
fewer than 2^32 increments of the sequence number (that is, 2^31 updates) happened between its two loads of it. It copies
only the first `min(len(buf), x)` bytes, where `x` is the slot number, and leaves the rest of `buf` alone (see
C30_truncated). -/
theorem C35_partial (l s : Nat) (hl : 0 < l) (σ σ' : State) (hr : Steps l s init σ) (hs : Step l s σ σ') (id : Nat)
    (k : U64) (hk : k ≠ 0) (buf b : Bytes) (hbuf : buf.length ≤ s) (d : Nat) (hd : d < 2 ^ 32)
    (hcall : σ.invs[id]? = some (.get k buf)) (hret : σ'.rets = σ.rets ++ [(id, .got true b d)]) :
    ∃ x, x < l ∧ σ.keys x = k ∧ bytesOf s σ.cells x = runAll s (writesOf σ.cells.log x) ∧
      b = (bytesOf s σ.cells x).take (min buf.length x) ++ buf.drop (min buf.length x) := by
  have h := inv_reach hl hr
  obtain ⟨t, k', buf', x, p, got, hpc, hst, hb, _, _⟩ := BufmapConc.got_cases hs hret
  have ht := h.thr t
  rw [hpc] at ht
  obtain ⟨hinv, hx, hkx, hrok⟩ := ht
  rw [hcall] at hinv
  have hinv := Option.some.inj hinv
  injection hinv with e1 e2
  subst e1; subst e2
  have hn : min buf.length x ≤ s := by omega
  obtain ⟨hgot, hd0⟩ := rstep_done h.cells hrok hn hst hd
  -- at that moment the slot is quiet
  have hq : bytesOf s σ.cells x = runAll s (writesOf σ.cells.log x) := by
    cases p with
    | load1 => rw [rstep] at hst; split at hst <;> simp at hst
    | copy sq ct g =>
      rw [rstep] at hst
      split at hst
      · simp at hst
      · split at hst
        · rename_i hseq
          obtain ⟨_, e2⟩ := RRes.done.inj hst
          obtain ⟨_, hev, hle, _, _⟩ := hrok
          have : σ.cells.cnt x = ct := by omega
          exact (h.cells.quiet (by omega)).2
        · simp at hst
  refine ⟨x, hx, (hkx.resolve_left (fun e => hk e.1)).2, hq, ?_⟩
  have hlen : got.length = min buf.length x := by
    rw [hgot, List.length_take, ← hq, bytesOf_length]; omega
  rw [hb, hlen, hgot, hq]

/-- the goroutine `t` died inside the function of an Update(k): the function panicked -/
def DiedIn (σ : State) (t : Nat) (k : U64) (x : Nat) : Prop := ∃ e, σ.pc t = .w k x e .dead

/-- what stays true for ever after -/
structure Wedged (l : Nat) (n : Nat) (k : U64) (x j : Nat) (t : Nat) (old : List Nat) (σ : State) : Prop where
  died : DiedIn σ t k x
  upds : ∀ id r fn, (id, r) ∈ σ.rets → σ.invs[id]? = some (.upd k fn) → id ∈ old
  gets : ∀ id r buf, (id, r) ∈ σ.rets → σ.invs[id]? = some (.get k buf) → id < n
  probe : ∀ t' id buf i, σ.pc t' = .gProbe id k buf i → n ≤ id → i ≤ j

theorem Wedged.after {l s : Nat} (hl : 0 < l) {n : Nat} {k : U64} (hk : k ≠ 0) {x j : Nat} (hj : j ≤ maxReprobe)
    (hpos : pos l k j = x) {t : Nat} {old : List Nat} {σ σ' : State} (h : Inv l s σ) (hx : x < l) (hn : n ≤ σ.invs.length)
    (w : Wedged l n k x j t old σ) (hs : Step l s σ σ') : Wedged l n k x j t old σ' := by
  obtain ⟨e, hdead⟩ := w.died
  have htd := h.thr t
  rw [hdead] at htd
  have hkx : σ.keys x = k := htd.2.2.2
  have hWt : wOf σ.pc t = some (x, e, .dead) := by unfold wOf; rw [hdead]; rfl
  have hwok := h.cells.wok t x e .dead hWt
  have hlk : σ.cells.lock x = some t := hwok.1
  -- an old call still has the same number
  have inj : ∀ (id : Nat) (op op' : Op) (invs' : List Op), (∃ more, invs' = σ.invs ++ more) → id < σ.invs.length →
      invs'[id]? = some op → σ.invs[id]? = some op := by
    rintro id op _ _ ⟨more, rfl⟩ hlt h
    rwa [List.getElem?_append_left hlt] at h
  have hm := BufmapConc.step_mono hl h hs
  have hrlt : ∀ id r, (id, r) ∈ σ.rets → id < σ.invs.length := by
    intro id r hm
    exact h.ids.dlt id (List.mem_map.mpr ⟨_, hm, rfl⟩)
  -- case analysis on the effect
  have main : DiedIn σ' t k x ∧
      ((∀ id r, (id, r) ∈ σ'.rets → (id, r) ∈ σ.rets ∨ ((∀ fn, σ'.invs[id]? ≠ some (.upd k fn)) ∧
        ((∃ buf, σ'.invs[id]? = some (.get k buf)) → id < n))) ∧
       (∀ t' id buf i, σ'.pc t' = .gProbe id k buf i → n ≤ id → i ≤ j)) := by
    cases hs with
    | call t' op ht' =>
      have hne : t ≠ t' := by rintro rfl; rw [hdead] at ht'; simp at ht'
      unfold call
      cases op with
      | get k' buf' =>
        refine ⟨⟨e, by show upd _ _ _ t = _; rw [upd_other _ _ hne]; exact hdead⟩, fun id r hm => Or.inl hm, ?_⟩
        intro t1 id buf i hpc hid
        have hpc : upd σ.pc t' _ t1 = _ := hpc
        by_cases he : t1 = t'
        · subst he; rw [upd_same] at hpc
          injection hpc with _ _ _ e4; omega
        · rw [upd_other _ _ he] at hpc; exact w.probe t1 id buf i hpc hid
      | upd k' fn' =>
        simp only
        split
        · rename_i hk0
          refine ⟨⟨e, hdead⟩, ?_, w.probe⟩
          intro id r hm
          rcases List.mem_append.mp hm with hm | hm
          · exact Or.inl hm
          · right
            have hm := List.mem_singleton.mp hm
            have e1 : id = σ.invs.length := congrArg Prod.fst hm
            subst e1
            constructor
            · intro fn hc
              simp only [List.getElem?_concat_length, Option.some.injEq, Op.upd.injEq] at hc
              exact hk (hc.1.symm.trans hk0)
            · rintro ⟨buf, hc⟩
              simp only [List.getElem?_concat_length, Option.some.injEq] at hc
              simp at hc
        · refine ⟨⟨e, by show upd _ _ _ t = _; rw [upd_other _ _ hne]; exact hdead⟩, fun id r hm => Or.inl hm, ?_⟩
          intro t1 id buf i hpc hid
          have hpc : upd σ.pc t' _ t1 = _ := hpc
          by_cases he : t1 = t'
          · subst he; rw [upd_same] at hpc; simp at hpc
          · rw [upd_other _ _ he] at hpc; exact w.probe t1 id buf i hpc hid
    | step _ t' hs =>
      have ht' := h.thr t'
      have hne : t' ≠ t := by
        rintro rfl
        unfold step at hs
        rw [hdead] at hs
        simp [wstep] at hs
      -- a move that is not to gProbe of k, with no return
      have quiet : ∀ (keys : Nat → U64) (c : Cells) (p : PC), (∀ id buf i, p = .gProbe id k buf i → n ≤ id → i ≤ j) →
          DiedIn ⟨keys, c, upd σ.pc t' p, σ.invs, σ.rets⟩ t k x ∧
          ((∀ id r, (id, r) ∈ σ.rets → (id, r) ∈ σ.rets ∨ ((∀ fn, σ.invs[id]? ≠ some (.upd k fn)) ∧
            ((∃ buf, σ.invs[id]? = some (.get k buf)) → id < n))) ∧
           (∀ t1 id buf i, upd σ.pc t' p t1 = .gProbe id k buf i → n ≤ id → i ≤ j)) := by
        intro keys c p hp
        refine ⟨⟨e, by show upd _ _ _ t = _; rw [upd_other _ _ (Ne.symm hne)]; exact hdead⟩, fun id r hm => Or.inl hm, ?_⟩
        intro t1 id buf i hpc hid
        by_cases he : t1 = t'
        · subst he; rw [upd_same] at hpc; exact hp id buf i hpc hid
        · rw [upd_other _ _ he] at hpc; exact w.probe t1 id buf i hpc hid
      -- a return of a call that is not a call for k
      have retn : ∀ (keys : Nat → U64) (c : Cells) (id0 : Nat) (r0 : Ret), (∀ fn, σ.invs[id0]? ≠ some (.upd k fn)) →
          ((∃ buf, σ.invs[id0]? = some (.get k buf)) → id0 < n) →
          DiedIn ⟨keys, c, upd σ.pc t' .idle, σ.invs, σ.rets ++ [(id0, r0)]⟩ t k x ∧
          ((∀ id r, (id, r) ∈ σ.rets ++ [(id0, r0)] → (id, r) ∈ σ.rets ∨ ((∀ fn, σ.invs[id]? ≠ some (.upd k fn)) ∧
            ((∃ buf, σ.invs[id]? = some (.get k buf)) → id < n))) ∧
           (∀ t1 id buf i, upd σ.pc t' .idle t1 = .gProbe id k buf i → n ≤ id → i ≤ j)) := by
        intro keys c id0 r0 h1 h2
        refine ⟨⟨e, by show upd _ _ _ t = _; rw [upd_other _ _ (Ne.symm hne)]; exact hdead⟩, ?_, ?_⟩
        · intro id r hm
          rcases List.mem_append.mp hm with hm | hm
          · exact Or.inl hm
          · have hm := List.mem_singleton.mp hm
            have e1 : id = id0 := congrArg Prod.fst hm
            subst e1
            exact Or.inr ⟨h1, h2⟩
        · intro t1 id buf i hpc hid
          by_cases he : t1 = t'
          · subst he; rw [upd_same] at hpc; simp at hpc
          · rw [upd_other _ _ he] at hpc; exact w.probe t1 id buf i hpc hid
      unfold step at hs
      cases hpc : σ.pc t' with
      | idle => rw [hpc] at hs; simp at hs
      | gone => rw [hpc] at hs; simp at hs
      | uProbe id' k' fn' ini p =>
        rw [hpc] at hs ht'
        simp only at hs
        obtain ⟨hinv, hk', hp⟩ := ht'
        obtain ⟨k1, k2, k3, k4⟩ := probeStep_ok hl hk' h.keys ini hp
        generalize probeStep l k' σ.keys ini p = ps at *
        obtain ⟨keys, res⟩ := ps
        simp only at k1 k2 k3 k4
        cases res with
        | go p' i =>
          have hs := Option.some.inj hs; subst hs
          exact quiet keys σ.cells _ (by intro id buf i hc; simp at hc)
        | found y i =>
          have hs := Option.some.inj hs; subst hs
          exact quiet keys σ.cells _ (by intro id buf i hc; simp at hc)
        | full =>
          have hs := Option.some.inj hs; subst hs
          have hkk : keys = σ.keys := k4.1
          subst hkk
          refine retn σ.keys σ.cells id' .outOfSlots ?_ ?_
          · intro fn hc
            rw [hinv] at hc
            injection (Option.some.inj hc) with e1 _
            subst e1
            exact h.keys.absent_of_passed hk' k4.2 x hx hkx
          · rintro ⟨buf, hc⟩
            rw [hinv] at hc; simp at hc
      | w k' x' e' p =>
        rw [hpc] at hs ht'
        simp only at hs
        have hW' : wOf σ.pc t' = some (x', e', p) := by unfold wOf; rw [hpc]; rfl
        cases hst : wstep s t' x' e' σ.cells p with
        | none => rw [hst] at hs; simp at hs
        | some cr =>
          obtain ⟨c, r⟩ := cr
          rw [hst] at hs
          cases r with
          | go q =>
            have hs := Option.some.inj hs; subst hs
            exact quiet σ.keys c _ (by intro id buf i hc; simp at hc)
          | ret err =>
            have hs := Option.some.inj hs; subst hs
            obtain ⟨hp, _⟩ := wstep_ret hst
            subst hp
            have hlk' : σ.cells.lock x' = some t' := (h.cells.wok t' x' e' _ hW').1
            refine retn σ.keys c e'.id (.ran err) ?_ ?_
            · intro fn hc
              rw [ht'.1] at hc
              injection (Option.some.inj hc) with e1 _
              have hkx' := ht'.2.2.2
              rw [e1] at hkx'
              have : x' = x := h.keys.unique ht'.2.2.1 hx (by rw [hkx']; exact hk) (hkx'.trans hkx.symm)
              subst this
              rw [hlk] at hlk'
              exact hne (Option.some.inj hlk').symm
            · rintro ⟨buf, hc⟩
              rw [ht'.1] at hc; simp at hc
      | gProbe id' k' buf' i' =>
        rw [hpc] at hs ht'
        simp only at hs
        obtain ⟨hinv, hi'⟩ := ht'
        unfold lookStep at hs
        by_cases h1 : σ.keys (pos l k' i') = k'
        · rw [if_pos h1] at hs
          have hs := Option.some.inj hs; subst hs
          exact quiet σ.keys σ.cells _ (by intro id buf i hc; simp at hc)
        · rw [if_neg h1] at hs
          have hne_j : ∀ (hkk : k' = k), i' ≠ j := by
            rintro rfl rfl
            rw [hpos] at h1; exact h1 hkx
          by_cases h2 : i' + 1 > maxReprobe
          · rw [if_pos h2] at hs
            have hs := Option.some.inj hs; subst hs
            refine retn σ.keys σ.cells id' _ ?_ ?_
            · intro fn hc; rw [hinv] at hc; simp at hc
            · rintro ⟨buf, hc⟩
              rw [hinv] at hc
              injection (Option.some.inj hc) with e1 e2
              subst e1; subst e2
              by_cases hlt : id' < n
              · exact hlt
              · have := w.probe t' id' buf' i' hpc (by omega)
                have := hne_j rfl
                omega
          · rw [if_neg h2] at hs
            have hs := Option.some.inj hs; subst hs
            refine quiet σ.keys σ.cells _ ?_
            intro id buf i hc hid
            injection hc with c1 c2 c3 c4
            subst c1; subst c2; subst c3
            have := w.probe t' id' buf' i' hpc hid
            have := hne_j rfl
            omega
      | r id' k' buf' x' p =>
        rw [hpc] at hs ht'
        simp only at hs
        obtain ⟨hinv, hx', hkx', hrok⟩ := ht'
        split at hs
        · have hs := Option.some.inj hs; subst hs
          exact quiet σ.keys σ.cells _ (by intro id buf i hc; simp at hc)
        · cases hst : rstep s x' (min buf'.length x') σ.cells p with
          | go p' =>
            rw [hst] at hs
            have hs := Option.some.inj hs; subst hs
            exact quiet σ.keys σ.cells _ (by intro id buf i hc; simp at hc)
          | done got during =>
            rw [hst] at hs
            have hs := Option.some.inj hs; subst hs
            refine retn σ.keys σ.cells id' _ ?_ ?_
            · intro fn hc; rw [hinv] at hc; simp at hc
            · rintro ⟨buf, hc⟩
              exfalso
              rw [hinv] at hc
              injection (Option.some.inj hc) with e1 e2
              subst e1
              have hkx' := (hkx'.resolve_left (fun e => hk e.1)).2
              have : x' = x := h.keys.unique hx' hx (by rw [hkx']; exact hk) (hkx'.trans hkx.symm)
              subst this
              -- the sequence number is odd for ever, the one loaded first was even
              cases p with
              | load1 => rw [rstep] at hst; split at hst <;> simp at hst
              | copy sq ct g =>
                rw [rstep] at hst
                split at hst
                · simp at hst
                · split at hst
                  · rename_i hseq
                    obtain ⟨hsq, hev, _, _, _⟩ := hrok
                    have hodd := hwok.2
                    rw [hsq, h.cells.seq x'] at hseq
                    have := congrArg BitVec.toNat hseq
                    rw [BitVec.toNat_ofNat, BitVec.toNat_ofNat] at this
                    omega
                  · simp at hst
  obtain ⟨hd, hrets, hprobe⟩ := main
  obtain ⟨_, hinvs, _, _⟩ := hm
  refine ⟨hd, ?_, ?_, hprobe⟩
  · intro id r fn hmem hinv
    rcases hrets id r hmem with h1 | ⟨h1, _⟩
    · exact w.upds id r fn h1 (inj id _ (.upd k fn) _ hinvs (hrlt id r h1) hinv)
    · exact absurd hinv (h1 fn)
  · intro id r buf hmem hinv
    rcases hrets id r hmem with h1 | ⟨_, h1⟩
    · exact w.gets id r buf h1 (inj id _ (.get k buf) _ hinvs (hrlt id r h1) hinv)
    · exact h1 ⟨buf, hinv⟩

/-- **C36** is false: once a function passed to Update(k) has panicked, in any interleaving, no Update(k) that has not yet
returned ever returns, and no Get(k) called afterwards ever returns. -/
theorem C36_wedged_forever (l s : Nat) (hl : 0 < l) (σ σ' : State) (hr : Steps l s init σ) (hs : Steps l s σ σ') (t : Nat)
    (k : U64) (x : Nat) (hdead : DiedIn σ t k x) :
    (∀ (id : Nat) (fn : CFn), σ'.invs[id]? = some (.upd k fn) → (∀ r, (id, r) ∉ σ.rets) → ∀ r, (id, r) ∉ σ'.rets) ∧
    (∀ (id : Nat) (buf : Bytes), σ.invs.length ≤ id → σ'.invs[id]? = some (.get k buf) → ∀ r, (id, r) ∉ σ'.rets) := by
  have h := inv_reach hl hr
  obtain ⟨e, he⟩ := hdead
  have ht := h.thr t
  rw [he] at ht
  obtain ⟨_, hk, hx, hkx⟩ := ht
  obtain ⟨j, hj, hpos, _⟩ := h.keys x hx (by rw [hkx]; exact hk)
  rw [hkx] at hpos
  have w0 : Wedged l σ.invs.length k x j t (σ.rets.map (·.1)) σ := by
    refine ⟨⟨e, he⟩, ?_, ?_, ?_⟩
    · intro id r fn hm _; exact List.mem_map.mpr ⟨_, hm, rfl⟩
    · intro id r buf hm _; exact h.ids.dlt id (List.mem_map.mpr ⟨_, hm, rfl⟩)
    · intro t' id buf i hpc hid
      have := h.ids.lt t' id (by unfold curOf; rw [hpc]; rfl)
      omega
  have key : Inv l s σ' ∧ σ.invs.length ≤ σ'.invs.length ∧ Wedged l σ.invs.length k x j t (σ.rets.map (·.1)) σ' := by
    induction hs with
    | refl => exact ⟨h, Nat.le_refl _, w0⟩
    | tail _ h1 ih =>
      obtain ⟨i1, i2, i3⟩ := ih
      refine ⟨inv_one hl i1 h1, ?_, i3.after hl hk hj hpos i1 hx i2 h1⟩
      obtain ⟨_, ⟨more, hm⟩, _, _⟩ := BufmapConc.step_mono hl i1 h1
      rw [hm, List.length_append]; omega
  obtain ⟨_, _, w⟩ := key
  constructor
  · intro id fn hinv hnot r hm
    obtain ⟨⟨i, r'⟩, h1, h2⟩ := List.mem_map.mp (w.upds id r fn hm hinv)
    simp only at h2; subst h2
    exact hnot r' h1
  · intro id buf hid hinv r hm
    have := w.gets id r buf hm hinv
    omega

/-- every stored key was asked for -/
theorem stored_asked {l s : Nat} (hl : 0 < l) {σ : State} (hr : Steps l s init σ) :
    ∀ y, σ.keys y ≠ 0 → ∃ (i : Nat) (fn : CFn), σ.invs[i]? = some (.upd (σ.keys y) fn) := by
  induction hr with
  | refl => intro y hy; exact absurd rfl hy
  | @tail σ2 σ1 h0 h1 ih =>
    intro y hy
    have hi := inv_reach hl h0
    obtain ⟨_, ⟨more, hm⟩, _, _⟩ := BufmapConc.step_mono hl hi h1
    have old : ∀ {σ1 σ2 : State} (more : List Op), σ2.invs = σ1.invs ++ more → σ2.keys y = σ1.keys y →
        (σ1.keys y ≠ 0 → ∃ (i : Nat) (fn : CFn), σ1.invs[i]? = some (.upd (σ1.keys y) fn)) → σ2.keys y ≠ 0 →
        ∃ (i : Nat) (fn : CFn), σ2.invs[i]? = some (.upd (σ2.keys y) fn) := by
      intro σ1 σ2 more hm hk hih hy
      rw [hk] at hy ⊢
      obtain ⟨i, fn, hf⟩ := hih hy
      refine ⟨i, fn, ?_⟩
      rw [hm, List.getElem?_append_left (inv_lt hf)]; exact hf
    cases h1 with
    | call t op ht =>
      refine old more hm ?_ (ih y) hy
      unfold call
      cases op with
      | upd k d => simp only; split <;> rfl
      | get k => rfl
    | step _ t hs =>
      have ht := hi.thr t
      unfold step at hs
      cases hpc : σ2.pc t with
      | idle => rw [hpc] at hs; simp at hs
      | gone => rw [hpc] at hs; simp at hs
      | uProbe id k fn ini p =>
        rw [hpc] at hs ht
        simp only at hs
        obtain ⟨hinv, hk, hp⟩ := ht
        obtain ⟨_, _, k3, _⟩ := probeStep_ok hl hk hi.keys ini hp
        generalize probeStep l k σ2.keys ini p = ps at *
        obtain ⟨keys, res⟩ := ps
        have : keys y = σ2.keys y ∨ keys y = k := (k3 y).imp (fun h => h) (·.2.2)
        cases res <;>
        · have hs := Option.some.inj hs
          subst hs
          rcases this with e | e
          · exact old [] (by simp) e (ih y) hy
          · refine ⟨id, fn, ?_⟩
            show σ2.invs[id]? = some (.upd (keys y) fn)
            rw [e]; exact hinv
      | w k x e p =>
        rw [hpc] at hs
        simp only at hs
        split at hs
        · simp at hs
        · have hs := Option.some.inj hs; subst hs; exact old [] (by simp) rfl (ih y) hy
        · have hs := Option.some.inj hs; subst hs; exact old [] (by simp) rfl (ih y) hy
      | gProbe id k buf i =>
        rw [hpc] at hs
        simp only at hs
        split at hs <;> (have hs := Option.some.inj hs; subst hs; exact old [] (by simp) rfl (ih y) hy)
      | r id k buf x p =>
        rw [hpc] at hs
        simp only at hs
        split at hs
        · have hs := Option.some.inj hs; subst hs; exact old [] (by simp) rfl (ih y) hy
        · split at hs <;> (have hs := Option.some.inj hs; subst hs; exact old [] (by simp) rfl (ih y) hy)

/-- **C40** for bufmap under concurrency: a non-zero key is found by Get only if some Update of that key was called. -/
theorem C40_bufmap_conc_partial (l s : Nat) (hl : 0 < l) (σ σ' : State) (hr : Steps l s init σ) (hs : Step l s σ σ')
    (id : Nat) (k : U64) (hk : k ≠ 0) (buf b : Bytes) (d : Nat)
    (hcall : σ.invs[id]? = some (.get k buf)) (hret : σ'.rets = σ.rets ++ [(id, .got true b d)]) :
    ∃ (i : Nat) (fn : CFn), σ.invs[i]? = some (.upd k fn) := by
  have h := inv_reach hl hr
  obtain ⟨t, k', buf', x, p, got, hpc, _, _, _, _⟩ := BufmapConc.got_cases hs hret
  have ht := h.thr t
  rw [hpc] at ht
  obtain ⟨hinv, hx, hkx, _⟩ := ht
  rw [hcall] at hinv
  injection (Option.some.inj hinv) with e1 e2
  subst e1; subst e2
  have hkx := (hkx.resolve_left (fun e => hk e.1)).2
  obtain ⟨i, fn, hf⟩ := stored_asked hl hr x (by rw [hkx]; exact hk)
  exact ⟨i, fn, by rw [hkx] at hf; exact hf⟩

/-! ### Concrete runs -/

namespace BufmapConc
def idle? : PC → Bool
  | .idle => true
  | _ => false

/-- execute a schedule: `some op` starts a call, `none` is one step -/
def runSched (l s : Nat) (σ : State) : List (Nat × Option Op) → Option State
  | [] => some σ
  | (t, some op) :: rest => if idle? (σ.pc t) then runSched l s (call σ t op) rest else none
  | (t, none) :: rest =>
    match step l s σ t with
    | some σ' => runSched l s σ' rest
    | none => none

theorem steps_append {l s : Nat} {a b c : State} (h : Steps l s a b) (h' : Steps l s b c) : Steps l s a c := by
  induction h' with
  | refl => exact h
  | tail _ s ih => exact .tail ih s

theorem runSched_steps {l s : Nat} : ∀ (sch : List (Nat × Option Op)) {σ σ' : State}, runSched l s σ sch = some σ' →
    Steps l s σ σ' := by
  intro sch
  induction sch with
  | nil => intro σ σ' h; rw [← Option.some.inj h]; exact .refl _
  | cons a sch ih =>
    intro σ σ' h
    obtain ⟨t, op⟩ := a
    cases op with
    | some op =>
      unfold runSched at h
      split at h
      · rename_i hpc
        have : σ.pc t = .idle := by
          cases hp : σ.pc t <;> rw [hp] at hpc <;> simp [idle?] at hpc
        exact steps_append (.tail (.refl _) (.call σ t op this)) (ih h)
      · simp at h
    | none =>
      unfold runSched at h
      cases hs : step l s σ t with
      | none => rw [hs] at h; simp at h
      | some σ1 =>
        rw [hs] at h
        exact steps_append (.tail (.refl _) (.step σ σ1 t hs)) (ih h)

/-- An update function of the kind the collator uses: a one-byte counter that is reset when `init` is signalled and then
incremented. -/
def bump : CFn := fun d ini => ([(0, if ini then 1 else d.getD 0 0 + 1)], .ret none)
/-- a function that panics after writing a byte -/
def boom : CFn := fun _ _ => ([(0, 9)], .panic)

def steps (t n : Nat) : List (Nat × Option Op) := List.replicate n (t, none)

/-- Goroutine 0 stores the key 7 and is delayed before taking the mutex; goroutine 1 finds the key there (so is told
`init = false`), counts its observation and returns; goroutine 0, told `init = true`, then resets the counter. -/
def lateInit : List (Nat × Option Op) :=
  [(0, some (.upd 7 bump))] ++ steps 0 2 ++ [(1, some (.upd 7 bump))] ++ steps 1 7 ++ steps 0 6

/-- Goroutines 0 and 1 both see the empty slot, so both are told `init = true`. -/
def doubleInit : List (Nat × Option Op) :=
  [(0, some (.upd 7 bump)), (1, some (.upd 7 bump))] ++ steps 0 1 ++ steps 1 1 ++ steps 0 7 ++ steps 1 8

/-- two updates of key 2 and then a read into a buffer of two bytes (slot 2, stride 2) -/
def readBack : List (Nat × Option Op) :=
  [(0, some (.upd 2 bump))] ++ steps 0 8 ++ [(1, some (.upd 2 bump))] ++ steps 1 7 ++
  [(2, some (.get 2 [5, 6]))] ++ steps 2 5

def boomRun : List (Nat × Option Op) := [(0, some (.upd 7 boom))] ++ steps 0 6
end BufmapConc
open BufmapConc

/-- **C31** is false under concurrency (1): with two updates of a fresh key, the update told `init = true` can be applied
second, so that a function which resets the buffer on `init` loses the first observation: the counter ends as 1. -/
theorem C31_late_init : ∃ σ, Steps 4 2 init σ ∧ (∀ t, t < 2 → idle? (σ.pc t) = true) ∧
    σ.rets = [(1, .ran none), (0, .ran none)] ∧
    (writesOf σ.cells.log 3).map (fun e => (e.id, e.init)) = [(1, false), (0, true)] ∧
    bytesOf 2 σ.cells 3 = [1, 0] := by
  have h : ∃ σ, runSched 4 2 init lateInit = some σ ∧ (∀ t, t < 2 → idle? (σ.pc t) = true) ∧
      σ.rets = [(1, .ran none), (0, .ran none)] ∧
      (writesOf σ.cells.log 3).map (fun e => (e.id, e.init)) = [(1, false), (0, true)] ∧
      bytesOf 2 σ.cells 3 = [1, 0] := by
    refine ⟨_, rfl, ?_, by decide, by decide, by decide⟩
    intro t ht
    match t, ht with
    | 0, _ => decide
    | 1, _ => decide
  obtain ⟨σ, h1, h2⟩ := h
  exact ⟨σ, runSched_steps _ h1, h2⟩

/-- **C31** is false under concurrency (2): two updates of a fresh key can both be told `init = true`; again one
observation is lost. -/
theorem C31_double_init : ∃ σ, Steps 4 2 init σ ∧ (∀ t, t < 2 → idle? (σ.pc t) = true) ∧
    σ.rets = [(0, .ran none), (1, .ran none)] ∧
    (writesOf σ.cells.log 3).map (fun e => (e.id, e.init)) = [(0, true), (1, true)] ∧
    bytesOf 2 σ.cells 3 = [1, 0] := by
  have h : ∃ σ, runSched 4 2 init doubleInit = some σ ∧ (∀ t, t < 2 → idle? (σ.pc t) = true) ∧
      σ.rets = [(0, .ran none), (1, .ran none)] ∧
      (writesOf σ.cells.log 3).map (fun e => (e.id, e.init)) = [(0, true), (1, true)] ∧
      bytesOf 2 σ.cells 3 = [1, 0] := by
    refine ⟨_, rfl, ?_, by decide, by decide, by decide⟩
    intro t ht
    match t, ht with
    | 0, _ => decide
    | 1, _ => decide
  obtain ⟨σ, h1, h2⟩ := h
  exact ⟨σ, runSched_steps _ h1, h2⟩

/-- the hypotheses of C34 and C35 are met: two sequential updates and a read -/
example : ∃ σ, Steps 4 2 init σ ∧ σ.rets = [(0, .ran none), (1, .ran none), (2, .got true [2, 0] 0)] ∧ σ.keys 2 = 2 ∧
    AllReturned σ 2 := by
  have h : ∃ σ, runSched 4 2 init readBack = some σ ∧
      σ.rets = [(0, .ran none), (1, .ran none), (2, .got true [2, 0] 0)] ∧ σ.keys 2 = 2 ∧
      σ.invs = [.upd 2 bump, .upd 2 bump, .get 2 [5, 6]] := by
    refine ⟨_, rfl, by decide, by decide, rfl⟩
  obtain ⟨σ, h1, h2, h3, h4⟩ := h
  refine ⟨σ, runSched_steps _ h1, h2, h3, ?_⟩
  intro id fn hf
  rw [h4] at hf
  rw [h2]
  match id, hf with
  | 0, _ => exact ⟨.ran none, by simp⟩
  | 1, _ => exact ⟨.ran none, by simp⟩
  | 2, hf => simp at hf

/-- the hypothesis of C36_wedged_forever is met -/
example : ∃ σ, Steps 4 2 init σ ∧ DiedIn σ 0 7 3 := by
  have h : ∃ σ, runSched 4 2 init boomRun = some σ ∧ DiedIn σ 0 7 3 := ⟨_, rfl, _, rfl⟩
  obtain ⟨σ, h1, h2⟩ := h
  exact ⟨σ, runSched_steps _ h1, h2⟩

end Starbow.Props
