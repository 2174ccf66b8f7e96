import Verif.Proof.Seqlock
/-
Properties C37 and C38: seqlock. `Steps n init σ`: σ is reachable under some interleaving of calls of any number of
goroutines on a fresh seqlock of `n` bytes (1024 in the code).
-/
namespace Starbow.Props
open Starbow.Seqlock Starbow.Probe Starbow.Cell Starbow.Spec

namespace Seqlock

theorem mem_ranIds {rets : List (Nat × Ret)} {id : Nat} : id ∈ ranIds rets ↔ ∃ err, (id, Ret.wrote err) ∈ rets := by
  unfold ranIds
  rw [List.mem_filterMap]
  constructor
  · rintro ⟨⟨i, r⟩, hm, he⟩
    cases r <;> simp [ranId] at he
    subst he; exact ⟨_, hm⟩
  · rintro ⟨err, hm⟩
    exact ⟨_, hm, rfl⟩

theorem mem_writesOf {log : List (Nat × Entry)} {x : Nat} {e : Entry} : e ∈ writesOf log x ↔ (x, e) ∈ log := by
  unfold writesOf
  simp only [List.mem_map, List.mem_filter, beq_iff_eq]
  constructor
  · rintro ⟨⟨a, b⟩, ⟨h1, h2⟩, h3⟩
    simp only at h2 h3; subst h2; subst h3; exact h1
  · intro h; exact ⟨(x, e), ⟨h, rfl⟩, rfl⟩

theorem writesOf_nodup {c : Cells} (h : (logIds c).Nodup) (x : Nat) : ((writesOf c.log x).map (·.id)).Nodup := by
  have : List.Sublist ((writesOf c.log x).map (·.id)) (logIds c) := by
    unfold writesOf logIds
    rw [List.map_map]
    exact (List.filter_sublist).map _
  exact h.sublist this

/-- the call of an entry -/
def opOf (invs : List Op) (id : Nat) : Op := (invs[id]?).getD .get

theorem runAll_ops {n : Nat} {invs : List Op} : ∀ (es : List Entry), (∀ e ∈ es, EntryOk n invs e) →
    runAll n es = seqRun n (es.map fun e => opOf invs e.id) := by
  intro es
  have : ∀ (es : List Entry) (d : Bytes), d.length = n → (∀ e ∈ es, EntryOk n invs e) →
      es.foldl runAlone d = (es.map fun e => opOf invs e.id).foldl (seqAfter n) d := by
    intro es
    induction es with
    | nil => intro d _ _; rfl
    | cons e es ih =>
      intro d hd h
      obtain ⟨op, h1, h2, h3, h4⟩ := h e (by simp)
      have he : e = ⟨e.id, writer n op, false⟩ := by
        cases e; simp only at h3 h4; subst h3; subst h4; rfl
      have hr : runAlone d e = seqAfter n d op := by
        rw [he]; exact runAlone_writer n op _ _ d hd
      rw [List.map_cons, List.foldl_cons, List.foldl_cons, hr]
      have ho : opOf invs e.id = op := by unfold opOf; rw [h1]; rfl
      rw [ho]
      apply ih
      · rw [← hr]
        unfold runAlone
        generalize (e.fn d e.init).1 = ws
        clear hr ih h
        induction ws generalizing d with
        | nil => exact hd
        | cons w ws ih => rw [List.foldl_cons]; exact ih _ (by rw [List.length_set]; exact hd)
      · intro e' he'; exact h e' (by simp [he'])
  intro h
  exact this es _ (by simp) h

theorem step_mono {n : Nat} {σ σ' : State} (h : Inv n σ) (hs : Step n σ σ') :
    (∃ more, σ'.invs = σ.invs ++ more) ∧ (∃ more, σ'.cells.log = σ.cells.log ++ more) := by
  have same : ∀ {α : Type} (a : List α), ∃ more, a = a ++ more := fun a => ⟨[], by simp⟩
  cases hs with
  | call t op ht => exact ⟨⟨_, rfl⟩, same _⟩
  | step _ t hs =>
    unfold step at hs
    cases hpc : σ.pc t with
    | idle => rw [hpc] at hs; simp at hs
    | w e p =>
      rw [hpc] at hs
      simp only at hs
      cases hst : wstep n t 0 e σ.cells p with
      | none => rw [hst] at hs; simp at hs
      | some cr =>
        obtain ⟨c, r⟩ := cr
        rw [hst] at hs
        have hlog := (wstep_guar (h.cells.wok t 0 e p (by unfold wOf; rw [hpc]; rfl)) hst).log
        cases r <;> (have hs := Option.some.inj hs; subst hs; exact ⟨same _, hlog⟩)
    | r id p =>
      rw [hpc] at hs
      simp only at hs
      split at hs <;> (have hs := Option.some.inj hs; subst hs; exact ⟨same _, same _⟩)

theorem steps_mono {n : Nat} {σ σ' : State} (h : Inv n σ) (hs : Steps n σ σ') :
    (∃ more, σ'.invs = σ.invs ++ more) ∧ (∃ more, σ'.cells.log = σ.cells.log ++ more) := by
  induction hs with
  | refl => exact ⟨⟨[], by simp⟩, ⟨[], by simp⟩⟩
  | tail h0 h1 ih =>
    obtain ⟨⟨a, ha⟩, ⟨b, hb⟩⟩ := ih
    obtain ⟨⟨a', ha'⟩, ⟨b', hb'⟩⟩ := step_mono (inv_steps h h0) h1
    exact ⟨⟨a ++ a', by rw [ha', ha]; simp⟩, ⟨b ++ b', by rw [hb', hb]; simp⟩⟩

/-- the call numbers of the completed writes, in the order in which they completed -/
def order (σ : State) : List Nat := (writesOf σ.cells.log 0).map (·.id)

end Seqlock
open Seqlock

/-- the calls of Put and Update made so far have all returned -/
def WritersReturned (σ : State) : Prop :=
  ∀ (id : Nat) (op : Op), σ.invs[id]? = some op → op ≠ .get → ∃ r, (id, r) ∈ σ.rets

/-- the calls with the given numbers -/
def callsOf (σ : State) (ids : List Nat) : List Op := ids.map fun id => (σ.invs[id]?).getD .get

/-- the data array -/
def contents (n : Nat) (σ : State) : Bytes := bytesOf n σ.cells 0

/-- **C38**: take any interleaving and a moment when every Put and Update that was started has returned. Then these calls
can be put in one order (`ids`, each exactly once; the order in which they completed) such that the contents are what executing them one at a time in that
order leaves — an Update whose function returns an error leaving them unchanged — and each call returned the error that
its function returns on the contents at its place in that order. -/
theorem C38_serial (n : Nat) (σ : State) (hr : Steps n init σ) (hall : WritersReturned σ) :
    ∃ ids : List Nat, ids = order σ ∧ ids.Nodup ∧ (∀ id, id ∈ ids ↔ ∃ op, σ.invs[id]? = some op ∧ op ≠ .get) ∧
      contents n σ = seqRun n (callsOf σ ids) ∧
      (∀ a id b, ids = a ++ id :: b → ∃ op err, σ.invs[id]? = some op ∧ (id, .wrote err) ∈ σ.rets ∧
        seqErr (seqRun n (callsOf σ a)) op = .val err) := by
  have h := inv_reach hr
  have hfree : σ.cells.lock 0 = none := by
    cases hlk : σ.cells.lock 0 with
    | none => rfl
    | some t =>
      exfalso
      obtain ⟨e, p, hW, _⟩ := h.cells.holder 0 t hlk
      cases hpc : σ.pc t with
      | w e' p' =>
        have ht := h.thr t
        rw [hpc] at ht
        obtain ⟨op, h1, h2, _⟩ := ht
        obtain ⟨r, hm⟩ := hall _ _ h1 h2
        refine h.ids.fresh t e'.id ?_ (List.mem_map.mpr ⟨_, hm, rfl⟩)
        unfold curOf; rw [hpc]; rfl
      | _ => unfold wOf at hW; rw [hpc] at hW; simp [PC.w?] at hW
  have hent : ∀ e ∈ writesOf σ.cells.log 0, EntryOk n σ.invs e := fun e he => (h.logok 0 e (mem_writesOf.mp he)).2
  have hcalls : ∀ es : List Entry, callsOf σ (es.map (·.id)) = es.map fun e => opOf σ.invs e.id := by
    intro es; unfold callsOf opOf; rw [List.map_map]; rfl
  refine ⟨(writesOf σ.cells.log 0).map (·.id), rfl, writesOf_nodup h.lg.nodup 0, ?_, ?_, ?_⟩
  · intro id
    constructor
    · intro hm
      obtain ⟨e, he, rfl⟩ := List.mem_map.mp hm
      obtain ⟨op, h1, h2, _⟩ := hent e he
      exact ⟨op, h1, h2⟩
    · rintro ⟨op, h1, h2⟩
      obtain ⟨r, hm⟩ := hall id op h1 h2
      have hk := h.rok id r hm
      cases r with
      | wrote err =>
        obtain ⟨e, es, rest, hid, hw, _⟩ := hk
        exact List.mem_map.mpr ⟨e, by rw [hw]; simp, hid⟩
      | got v d =>
        exfalso
        have hk : σ.invs[id]? = some .get := hk
        rw [h1] at hk
        exact h2 (Option.some.inj hk)
  · rw [hcalls, ← runAll_ops _ hent]
    exact (h.cells.free 0 hfree).2
  · intro a id b hab
    obtain ⟨es, l2, hw, ha, hb⟩ := List.map_eq_append_iff.mp hab
    obtain ⟨e, rest, hl2, hid, hb⟩ := List.map_eq_cons_iff.mp hb
    subst ha
    have he : e ∈ writesOf σ.cells.log 0 := by rw [hw, hl2]; simp
    obtain ⟨op, h1, h2, h3, h4⟩ := hent e he
    rw [hid] at h1
    obtain ⟨r, hm⟩ := hall id op h1 h2
    have hk := h.rok id r hm
    cases r with
    | got v d =>
      exfalso
      have hk : σ.invs[id]? = some .get := hk
      rw [h1] at hk
      exact h2 (Option.some.inj hk)
    | wrote err =>
      obtain ⟨e', es', rest', hid', hw', hres⟩ := hk
      have hnd := writesOf_nodup h.lg.nodup 0
      -- the same place in the order
      have key : ∀ (a b c d : List Entry) (u v : Entry), u.id = v.id → a ++ u :: b = c ++ v :: d →
          ((a ++ u :: b).map (·.id)).Nodup → a = c ∧ u = v := by
        intro a
        induction a with
        | nil =>
          intro b c d u v hid he hnd
          cases c with
          | nil => exact ⟨rfl, by simpa using (List.cons.inj he).1⟩
          | cons c0 c =>
            exfalso
            have h1 := List.cons.inj he
            rw [List.nil_append, List.map_cons, List.nodup_cons] at hnd
            apply hnd.1
            rw [h1.2, hid]
            exact List.mem_map.mpr ⟨v, by simp, rfl⟩
        | cons a0 a ih =>
          intro b c d u v hid he hnd
          cases c with
          | nil =>
            exfalso
            have h1 := List.cons.inj he
            rw [List.cons_append, List.map_cons, List.nodup_cons] at hnd
            apply hnd.1
            rw [h1.1, ← hid]
            exact List.mem_map.mpr ⟨u, by simp, rfl⟩
          | cons c0 c =>
            have h1 := List.cons.inj he
            rw [List.cons_append, List.map_cons, List.nodup_cons] at hnd
            obtain ⟨e1, e2⟩ := ih b c d u v hid h1.2 hnd.2
            exact ⟨by rw [h1.1, e1], e2⟩
      rw [hl2] at hw
      obtain ⟨e1, e2⟩ := key es rest es' rest' e e' (hid.trans hid'.symm) (hw.symm.trans hw') (by rw [← hw]; exact hnd)
      subst e1; subst e2
      refine ⟨op, err, h1, hm, ?_⟩
      rw [hcalls, ← runAll_ops (n := n) (invs := σ.invs) es (fun e he => hent e (by rw [hw]; simp [he]))]
      rw [h3] at hres
      cases op with
      | get => exact absurd rfl h2
      | put v => simp only [writer, FnRes.ret.injEq] at hres; rw [← hres]; rfl
      | update fn =>
        simp only [writer] at hres
        show (fn (runAll n es)).2 = _
        generalize fn (runAll n es) = r at hres ⊢
        obtain ⟨d', o⟩ := r
        cases o with
        | panic => simp at hres
        | val o => cases o <;> (simp at hres; rw [← hres])

/-- **C38**, real time: the completed writes keep their order, and at any moment every writer that has returned is among
them; so a call that returned before another was started comes before it in the order. -/
theorem C38_real_time (n : Nat) (σ σ' : State) (hr : Steps n init σ) (hs : Steps n σ σ') :
    ∃ later, order σ' = order σ ++ later ∧ (∀ id err, (id, Ret.wrote err) ∈ σ.rets → id ∈ order σ) ∧
      ∀ id ∈ order σ, id < σ.invs.length := by
  have h := inv_reach hr
  obtain ⟨_, ⟨more, hm⟩⟩ := steps_mono h hs
  refine ⟨(writesOf more 0).map (·.id), ?_, ?_, ?_⟩
  · unfold order; rw [hm, writesOf_append, List.map_append]
  · intro id err hret
    obtain ⟨e, es, rest, hid, hw, _⟩ := h.rok id _ hret
    exact List.mem_map.mpr ⟨e, by rw [hw]; simp, hid⟩
  · intro id hid
    obtain ⟨e, he, rfl⟩ := List.mem_map.mp hid
    obtain ⟨op, h1, _⟩ := (h.logok 0 e (mem_writesOf.mp he)).2
    exact inv_lt h1

/-- **C37**: when a Get returns, in any interleaving, the value it returns is the complete contents at that moment — the
result of executing the writes completed so far one at a time — if fewer than 2^32 increments of the sequence number
(2^31 writes) happened between its two loads of it. -/
theorem C37_snapshot (n : Nat) (σ σ' : State) (hr : Steps n init σ) (hs : Step n σ σ') (id : Nat) (v : Bytes) (d : Nat)
    (hd : d < 2 ^ 32) (hret : σ'.rets = σ.rets ++ [(id, .got v d)]) :
    v = contents n σ ∧ v = seqRun n (callsOf σ (order σ)) := by
  have h := inv_reach hr
  have ne : ∀ (a : List (Nat × Ret)) (r r' : Nat × Ret), a ++ [r] = a ++ [r'] → r = r' := by
    intro a r r' e
    have := List.append_cancel_left e
    simpa using this
  have nn : ∀ (a : List (Nat × Ret)) (r : Nat × Ret), a = a ++ [r] → False := by
    intro a r e
    have := congrArg List.length e; simp at this
  have hcalls : ∀ es : List Entry, callsOf σ (es.map (·.id)) = es.map fun e => opOf σ.invs e.id := by
    intro es; unfold callsOf opOf; rw [List.map_map]; rfl
  have hent : ∀ e ∈ writesOf σ.cells.log 0, EntryOk n σ.invs e := fun e he => (h.logok 0 e (mem_writesOf.mp he)).2
  cases hs with
  | call t op ht => exact absurd hret (fun e => nn _ _ e)
  | step _ t hs =>
    unfold step at hs
    cases hpc : σ.pc t with
    | idle => rw [hpc] at hs; simp at hs
    | w e p =>
      exfalso
      rw [hpc] at hs
      simp only at hs
      split at hs
      · simp at hs
      · have hs := Option.some.inj hs; subst hs; exact nn _ _ hret
      · have hs := Option.some.inj hs; subst hs; have := ne _ _ _ hret; simp at this
    | r id' p =>
      have ht := h.thr t
      rw [hpc] at hs ht
      simp only at hs
      cases hst : rstep n 0 n σ.cells p with
      | go p' =>
        exfalso
        rw [hst] at hs
        have hs := Option.some.inj hs; subst hs; exact nn _ _ hret
      | done got during =>
        rw [hst] at hs
        have hs := Option.some.inj hs; subst hs
        have := ne _ _ _ hret
        simp only [Prod.mk.injEq, Ret.got.injEq] at this
        obtain ⟨h1, h2, h3⟩ := this
        subst h2; subst h3
        obtain ⟨hgot, hd0⟩ := rstep_done h.cells ht.2 (Nat.le_refl n) hst hd
        have hq : bytesOf n σ.cells 0 = runAll n (writesOf σ.cells.log 0) := by
          cases p with
          | load1 => rw [rstep] at hst; split at hst <;> simp at hst
          | copy sq ct g =>
            rw [rstep] at hst
            split at hst
            · simp at hst
            · split at hst
              · obtain ⟨_, e2⟩ := RRes.done.inj hst
                obtain ⟨_, hev, hle, _, _⟩ := ht.2
                exact (h.cells.quiet (by omega)).2
              · simp at hst
        have hgot' : got = bytesOf n σ.cells 0 := by
          rw [hgot, hq, List.take_of_length_le]
          rw [← hq, bytesOf_length]
          exact Nat.le_refl _
        refine ⟨hgot', ?_⟩
        unfold order
        rw [hcalls, ← runAll_ops _ hent, hgot', hq]

/-! ### Concrete runs -/

namespace Seqlock
def idle? : PC → Bool
  | .idle => true
  | _ => false

/-- execute a schedule: `some op` starts a call, `none` is one step -/
def runSched (n : Nat) (σ : State) : List (Nat × Option Op) → Option State
  | [] => some σ
  | (t, some op) :: rest => if idle? (σ.pc t) then runSched n (call n σ t op) rest else none
  | (t, none) :: rest =>
    match step n σ t with
    | some σ' => runSched n σ' rest
    | none => none

theorem steps_append {n : Nat} {a b c : State} (h : Steps n a b) (h' : Steps n b c) : Steps n a c := by
  induction h' with
  | refl => exact h
  | tail _ s ih => exact .tail ih s

theorem runSched_steps {n : Nat} : ∀ (sch : List (Nat × Option Op)) {σ σ' : State}, runSched n σ sch = some σ' →
    Steps n σ σ' := by
  intro sch
  induction sch with
  | nil => intro σ σ' h; rw [← Option.some.inj h]; exact .refl _
  | cons a sch ih =>
    intro σ σ' h
    obtain ⟨t, op⟩ := a
    cases op with
    | some op =>
      unfold runSched at h
      split at h
      · rename_i hpc
        have : σ.pc t = .idle := by
          cases hp : σ.pc t <;> rw [hp] at hpc <;> simp [idle?] at hpc
        exact steps_append (.tail (.refl _) (.call σ t op this)) (ih h)
      · simp at h
    | none =>
      unfold runSched at h
      cases hs : step n σ t with
      | none => rw [hs] at h; simp at h
      | some σ1 =>
        rw [hs] at h
        exact steps_append (.tail (.refl _) (.step σ σ1 t hs)) (ih h)

def steps (t n : Nat) : List (Nat × Option Op) := List.replicate n (t, none)

/-- Put of [1,2] by goroutine 0 overlapping a Get of goroutine 1 which has to retry, then an Update that fails and one that
increments the first byte, then another Get. -/
def demo : List (Nat × Option Op) :=
  [(1, some .get)] ++ steps 1 2 ++ [(0, some (.put [1, 2]))] ++ steps 0 3 ++ steps 1 2 ++ steps 0 4 ++ steps 1 4 ++
  [(0, some (.update fun _ => ([9, 9], .val (some (.other 1)))))] ++ steps 0 5 ++
  [(0, some (.update fun d => (d.set 0 (d.getD 0 0 + 1), .val none)))] ++ steps 0 7 ++ [(1, some .get)] ++ steps 1 4
end Seqlock
open Seqlock

example : ∃ σ, Steps 2 init σ ∧ σ.rets = [(1, .wrote none), (0, .got [1, 2] 0), (2, .wrote (some (.other 1))),
    (3, .wrote none), (4, .got [2, 2] 0)] ∧ WritersReturned σ := by
  have h : ∃ σ, runSched 2 init demo = some σ ∧ σ.rets = [(1, .wrote none), (0, .got [1, 2] 0),
      (2, .wrote (some (.other 1))), (3, .wrote none), (4, .got [2, 2] 0)] ∧ σ.invs.length = 5 := by
    refine ⟨_, rfl, by decide, by decide⟩
  obtain ⟨σ, h1, h2, h3⟩ := h
  have hr := runSched_steps _ h1
  refine ⟨σ, hr, h2, ?_⟩
  intro id op hop _
  have := inv_lt hop
  rw [h3] at this
  rw [h2]
  match id, this with
  | 0, _ => simp
  | 1, _ => simp
  | 2, _ => simp
  | 3, _ => simp
  | 4, _ => simp

end Starbow.Props
