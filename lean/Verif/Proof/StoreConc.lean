import Verif.Spec.StoreConc
import Verif.Props.BufmapConc
import Verif.Proof.StoreRun
/- The concurrent store: every run of it is a run of the concurrent bufmap whose calls are known. -/
namespace Starbow.StoreConc
open Starbow Starbow.Collation Starbow.BufmapConc Starbow.Cell Starbow.Spec Starbow.Probe

/-- what the calls of the map are -/
def CallOk (lib : Lib) (c : Collator) (calls : List Call) (i : Nat) : Op → Prop
  | .upd k fn => ∃ r, calls[i]? = some (.write r) ∧ keyValue r.data c.keys = some k ∧ Performs lib c r fn
  | .get k buf => ∃ q, calls[i]? = some (.read q) ∧ keyValue q.criteria c.keys = some k ∧ buf = List.replicate c.size.toNat 0

structure CallsOk (lib : Lib) (c : Collator) (σ : State) : Prop where
  len : σ.calls.length = σ.m.invs.length
  ok : ∀ i op, σ.m.invs[i]? = some op → CallOk lib c σ.calls i op

theorem CallOk.mono {lib : Lib} {c : Collator} {calls more : List Call} {i : Nat} {op : Op} (h : CallOk lib c calls i op) :
    CallOk lib c (calls ++ more) i op := by
  have key : ∀ {x : Call}, calls[i]? = some x → (calls ++ more)[i]? = some x := by
    intro x hx
    obtain ⟨hlt, _⟩ := List.getElem?_eq_some_iff.1 hx
    rw [List.getElem?_append_left hlt]; exact hx
  cases op with
  | upd k fn => obtain ⟨r, h1, h2⟩ := h; exact ⟨r, key h1, h2⟩
  | get k buf => obtain ⟨r, h1, h2⟩ := h; exact ⟨r, key h1, h2⟩

theorem call_invs (σ : BufmapConc.State) (t : Nat) (op : Op) : (BufmapConc.call σ t op).invs = σ.invs ++ [op] := by
  unfold BufmapConc.call
  cases op with
  | upd k fn => simp only; split <;> rfl
  | get k buf => rfl

theorem step_invs {l s : Nat} {σ σ' : BufmapConc.State} {t : Nat} (h : BufmapConc.step l s σ t = some σ') : σ'.invs = σ.invs := by
  unfold BufmapConc.step at h
  split at h
  · simp at h
  · simp at h
  · split at h <;> (have h := Option.some.inj h; subst h; rfl)
  · split at h
    · simp at h
    · have h := Option.some.inj h; subst h; rfl
    · have h := Option.some.inj h; subst h; rfl
  · split at h <;> (have h := Option.some.inj h; subst h; rfl)
  · split at h
    · have h := Option.some.inj h; subst h; rfl
    · split at h <;> (have h := Option.some.inj h; subst h; rfl)

theorem step_m {lib : Lib} {c : Collator} {l : Nat} {σ σ' : State} (h : Step lib c l σ σ') :
    BufmapConc.Step l c.size.toNat σ.m σ'.m := by
  cases h with
  | write t r k fn hi hk hf => exact BufmapConc.Step.call σ.m t (.upd k fn) hi
  | read t q k hi hk => exact BufmapConc.Step.call σ.m t (.get k _) hi
  | step t m' h => exact .step _ _ t h

theorem steps_m {lib : Lib} {c : Collator} {l : Nat} {σ σ' : State} (h : Steps lib c l σ σ') :
    BufmapConc.Steps l c.size.toNat σ.m σ'.m := by
  induction h with
  | refl => exact .refl _
  | tail _ h1 ih => exact .tail ih (step_m h1)

theorem Steps.trans {lib : Lib} {c : Collator} {l : Nat} {a b d : State} (h : Steps lib c l a b) (h' : Steps lib c l b d) :
    Steps lib c l a d := by
  induction h' with
  | refl => exact h
  | tail _ h1 ih => exact .tail ih h1

theorem callsOk_step {lib : Lib} {c : Collator} {l : Nat} {σ σ' : State} (h : CallsOk lib c σ) (hs : Step lib c l σ σ') :
    CallsOk lib c σ' := by
  have snoc : ∀ {x : Call} {op : Op}, CallOk lib c (σ.calls ++ [x]) σ.calls.length op → ∀ {m' : BufmapConc.State},
      m'.invs = σ.m.invs ++ [op] → CallsOk lib c ⟨m', σ.calls ++ [x]⟩ := by
    intro x op hx m' hm
    refine ⟨by simp [hm, h.len], ?_⟩
    intro i op' hi
    simp only at hi ⊢
    rw [hm] at hi
    by_cases hlt : i < σ.m.invs.length
    · rw [List.getElem?_append_left hlt] at hi
      exact (h.ok i op' hi).mono
    · rw [List.getElem?_append_right (by omega)] at hi
      have hz : i - σ.m.invs.length = 0 := by
        obtain ⟨h1, _⟩ := List.getElem?_eq_some_iff.1 hi
        simp at h1; omega
      rw [hz] at hi
      have hi := Option.some.inj hi
      subst hi
      rw [show i = σ.calls.length by have := h.len; omega]
      exact hx
  cases hs with
  | write t r k fn hi hk hf => exact snoc (x := .write r) (op := .upd k fn) ⟨r, by simp, hk, hf⟩ (call_invs _ _ _)
  | read t q k hi hk => exact snoc (x := .read q) (op := .get k _) ⟨q, by simp, hk, rfl⟩ (call_invs _ _ _)
  | step t m' h' => exact ⟨by simp only; rw [step_invs h']; exact h.len, by
      intro i op hi
      simp only at hi
      rw [step_invs h'] at hi
      exact h.ok i op hi⟩

theorem callsOk_init (lib : Lib) (c : Collator) : CallsOk lib c init := ⟨rfl, by intro i op h; simp [init, BufmapConc.init] at h⟩

theorem callsOk_steps {lib : Lib} {c : Collator} {l : Nat} {σ σ' : State} (h : CallsOk lib c σ) (hs : Steps lib c l σ σ') :
    CallsOk lib c σ' := by
  induction hs with
  | refl => exact h
  | tail _ h1 ih => exact callsOk_step ih h1

theorem calls_grow {lib : Lib} {c : Collator} {l : Nat} {σ σ' : State} (hs : Steps lib c l σ σ') :
    ∃ more, σ'.calls = σ.calls ++ more := by
  induction hs with
  | refl => exact ⟨[], by simp⟩
  | tail _ h1 ih =>
    obtain ⟨more, hm⟩ := ih
    cases h1 with
    | write t r k fn hi hk hf => exact ⟨more ++ [.write r], by simp [hm]⟩
    | read t q k hi hk => exact ⟨more ++ [.read q], by simp [hm]⟩
    | step t m' h => exact ⟨more, hm⟩

/-- a Write is an Update -/
theorem CallsOk.write {lib : Lib} {c : Collator} {σ : State} (h : CallsOk lib c σ) {i : Nat} {r : Row} (hi : σ.calls[i]? = some (.write r))
    {k : U64} (hk : keyValue r.data c.keys = some k) : ∃ fn, σ.m.invs[i]? = some (.upd k fn) ∧ Performs lib c r fn := by
  obtain ⟨hlt, _⟩ := List.getElem?_eq_some_iff.1 hi
  have hx := List.getElem?_eq_getElem (show i < σ.m.invs.length by rw [← h.len]; exact hlt)
  have hok := h.ok i _ hx
  generalize σ.m.invs[i]'(by rw [← h.len]; exact hlt) = op at *
  cases op with
  | upd k' fn =>
    obtain ⟨r', h1, h2, h3⟩ := hok
    rw [hi] at h1
    have h1 := Option.some.inj h1
    injection h1 with h1
    subst h1
    rw [hk] at h2
    have h2 := Option.some.inj h2
    subst h2
    exact ⟨fn, hx, h3⟩
  | get k' b =>
    obtain ⟨q, h1, _⟩ := hok
    rw [hi] at h1
    simp at h1

/-- a Read is a Get -/
theorem CallsOk.read {lib : Lib} {c : Collator} {σ : State} (h : CallsOk lib c σ) {i : Nat} {q : Query} (hi : σ.calls[i]? = some (.read q))
    {k : U64} (hk : keyValue q.criteria c.keys = some k) : σ.m.invs[i]? = some (.get k (List.replicate c.size.toNat 0)) := by
  obtain ⟨hlt, _⟩ := List.getElem?_eq_some_iff.1 hi
  have hx := List.getElem?_eq_getElem (show i < σ.m.invs.length by rw [← h.len]; exact hlt)
  have hok := h.ok i _ hx
  generalize σ.m.invs[i]'(by rw [← h.len]; exact hlt) = op at *
  cases op with
  | upd k' fn =>
    obtain ⟨q, h1, _⟩ := hok
    rw [hi] at h1
    simp at h1
  | get k' b =>
    obtain ⟨q', h1, h2, h3⟩ := hok
    rw [hi] at h1
    have h1 := Option.some.inj h1
    injection h1 with h1
    subst h1
    rw [hk] at h2
    have h2 := Option.some.inj h2
    subst h2
    rw [h3] at hx
    exact hx

theorem mem_started {keys : List Bytes} {k : U64} {σ : State} {i : Nat} :
    i ∈ startedWrites keys k σ ↔ ∃ r, WriteOf keys k σ i r := by
  unfold startedWrites WriteOf
  rw [List.mem_filter, List.mem_range]
  constructor
  · rintro ⟨h1, h2⟩
    split at h2
    · next r hr => exact ⟨r, hr, by simpa using h2⟩
    · simp at h2
  · rintro ⟨r, h1, h2⟩
    refine ⟨(List.getElem?_eq_some_iff.1 h1).1, ?_⟩
    rw [h1]
    simpa using h2

theorem ran_iff {σ : State} {i : Nat} : ran σ i = true ↔ ∃ e, (i, Ret.ran e) ∈ σ.m.rets := by
  unfold ran
  rw [List.any_eq_true]
  constructor
  · rintro ⟨⟨j, r⟩, h1, h2⟩
    simp only [Bool.and_eq_true, beq_iff_eq] at h2
    obtain ⟨h2, h3⟩ := h2
    subst h2
    cases r <;> simp at h3
    exact ⟨_, h1⟩
  · rintro ⟨e, h⟩
    exact ⟨_, h, by simp⟩

theorem mem_done {keys : List Bytes} {k : U64} {σ : State} {i : Nat} :
    i ∈ doneWrites keys k σ ↔ ∃ r e, WriteOf keys k σ i r ∧ (i, Ret.ran e) ∈ σ.m.rets := by
  unfold doneWrites
  rw [List.mem_filter, mem_started, ran_iff]
  constructor
  · rintro ⟨⟨r, h1⟩, e, h2⟩; exact ⟨r, e, h1, h2⟩
  · rintro ⟨r, e, h1, h2⟩; exact ⟨⟨r, h1⟩, e, h2⟩

theorem started_nodup (keys : List Bytes) (k : U64) (σ : State) : (startedWrites keys k σ).Nodup :=
  List.nodup_range.sublist List.filter_sublist
theorem done_nodup (keys : List Bytes) (k : U64) (σ : State) : (doneWrites keys k σ).Nodup :=
  (started_nodup keys k σ).sublist List.filter_sublist

theorem WriteOf.later {lib : Lib} {c : Collator} {l : Nat} {σ σ' : State} (hs : Steps lib c l σ σ') {keys : List Bytes} {k : U64} {i : Nat}
    {r : Row} (h : WriteOf keys k σ i r) : WriteOf keys k σ' i r := by
  obtain ⟨more, hm⟩ := calls_grow hs
  refine ⟨?_, h.2⟩
  rw [hm, List.getElem?_append_left (List.getElem?_eq_some_iff.1 h.1).1]
  exact h.1

/-- the row of a write -/
def rowAt (σ : State) (i : Nat) : Row :=
  match σ.calls[i]? with
  | some (.write r) => r
  | _ => ⟨0, []⟩

theorem rowAt_eq {σ : State} {i : Nat} {r : Row} (h : σ.calls[i]? = some (.write r)) : rowAt σ i = r := by
  unfold rowAt; rw [h]

/-- a completed write in the log -/
def servedOf (σ : State) (e : Entry) : Served := ⟨e.id, rowAt σ e.id, e.init⟩

theorem foldl_set_length (ws : List (Nat × Byte)) : ∀ d : Bytes, (ws.foldl (fun b w => b.set w.1 w.2) d).length = d.length := by
  induction ws with
  | nil => intro d; rfl
  | cons w ws ih => intro d; rw [List.foldl_cons, ih, List.length_set]

theorem runAll_length (s : Nat) (es : List Entry) : (runAll s es).length = s := by
  induction es using List.reverseRecOn with
  | nil => simp [runAll]
  | append_singleton es e ih => rw [runAll_snoc]; unfold runAlone; rw [foldl_set_length, ih]

theorem servedRecord_snoc (lib : Lib) (c : Collator) (ws : List Served) (w : Served) :
    servedRecord lib c (ws ++ [w]) = (Collation.update lib c w.row (servedRecord lib c ws) w.new).1 := by
  unfold servedRecord; rw [List.foldl_append]; rfl

/-- entries that perform their rows leave the served record -/
theorem runAll_served {lib : Lib} {c : Collator} {σ : State} (es : List Entry)
    (h : ∀ e ∈ es, Performs lib c (rowAt σ e.id) e.fn) :
    runAll c.size.toNat es = servedRecord lib c (es.map (servedOf σ)) := by
  induction es using List.reverseRecOn with
  | nil => rfl
  | append_singleton es e ih =>
    rw [runAll_snoc, List.map_append, List.map_singleton, servedRecord_snoc, ← ih (fun e' he' => h e' (by simp [he']))]
    exact ((h e (by simp)) _ e.init (runAll_length _ _)).2.1

/-- the log of a slot -/
theorem log_served {lib : Lib} {c : Collator} {l : Nat} (hl : 0 < l) {σ : State} (hr : Steps lib c l init σ) {x : Nat} {k : U64}
    (hkx : σ.m.keys x = k) : ∀ e ∈ writesOf σ.m.cells.log x,
      WriteOf c.keys k σ e.id (rowAt σ e.id) ∧ Performs lib c (rowAt σ e.id) e.fn := by
  intro e he
  have h := inv_reach hl (steps_m hr)
  have hc := callsOk_steps (callsOk_init lib c) hr
  obtain ⟨_, _, hinv⟩ := h.logok x e (Props.BufmapConc.mem_writesOf.mp he)
  obtain ⟨r, h1, h2, h3⟩ := hc.ok e.id _ hinv
  rw [hkx] at h2
  rw [rowAt_eq h1]
  exact ⟨⟨h1, h2⟩, h3⟩

theorem serial_order {lib : Lib} {c : Collator} {l : Nat} (hl : 0 < l) {σ : State} (hr : Steps lib c l init σ) {x : Nat} (hx : x < l) {k : U64}
    (h0 : k ≠ 0) (hkx : σ.m.keys x = k) : SerialOrder lib c l k σ ((writesOf σ.m.cells.log x).map (servedOf σ)) := by
  have hlog := log_served hl hr hkx
  have h := inv_reach hl (steps_m hr)
  have hmap : ∀ es : List Entry, (es.map (servedOf σ)).map Served.id = es.map (·.id) := by
    intro es; rw [List.map_map]; rfl
  refine ⟨?_, ?_, ?_⟩
  · rw [hmap]; exact Props.BufmapConc.writesOf_nodup h.lg.nodup x
  · intro w hw
    obtain ⟨e, he, rfl⟩ := List.mem_map.1 hw
    exact (hlog e he).1
  · intro τ h1 h2
    have hc := callsOk_steps (callsOk_init lib c) h1
    obtain ⟨es1, es2, hes, a1, a2, _⟩ := Props.C34_real_time l c.size.toNat hl τ.m σ.m (steps_m h1) (steps_m h2) k h0 x hx hkx
    refine ⟨es1.map (servedOf σ), es2.map (servedOf σ), by rw [hes, List.map_append], ?_, ?_⟩
    · intro i hi
      obtain ⟨r, e, hw, hret⟩ := mem_done.1 hi
      obtain ⟨fn, hfn, _⟩ := hc.write hw.1 hw.2
      rw [hmap]
      exact a1 i e ⟨⟨fn, hfn⟩, hret⟩
    · intro w hw
      obtain ⟨e, he, rfl⟩ := List.mem_map.1 hw
      have hlt : e.id < τ.calls.length := by rw [hc.len]; exact a2 e he
      have hwe := (hlog e (by rw [hes]; simp [he])).1
      obtain ⟨more, hm⟩ := calls_grow h2
      refine mem_started.2 ⟨rowAt σ e.id, ?_, hwe.2⟩
      have := hwe.1
      rw [hm, List.getElem?_append_left hlt] at this
      exact this

end Starbow.StoreConc
