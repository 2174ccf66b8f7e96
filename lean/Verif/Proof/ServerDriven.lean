import Verif.Proof.ServerLive
import Verif.Props.ServerConc
/-
Whatever concurrent calls can do to a store, concurrent requests can do to it.
-/
namespace Starbow.ServerConc
open Starbow Starbow.Collation Starbow.Server Starbow.Cell Starbow.Probe Starbow.BufmapConc Starbow.Spec

variable {env : Env} {confs : List Conf}

/-- a request that makes the server call store `s` like that and no other store -/
def Asks (env : Env) (confs : List Conf) (s : Nat) : StoreConc.Call → Request → Prop
  | .write r, req => ∃ line, task env confs req = .observe [line] none ∧ parseRow line = .val (.ok r) ∧
      ∀ s' c', s' ≠ s → confs[s']? = some c' → keyValue r.data c'.coll.keys = none
  | .read q, req => task env confs req = .query s q

/-- the answer, from what the map's call returned -/
def answerOf (env : Env) (c : Conf) : StoreConc.Call → BufmapConc.Ret → Reply
  | .write _, ret => if StoreConc.writeReply ret = some none then .ok [] else .refused 500
  | .read q, ret =>
    match StoreConc.readReply env.lib c.coll q ret with
    | some out => queryReply env q out
    | none => .panic

/-- where the goroutine that makes call `i` is -/
def callPc (s i : Nat) : StoreConc.Call → PC
  | .write r => .writing i 0 [] none r s i
  | .read q => .reading i q s i

/-- only goroutine `t` moved, and not in a store -/
structure Outside (t : Nat) (σ σ' : State) : Prop where
  stores : σ'.stores = σ.stores
  reqs : σ'.reqs = σ.reqs
  other : ∀ t', t' ≠ t → σ'.pc t' = σ.pc t'

theorem Outside.trans {t : Nat} {a b c : State} (h : Outside t a b) (h' : Outside t b c) : Outside t a c :=
  ⟨h'.stores.trans h.stores, h'.reqs.trans h.reqs, fun t' e => (h'.other t' e).trans (h.other t' e)⟩

theorem outside_goto (σ : State) (t : Nat) (p : PC) : Outside t σ (σ.goto t p) := ⟨rfl, rfl, fun _ e => upd_other _ _ e⟩
theorem outside_reply (σ : State) (t j : Nat) (r : Reply) : Outside t σ (σ.reply t j r) := ⟨rfl, rfl, fun _ e => upd_other _ _ e⟩

/-- stores whose key fields are missing are passed by -/
theorem pass {t j p : Nat} {ls : List Bytes} {e : Option Err} {r : Row} {a b : Nat} (hab : a ≤ b) (hb : b ≤ confs.length)
    (hno : ∀ s' c', a ≤ s' → s' < b → confs[s']? = some c' → keyValue r.data c'.coll.keys = none) {σ : State} (hpc : σ.pc t = .row j p ls e r a) :
    ∃ σ', Steps env confs σ σ' ∧ Outside t σ σ' ∧ σ'.replies = σ.replies ∧ σ'.pc t = .row j p ls e r b := by
  obtain ⟨d, rfl⟩ := Nat.exists_eq_add_of_le hab
  clear hab
  induction d generalizing a σ with
  | zero => exact ⟨σ, .refl _, ⟨rfl, rfl, fun _ _ => rfl⟩, rfl, hpc⟩
  | succ d ih =>
    have hlt : a < confs.length := by omega
    have hc : confs[a]? = some confs[a] := List.getElem?_eq_getElem hlt
    have s1 := Step.skip (env := env) (confs := confs) σ t j p ls e r a _ hpc hc (hno a _ (Nat.le_refl _) (by omega) hc)
    obtain ⟨σ', h1, h2, h3, h4⟩ := ih (a := a + 1) (hb := by omega) (hno := fun s' c' h1 h2 => hno s' c' (by omega) (by omega))
      (σ := σ.goto t (.row j p ls e r (a + 1))) (upd_same _ _ _)
    refine ⟨σ', (Steps.tail (.refl _) s1).trans h1, (outside_goto _ _ _).trans h2, h3, ?_⟩
    rw [h4, show a + 1 + d = a + (d + 1) by omega]

/-- the goroutines of the server when its store has gone through `τ` -/
structure Driven (env : Env) (confs : List Conf) (s : Nat) (c : Conf) (mk : StoreConc.Call → Request) (τ : StoreConc.State) (σ : State) : Prop where
  store : σ.stores s = τ
  reqs : σ.reqs = τ.calls.map mk
  idle : ∀ t, τ.m.pc t = .idle → σ.pc t = .idle
  busy : ∀ t i, (τ.m.pc t).id = some i → ∃ call, τ.calls[i]? = some call ∧ σ.pc t = callPc s i call
  replies : ∀ (j : Nat) (rep : Reply), (j, rep) ∈ σ.replies ↔ ∃ call ret, τ.calls[j]? = some call ∧ (j, ret) ∈ τ.m.rets ∧ rep = answerOf env c call ret

/-- what a call of the map returned is what that kind of call returns -/
theorem ret_kind {lib : Lib} {c : Collator} {l : Nat} (hl : 0 < l) {τ : StoreConc.State} (hr : StoreConc.Steps lib c l StoreConc.init τ) {i : Nat}
    {ret : Ret} (hret : (i, ret) ∈ τ.m.rets) :
    (∀ r, τ.calls[i]? = some (.write r) → ∃ err, StoreConc.writeReply ret = some err) ∧
    (∀ q, τ.calls[i]? = some (.read q) → ∃ out, StoreConc.readReply lib c q ret = some out) := by
  have hI := BufmapConc.inv_reach hl (StoreConc.steps_m hr)
  have hok := StoreConc.callsOk_steps (StoreConc.callsOk_init lib c) hr
  have hro := hI.rok i ret hret
  have hupd : ∀ err, ret = .ran err → ∃ k fn, τ.m.invs[i]? = some (.upd k fn) := by
    rintro err rfl
    obtain ⟨x, e, es, rest, he, hx, hw, _⟩ := hro
    have hmem : e ∈ writesOf τ.m.cells.log x := by rw [hw]; simp
    obtain ⟨_, _, hinv⟩ := hI.logok x e (Props.BufmapConc.mem_writesOf.mp hmem)
    exact ⟨_, _, by rw [← he]; exact hinv⟩
  constructor
  · intro r hcall
    cases ret with
    | ran err => exact ⟨_, rfl⟩
    | invalidKey => exact ⟨_, rfl⟩
    | outOfSlots => exact ⟨_, rfl⟩
    | got a b d =>
      exfalso
      obtain ⟨k, buf, hg⟩ := hro
      obtain ⟨q, h1, _⟩ := hok.ok _ _ hg
      rw [hcall] at h1
      simp at h1
  · intro q hcall
    have no : ∀ k fn, τ.m.invs[i]? ≠ some (.upd k fn) := by
      intro k fn hg
      obtain ⟨r, h1, _⟩ := hok.ok _ _ hg
      rw [hcall] at h1
      simp at h1
    cases ret with
    | ran err => obtain ⟨k, fn, h⟩ := hupd _ rfl; exact absurd h (no k fn)
    | invalidKey => obtain ⟨fn, h⟩ := hro; exact absurd h (no 0 fn)
    | outOfSlots => obtain ⟨k, fn, h, _⟩ := hro; exact absurd h (no k fn)
    | got a b d =>
      cases a with
      | true => exact ⟨_, rfl⟩
      | false => exact ⟨_, rfl⟩

/-- the call has returned: the request is answered -/
theorem finish_call {s : Nat} {c : Conf} (hs : confs[s]? = some c) {call : StoreConc.Call} {req : Request} (ha : Asks env confs s call req) {t i : Nat}
    {ret : Ret} (hk : (∀ r, call = .write r → ∃ err, StoreConc.writeReply ret = some err) ∧
      (∀ q, call = .read q → ∃ out, StoreConc.readReply env.lib c.coll q ret = some out)) {σ : State} (hpc : σ.pc t = callPc s i call)
    (hret : (i, ret) ∈ (σ.stores s).m.rets) :
    ∃ σ', Steps env confs σ σ' ∧ Outside t σ σ' ∧ σ'.pc t = .idle ∧ σ'.replies = σ.replies ++ [(i, answerOf env c call ret)] := by
  cases call with
  | write r =>
    obtain ⟨err, he⟩ := hk.1 r rfl
    obtain ⟨line, _, _, hno⟩ := ha
    have s1 := Step.wrote (env := env) (confs := confs) σ t i 0 [] none r s i ret err hpc hret he
    cases err with
    | some err =>
      rw [if_neg (by simp)] at s1
      refine ⟨_, .tail (.refl _) s1, outside_reply _ _ _ _, upd_same _ _ _, ?_⟩
      unfold answerOf
      simp only
      rw [he, if_neg (by simp)]
      rfl
    | none =>
      rw [if_pos rfl] at s1
      have hlt := (List.getElem?_eq_some_iff.1 hs).1
      obtain ⟨σ1, h1, h2, h3, h4⟩ := pass (env := env) (confs := confs) (a := s + 1) (b := confs.length) (by omega) (Nat.le_refl _)
        (fun s' c' h1 h2 hc' => hno s' c' (by omega) hc') (σ := σ.goto t (.row i 0 [] none r (s + 1))) (upd_same _ _ _)
      have s2 := Step.stored (env := env) (confs := confs) σ1 t i 0 [] none r h4
      have s3 := Step.finish (env := env) (confs := confs) (σ1.goto t (.lines i (0 + 1) [] none)) t i (0 + 1) none (upd_same _ _ _)
      rw [if_pos rfl] at s3
      refine ⟨_, .tail (.tail ((Steps.tail (.refl _) s1).trans h1) s2) s3,
        (((outside_goto _ _ _).trans h2).trans (outside_goto _ _ _)).trans (outside_reply _ _ _ _), upd_same _ _ _, ?_⟩
      unfold answerOf
      simp only
      rw [he, if_pos rfl]
      show σ1.replies ++ _ = _
      rw [h3]
      rfl
  | read q =>
    obtain ⟨out, ho⟩ := hk.2 q rfl
    have s1 := Step.answer (env := env) (confs := confs) σ t i q s i c ret out hpc hs hret ho
    refine ⟨_, .tail (.refl _) s1, outside_reply _ _ _ _, upd_same _ _ _, ?_⟩
    unfold answerOf
    simp only
    rw [ho]
    rfl

/-- a request comes in and its call is made -/
theorem start_call {s : Nat} {c : Conf} (hs : confs[s]? = some c) (hsize : 0 ≤ c.coll.size) {σ : State} {t : Nat} (hpc : σ.pc t = .idle)
    (hi : (σ.stores s).m.pc t = .idle) (hlen : σ.reqs.length = (σ.stores s).calls.length) {call : StoreConc.Call} {req : Request}
    (ha : Asks env confs s call req) {op : Op}
    (hop : (∃ r k fn, call = .write r ∧ keyValue r.data c.coll.keys = some k ∧ StoreConc.Performs env.lib c.coll r fn ∧ op = .upd k fn) ∨
      ∃ q k, call = .read q ∧ keyValue q.criteria c.coll.keys = some k ∧ op = .get k (List.replicate c.coll.size.toNat 0)) :
    ∃ σ', Steps env confs σ σ' ∧ σ'.stores s = ⟨BufmapConc.call (σ.stores s).m t op, (σ.stores s).calls ++ [call]⟩ ∧
      (∀ t', t' ≠ t → σ'.pc t' = σ.pc t') ∧ σ'.reqs = σ.reqs ++ [req] ∧ σ'.replies = σ.replies ∧
      σ'.pc t = callPc s (σ.stores s).calls.length call := by
  have s1 := Step.receive (env := env) (confs := confs) σ t req hpc
  unfold State.receive at s1
  simp only at s1
  have hlt := (List.getElem?_eq_some_iff.1 hs).1
  rcases hop with ⟨r, k, fn, rfl, hk, hf, rfl⟩ | ⟨q, k, rfl, hk, rfl⟩
  · obtain ⟨line, h1, h2, hno⟩ := ha
    rw [h1] at s1
    simp only at s1
    obtain ⟨σ1, e1⟩ : ∃ σ1, σ1 = ({ σ with reqs := σ.reqs ++ [req] } : State).goto t (.lines σ.reqs.length 0 [line] none) := ⟨_, rfl⟩
    rw [← e1] at s1
    have s2 := Step.parse (env := env) (confs := confs) σ1 t σ.reqs.length 0 line [] none (by rw [e1]; exact upd_same _ _ _)
    unfold State.parse at s2
    rw [h2] at s2
    simp only at s2
    obtain ⟨σ2, g1, g2, g3, g4⟩ := pass (env := env) (confs := confs) (a := 0) (b := s) (by omega) (by omega)
      (fun s' c' h1 h2 hc' => hno s' c' (by omega) hc') (σ := σ1.goto t (.row σ.reqs.length 0 [] none r 0)) (upd_same _ _ _)
    have o2 : Outside t σ1 σ2 := (outside_goto _ _ _).trans g2
    have hst : σ2.stores = σ.stores := by rw [o2.stores, e1]; rfl
    have s3 := Step.write (env := env) (confs := confs) σ2 t σ.reqs.length 0 [] none r s c k fn g4 hs (by rw [hst]; exact hi) hk hf
    refine ⟨_, .tail ((Steps.tail (.tail (.refl _) s1) s2).trans g1) s3, ?_, ?_, ?_, ?_, ?_⟩
    · unfold State.enter; simp only [upd_same]; rw [hst]
    · intro t' e
      unfold State.enter
      simp only
      rw [upd_other _ _ e, o2.other t' e, e1]
      exact upd_other _ _ e
    · show σ2.reqs = _
      rw [o2.reqs, e1]; rfl
    · show σ2.replies = _
      rw [g3]
      show σ1.replies = _
      rw [e1]; rfl
    · unfold State.enter; simp only [upd_same]; rw [hst, hlen]; rfl
  · have h1 : task env confs req = .query s q := ha
    rw [h1] at s1
    simp only at s1
    obtain ⟨σ1, e1⟩ : ∃ σ1, σ1 = ({ σ with reqs := σ.reqs ++ [req] } : State).goto t (.ask σ.reqs.length q s) := ⟨_, rfl⟩
    rw [← e1] at s1
    have hst : σ1.stores = σ.stores := by rw [e1]; rfl
    have s2 := Step.read (env := env) (confs := confs) σ1 t σ.reqs.length q s c k (by rw [e1]; exact upd_same _ _ _) hs (by rw [hst]; exact hi) hk hsize
    refine ⟨_, .tail (.tail (.refl _) s1) s2, ?_, ?_, ?_, ?_, ?_⟩
    · unfold State.enter; simp only [upd_same]; rw [hst]
    · intro t' e
      unfold State.enter
      simp only
      rw [upd_other _ _ e, e1]
      exact upd_other _ _ e
    · show σ1.reqs = _
      rw [e1]; rfl
    · show σ1.replies = _
      rw [e1]; rfl
    · unfold State.enter; simp only [upd_same]; rw [hst, hlen]; rfl

/-- what starting a call of the map does: the goroutine is in it, or it has returned already -/
theorem call_cases (m : BufmapConc.State) (t : Nat) (op : Op) :
    (∃ p', (BufmapConc.call m t op).pc = upd m.pc t p' ∧ p'.id = some m.invs.length ∧ (BufmapConc.call m t op).rets = m.rets) ∨
    ((BufmapConc.call m t op).pc = m.pc ∧ (BufmapConc.call m t op).rets = m.rets ++ [(m.invs.length, .invalidKey)]) := by
  unfold BufmapConc.call
  cases op with
  | upd k fn =>
    by_cases e : k = 0
    · right; simp only [if_pos e]; exact ⟨trivial, trivial⟩
    · left; simp only [if_neg e]; exact ⟨_, rfl, rfl, trivial⟩
  | get k buf => left; exact ⟨_, rfl, rfl, rfl⟩

theorem driven_init (s : Nat) (c : Conf) (mk : StoreConc.Call → Request) : Driven env confs s c mk StoreConc.init init where
  store := rfl
  reqs := rfl
  idle := fun _ _ => rfl
  busy := by intro t i h; simp [StoreConc.init, BufmapConc.init, BufmapConc.PC.id] at h
  replies := by
    intro j rep
    constructor
    · intro h; simp [init] at h
    · rintro ⟨call, ret, h, _⟩; simp [StoreConc.init] at h

/-- one step of the store -/
theorem driven_step {s : Nat} {c : Conf} (hs : confs[s]? = some c) (hsize : 0 ≤ c.coll.size) (hpos : 0 < c.slots) {mk : StoreConc.Call → Request}
    {τ τ' : StoreConc.State} (hr : StoreConc.Steps env.lib c.coll c.slots StoreConc.init τ) (h : StoreConc.Step env.lib c.coll c.slots τ τ')
    (ha : ∀ call ∈ τ'.calls, Asks env confs s call (mk call)) {σ : State} (hd : Driven env confs s c mk τ σ) :
    ∃ σ', Steps env confs σ σ' ∧ Driven env confs s c mk τ' σ' := by
  have hI := BufmapConc.inv_reach hpos (StoreConc.steps_m hr)
  have hlen := (StoreConc.callsOk_steps (StoreConc.callsOk_init env.lib c.coll) hr).len
  have hrl : ∀ j ret, (j, ret) ∈ τ.m.rets → j < τ.calls.length := by
    intro j ret hj
    rw [hlen]
    exact hI.ids.dlt j (List.mem_map.2 ⟨_, hj, rfl⟩)
  -- a call
  have key : ∀ (t : Nat) (call : StoreConc.Call) (op : Op), τ.m.pc t = .idle → τ' = ⟨BufmapConc.call τ.m t op, τ.calls ++ [call]⟩ →
      ((∃ r k fn, call = .write r ∧ keyValue r.data c.coll.keys = some k ∧ StoreConc.Performs env.lib c.coll r fn ∧ op = .upd k fn) ∨
        ∃ q k, call = .read q ∧ keyValue q.criteria c.coll.keys = some k ∧ op = .get k (List.replicate c.coll.size.toNat 0)) →
      ∃ σ', Steps env confs σ σ' ∧ Driven env confs s c mk τ' σ' := by
    rintro t call op hi rfl hop
    have hac := ha call (by simp)
    obtain ⟨σ1, h1, h2, h3, h4, h5, h6⟩ := start_call hs hsize (hd.idle t hi) (by rw [hd.store]; exact hi)
      (by rw [hd.reqs, hd.store, List.length_map]) hac hop
    rw [hd.store] at h2 h6
    have old : ∀ {j : Nat} {cl : StoreConc.Call}, τ.calls[j]? = some cl → (τ.calls ++ [call])[j]? = some cl := by
      intro j cl hj
      rw [List.getElem?_append_left (List.getElem?_eq_some_iff.1 hj).1]; exact hj
    have hreq : σ1.reqs = (τ.calls ++ [call]).map mk := by rw [h4, hd.reqs]; simp
    rcases call_cases τ.m t op with ⟨p', c1, c2, c3⟩ | ⟨c1, c2⟩
    · refine ⟨σ1, h1, h2, hreq, ?_, ?_, ?_⟩
      · intro t' ht'
        simp only at ht'
        rw [c1] at ht'
        by_cases e : t' = t
        · subst e; rw [upd_same] at ht'; rw [ht'] at c2; simp [BufmapConc.PC.id] at c2
        · rw [upd_other _ _ e] at ht'; rw [h3 t' e]; exact hd.idle t' ht'
      · intro t' i ht'
        simp only at ht' ⊢
        rw [c1] at ht'
        by_cases e : t' = t
        · subst e
          rw [upd_same, c2, ← hlen] at ht'
          obtain rfl := Option.some.inj ht'
          exact ⟨call, by simp, h6⟩
        · rw [upd_other _ _ e] at ht'
          obtain ⟨cl, g1, g2⟩ := hd.busy t' i ht'
          exact ⟨cl, old g1, by rw [h3 t' e]; exact g2⟩
      · intro j rep
        simp only
        rw [h5, c3, hd.replies]
        constructor
        · rintro ⟨cl, ret, g1, g2, g3⟩; exact ⟨cl, ret, old g1, g2, g3⟩
        · rintro ⟨cl, ret, g1, g2, g3⟩
          rw [List.getElem?_append_left (hrl j ret g2)] at g1
          exact ⟨cl, ret, g1, g2, g3⟩
    · have hret : (τ.calls.length, BufmapConc.Ret.invalidKey) ∈ (σ1.stores s).m.rets := by
        rw [h2]; simp only; rw [c2, hlen]; simp
      have hr' := StoreConc.Steps.tail hr h
      have hk := ret_kind hpos hr' (i := τ.calls.length) (ret := .invalidKey) (by simp only; rw [c2, hlen]; simp)
      have hcc : (τ.calls ++ [call])[τ.calls.length]? = some call := by simp
      obtain ⟨σ2, k1, k2, k3, k4⟩ := finish_call hs hac (t := t) (i := τ.calls.length) (ret := .invalidKey)
        ⟨fun r e => hk.1 r (by rw [hcc, e]), fun q e => hk.2 q (by rw [hcc, e])⟩ h6 hret
      refine ⟨σ2, h1.trans k1, by rw [k2.stores]; exact h2, by rw [k2.reqs]; exact hreq, ?_, ?_, ?_⟩
      · intro t' ht'
        simp only at ht'
        rw [c1] at ht'
        by_cases e : t' = t
        · subst e; exact k3
        · rw [k2.other t' e, h3 t' e]; exact hd.idle t' ht'
      · intro t' i ht'
        simp only at ht' ⊢
        rw [c1] at ht'
        by_cases e : t' = t
        · subst e; rw [hi] at ht'; simp [BufmapConc.PC.id] at ht'
        · obtain ⟨cl, g1, g2⟩ := hd.busy t' i ht'
          exact ⟨cl, old g1, by rw [k2.other t' e, h3 t' e]; exact g2⟩
      · intro j rep
        simp only
        rw [k4, h5, c2, List.mem_append, hd.replies, List.mem_singleton]
        constructor
        · rintro (⟨cl, ret, g1, g2, g3⟩ | e)
          · exact ⟨cl, ret, old g1, by simp [g2], g3⟩
          · obtain ⟨rfl, rfl⟩ := Prod.mk.inj e
            exact ⟨call, .invalidKey, hcc, by rw [hlen]; simp, rfl⟩
        · rintro ⟨cl, ret, g1, g2, g3⟩
          rw [List.mem_append, List.mem_singleton] at g2
          rcases g2 with g2 | g2
          · rw [List.getElem?_append_left (hrl j ret g2)] at g1
            exact .inl ⟨cl, ret, g1, g2, g3⟩
          · obtain ⟨rfl, rfl⟩ := Prod.mk.inj g2
            rw [← hlen, hcc] at g1
            obtain rfl := Option.some.inj g1
            right
            rw [g3, hlen]
  cases h with
  | write t r k fn hi hk hf => exact key t _ _ hi rfl (.inl ⟨r, k, fn, rfl, hk, hf, rfl⟩)
  | read t q k hi hk => exact key t _ _ hi rfl (.inr ⟨q, k, rfl, hk, rfl⟩)
  | step t m' hm =>
    have h0 := StoreConc.Steps.tail hr (.step τ t m' hm)
    obtain ⟨p', hp, hcase⟩ := step_ids hm
    have s1 := Step.inside (env := env) (confs := confs) σ t s c m' hs (by rw [hd.store]; exact hm)
    rw [hd.store] at s1
    have hst : (upd σ.stores s ⟨m', τ.calls⟩) s = ⟨m', τ.calls⟩ := upd_same _ _ _
    rcases hcase with ⟨g1, g2, _⟩ | ⟨id, ret, g1, g2, g3⟩ | ⟨g1, g2, id, k, buf, x, p, g3, _⟩
    · refine ⟨_, .tail (.refl _) s1, hst, hd.reqs, ?_, ?_, ?_⟩
      · intro t' ht'
        simp only at ht' ⊢
        rw [hp] at ht'
        by_cases e : t' = t
        · subst e
          rw [upd_same] at ht'
          rw [ht'] at g1
          exfalso
          cases hpc : τ.m.pc t' <;> rw [hpc] at g1 <;> simp [BufmapConc.PC.id] at g1
          · unfold BufmapConc.step at hm; rw [hpc] at hm; simp at hm
          · unfold BufmapConc.step at hm; rw [hpc] at hm; simp at hm
        · rw [upd_other _ _ e] at ht'; exact hd.idle t' ht'
      · intro t' i ht'
        simp only at ht' ⊢
        rw [hp] at ht'
        by_cases e : t' = t
        · subst e
          rw [upd_same, g1] at ht'
          exact hd.busy t' i ht'
        · rw [upd_other _ _ e] at ht'; exact hd.busy t' i ht'
      · intro j rep
        simp only
        rw [g2]
        exact hd.replies j rep
    · obtain ⟨cl, b1, b2⟩ := hd.busy t id g1
      have hk := ret_kind hpos h0 (i := id) (ret := ret) (by simp only; rw [g2]; simp)
      obtain ⟨σ2, k1, k2, k3, k4⟩ := finish_call hs (ha cl (List.mem_of_getElem? b1)) (t := t) (i := id) (ret := ret)
        ⟨fun r e => hk.1 r (by rw [b1, e]), fun q e => hk.2 q (by rw [b1, e])⟩
        (σ := { σ with stores := upd σ.stores s ⟨m', τ.calls⟩ }) b2 (by simp only; rw [hst]; simp only; rw [g2]; simp)
      refine ⟨σ2, (Steps.tail (.refl _) s1).trans k1, by rw [k2.stores]; exact hst, by rw [k2.reqs]; exact hd.reqs, ?_, ?_, ?_⟩
      · intro t' ht'
        simp only at ht'
        rw [hp] at ht'
        by_cases e : t' = t
        · subst e; exact k3
        · rw [upd_other _ _ e] at ht'; rw [k2.other t' e]; exact hd.idle t' ht'
      · intro t' i ht'
        simp only at ht' ⊢
        rw [hp] at ht'
        by_cases e : t' = t
        · subst e; rw [upd_same, g3] at ht'; simp [BufmapConc.PC.id] at ht'
        · rw [upd_other _ _ e] at ht'; rw [k2.other t' e]; exact hd.busy t' i ht'
      · intro j rep
        simp only
        rw [k4, g2]
        simp only
        rw [List.mem_append, hd.replies, List.mem_singleton]
        constructor
        · rintro (⟨cl, ret, g1, g2, g3⟩ | e)
          · exact ⟨cl, ret, g1, by simp [g2], g3⟩
          · obtain ⟨rfl, rfl⟩ := Prod.mk.inj e
            exact ⟨cl, ret, b1, by simp, rfl⟩
        · rintro ⟨cl', ret', f1, f2, f3⟩
          rw [List.mem_append, List.mem_singleton] at f2
          rcases f2 with f2 | f2
          · exact .inl ⟨cl', ret', f1, f2, f3⟩
          · obtain ⟨rfl, rfl⟩ := Prod.mk.inj f2
            rw [b1] at f1
            obtain rfl := Option.some.inj f1
            right
            rw [f3]
    · refine ⟨_, .tail (.refl _) s1, hst, hd.reqs, ?_, ?_, ?_⟩
      · intro t' ht'
        simp only at ht' ⊢
        rw [hp] at ht'
        by_cases e : t' = t
        · subst e; rw [upd_same, g1] at ht'; simp at ht'
        · rw [upd_other _ _ e] at ht'; exact hd.idle t' ht'
      · intro t' i ht'
        simp only at ht' ⊢
        rw [hp] at ht'
        by_cases e : t' = t
        · subst e; rw [upd_same, g1] at ht'; simp [BufmapConc.PC.id] at ht'
        · rw [upd_other _ _ e] at ht'; exact hd.busy t' i ht'
      · intro j rep
        simp only
        rw [g2]
        exact hd.replies j rep

/-- the goroutines of the server follow the store -/
theorem driven_steps {s : Nat} {c : Conf} (hs : confs[s]? = some c) (hsize : 0 ≤ c.coll.size) (hpos : 0 < c.slots) {mk : StoreConc.Call → Request}
    {τ τ' : StoreConc.State} (hr : StoreConc.Steps env.lib c.coll c.slots StoreConc.init τ) (h : StoreConc.Steps env.lib c.coll c.slots τ τ')
    (ha : ∀ call ∈ τ'.calls, Asks env confs s call (mk call)) {σ : State} (hd : Driven env confs s c mk τ σ) :
    ∃ σ', Steps env confs σ σ' ∧ Driven env confs s c mk τ' σ' := by
  induction h with
  | refl => exact ⟨σ, .refl _, hd⟩
  | @tail τ1 τ2 h0 h1 ih =>
    have hsub : ∀ call ∈ τ1.calls, call ∈ τ2.calls := by
      intro call hc
      cases h1 <;> simp [hc]
    obtain ⟨σ1, g1, g2⟩ := ih (fun call hc => ha call (hsub call hc))
    obtain ⟨σ2, g3, g4⟩ := driven_step hs hsize hpos (hr.trans h0) h1 ha g2
    exact ⟨σ2, g1.trans g3, g4⟩

end Starbow.ServerConc
