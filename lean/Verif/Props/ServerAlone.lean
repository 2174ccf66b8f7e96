import Verif.Props.ServerConc
/-
Property C68: the sequential server (Verif/Model/Server.lean) is the concurrent one with one request at a time.
-/
namespace Starbow.Props
open Starbow.Collation Starbow.Spec Starbow.Storage Starbow.Server Starbow.ServerConc Starbow.BufmapConc Starbow.Cell Starbow.Probe

/-- the stores of the concurrent server have the same contents as the sequential stores `sts` -/
structure Agrees (confs : List Conf) (σ : ServerConc.State) (sts : List Store) : Prop where
  len : sts.length = confs.length
  store : ∀ s st c, sts[s]? = some st → confs[s]? = some c → st.coll = c.coll ∧ Same c.slots c.coll.size.toNat (σ.stores s).m st.backend

section
variable {env : Env} {confs : List Conf}

/-- goroutine `t` went on to `p`, nobody else moved -/
structure Only (t : Nat) (p : ServerConc.PC) (σ σ' : ServerConc.State) : Prop where
  pc : σ'.pc = upd σ.pc t p
  reqs : σ'.reqs = σ.reqs
  spc : ∀ s, (σ'.stores s).m.pc = (σ.stores s).m.pc
  rets : ∀ (s i : Nat) (f : Bool) (buf : Bytes) (d : Nat), (i, Ret.got f buf d) ∈ (σ'.stores s).m.rets → (i, Ret.got f buf d) ∈ (σ.stores s).m.rets ∨ d = 0

theorem Only.trans {t : Nat} {p q : ServerConc.PC} {a b c : ServerConc.State} (h : Only t p a b) (h' : Only t q b c) : Only t q a c :=
  ⟨by rw [h'.pc, h.pc, upd_upd], by rw [h'.reqs, h.reqs], fun s => by rw [h'.spc, h.spc],
    fun s i f buf d hm => (h'.rets s i f buf d hm).elim (h.rets s i f buf d) .inr⟩

theorem only_goto (t : Nat) (p : ServerConc.PC) (σ : ServerConc.State) : Only t p σ (σ.goto t p) := ⟨rfl, rfl, fun _ => rfl, fun _ _ _ _ _ => .inl⟩
theorem only_reply (t j : Nat) (r : Reply) (σ : ServerConc.State) : Only t .idle σ (σ.reply t j r) := ⟨rfl, rfl, fun _ => rfl, fun _ _ _ _ _ => .inl⟩

theorem Only.at {t : Nat} {p : ServerConc.PC} {σ σ' : ServerConc.State} (h : Only t p σ σ') : σ'.pc t = p := by rw [h.pc]; simp [upd]

theorem one {σ σ' : ServerConc.State} (h : ServerConc.Step env confs σ σ') : ServerConc.Steps env confs σ σ' := .tail (.refl _) h

/-- steps of one goroutine inside a store -/
theorem alone_inside {s t : Nat} {c : Conf} (hs : confs[s]? = some c) {m m' : BufmapConc.State} (h : Alone c.slots c.coll.size.toNat t m m') :
    ∀ (σ : ServerConc.State) (calls : List StoreConc.Call), σ.stores s = ⟨m, calls⟩ →
      ServerConc.Steps env confs σ { σ with stores := upd σ.stores s ⟨m', calls⟩ } := by
  induction h with
  | refl m =>
    intro σ calls he
    rw [upd_id _ _ _ he]
    exact .refl _
  | @head m m1 m' h1 h2 ih =>
    intro σ calls he
    have st : ServerConc.Step env confs σ { σ with stores := upd σ.stores s ⟨m1, calls⟩ } := by
      have := ServerConc.Step.inside (env := env) σ t s c m1 hs (by rw [he]; exact h1)
      rw [he] at this
      exact this
    have := ih { σ with stores := upd σ.stores s ⟨m1, calls⟩ } calls (by simp only; simp [upd])
    simp only [upd_upd] at this
    exact (one st).trans this

/-- a Write by the goroutine `t` alone -/
theorem write_alone {t j p s : Nat} {ls : List Bytes} {e : Option Err} {r : Row} {σ : ServerConc.State}
    (hr : ServerConc.Steps env confs ServerConc.init σ) (hpos : ∀ c ∈ confs, 0 < c.slots)
    (hpc : σ.pc t = .row j p ls e r s) (hidle : ∀ s, (σ.stores s).m.pc t = .idle) {sts : List Store} (ha : Agrees confs σ sts)
    {st : Store} (hst : sts[s]? = some st) (canceled : Bool) (hcan : canceled = true → σ.MayCancel j)
    {st' : Store} {err : Option Err} (hw : Storage.write env.lib st canceled r = (st', .ret err)) :
    ∃ σ', ServerConc.Steps env confs σ σ' ∧ Agrees confs σ' (sts.set s st') ∧
      (err = none → Only t (.row j p ls e r (s + 1)) σ σ' ∧ σ'.replies = σ.replies) ∧
      (err ≠ none → Only t .idle σ σ' ∧ σ'.replies = σ.replies ++ [(j, .refused 500)]) := by
  have hlt := (List.getElem?_eq_some_iff.1 hst).1
  obtain ⟨c, hc⟩ : ∃ c, confs[s]? = some c := ⟨_, List.getElem?_eq_getElem (by rw [← ha.len]; exact hlt)⟩
  obtain ⟨hcoll, hsame⟩ := ha.store s st c hst hc
  have hset : sts.set s st = sts := by
    obtain ⟨h1, h2⟩ := List.getElem?_eq_some_iff.1 hst
    rw [← h2]; exact List.set_getElem_self h1
  unfold Storage.write at hw
  rw [hcoll] at hw
  cases hk : keyValue r.data c.coll.keys with
  | none =>
    rw [hk] at hw
    simp only [Prod.mk.injEq, Bufmap.Res.ret.injEq] at hw
    obtain ⟨rfl, rfl⟩ := hw
    refine ⟨_, one (.skip σ t j p ls e r s c hpc hc hk), ?_, fun _ => ⟨only_goto _ _ _, rfl⟩, fun h => absurd rfl h⟩
    rw [hset]
    exact ⟨ha.len, ha.store⟩
  | some k =>
    rw [hk] at hw
    simp only at hw
    cases canceled with
    | true =>
      rw [if_pos rfl] at hw
      simp only [Prod.mk.injEq, Bufmap.Res.ret.injEq] at hw
      obtain ⟨rfl, rfl⟩ := hw
      refine ⟨_, one (.cancelWrite σ t j p ls e r s c k hpc hc hk (hcan rfl)), ?_, fun h => by simp at h, fun _ => ⟨only_reply _ _ _ _, rfl⟩⟩
      rw [hset]
      exact ⟨ha.len, ha.store⟩
    | false =>
      rw [if_neg (by simp)] at hw
      simp only [Prod.mk.injEq] at hw
      obtain ⟨h1, h2⟩ := hw
      have hf := StoreConc.performs_rewrite env.lib c.coll r
      obtain ⟨m', ret, a1, a2, a3, a4, a5⟩ := C34_update_alone c.slots c.coll.size.toNat t (hpos c (List.mem_of_getElem? hc)) (σ.stores s).m
        st.backend (Bufmap.update st.backend k (transaction env.lib c.coll r)).1 hsame (hidle s) k
        _ _ (StoreConc.performs_fnOf hf) err (Prod.ext rfl h2)
      have s1 := ServerConc.Step.write σ t j p ls e r s c k _ hpc hc (hidle s) hk hf
      generalize hσ1 : σ.enter t s ⟨BufmapConc.call (σ.stores s).m t (.upd k _), _⟩ (j, p) _ = σ1 at s1
      have hst1 : σ1.stores = upd σ.stores s ⟨BufmapConc.call (σ.stores s).m t (.upd k (StoreConc.rewrite (Collation.update env.lib c.coll r))),
          (σ.stores s).calls ++ [.write r]⟩ := by rw [← hσ1]; rfl
      have hpc1 : σ1.pc = upd σ.pc t (.writing j p ls e r s (σ.stores s).calls.length) := by rw [← hσ1]; rfl
      have hreq1 : σ1.reqs = σ.reqs := by rw [← hσ1]; rfl
      have hrep1 : σ1.replies = σ.replies := by rw [← hσ1]; rfl
      have s2 := alone_inside (env := env) hc a1 σ1 _ (by rw [hst1]; simp [upd]; rfl)
      generalize hσ2 : ({ σ1 with stores := upd σ1.stores s ⟨m', _⟩ } : ServerConc.State) = σ2 at s2
      have hst2 : σ2.stores = upd σ.stores s ⟨m', (σ.stores s).calls ++ [.write r]⟩ := by rw [← hσ2]; simp only; rw [hst1, upd_upd]
      have hpc2 : σ2.pc = upd σ.pc t (.writing j p ls e r s (σ.stores s).calls.length) := by rw [← hσ2]; exact hpc1
      have hreq2 : σ2.reqs = σ.reqs := by rw [← hσ2]; exact hreq1
      have hrep2 : σ2.replies = σ.replies := by rw [← hσ2]; exact hrep1
      have hlen : (σ.stores s).m.invs.length = (σ.stores s).calls.length :=
        (StoreConc.callsOk_steps (StoreConc.callsOk_init env.lib c.coll) (steps_store hr hc)).len.symm
      have hret : ((σ.stores s).calls.length, ret) ∈ (σ2.stores s).m.rets := by
        rw [hst2, show (upd σ.stores s ⟨m', (σ.stores s).calls ++ [.write r]⟩ s) = ⟨m', (σ.stores s).calls ++ [.write r]⟩ by simp [upd]]
        simp only
        rw [a3, hlen]; simp
      have hwr : StoreConc.writeReply ret = some err := by rw [← a4]; cases ret <;> rfl
      have s3 := ServerConc.Step.wrote (env := env) (confs := confs) σ2 t j p ls e r s _ ret err (by rw [hpc2]; simp [upd]) hret hwr
      have hspc : ∀ s', (σ2.stores s').m.pc = (σ.stores s').m.pc := by
        intro s'
        rw [hst2]
        by_cases es : s' = s
        · subst es; simp only [upd, if_true]; exact a2
        · simp [upd, es]
      have hrets : ∀ (s' i : Nat) (f : Bool) (buf : Bytes) (d : Nat), (i, Ret.got f buf d) ∈ (σ2.stores s').m.rets →
          (i, Ret.got f buf d) ∈ (σ.stores s').m.rets ∨ d = 0 := by
        intro s' i f buf d hm
        rw [hst2] at hm
        by_cases es : s' = s
        · subst es
          simp only [upd, if_true] at hm
          rw [a3, List.mem_append, List.mem_singleton, Prod.mk.injEq] at hm
          refine hm.imp id fun h => ?_
          rw [← h.2] at a4
          simp [Ret.err] at a4
        · simp only [upd, if_neg es] at hm
          exact .inl hm
      have hag : ∀ σ3 : ServerConc.State, σ3.stores = σ2.stores → Agrees confs σ3 (sts.set s st') := by
        intro σ3 h3
        refine ⟨by rw [List.length_set]; exact ha.len, ?_⟩
        intro s' st3 c3 hs3 hc3
        rw [h3, hst2]
        rw [List.getElem?_set] at hs3
        by_cases es : s = s'
        · subst es
          rw [if_pos rfl, if_pos hlt] at hs3
          obtain rfl := Option.some.inj hs3
          rw [hc] at hc3
          obtain rfl := Option.some.inj hc3
          rw [show (upd σ.stores s ⟨m', (σ.stores s).calls ++ [.write r]⟩ s) = ⟨m', (σ.stores s).calls ++ [.write r]⟩ by simp [upd]]
          rw [← h1]
          exact ⟨rfl, a5⟩
        · rw [if_neg es] at hs3
          simp only [upd, if_neg (Ne.symm es)]
          exact ha.store s' st3 c3 hs3 hc3
      refine ⟨_, ((one s1).trans s2).trans (one s3), hag _ (by split <;> rfl), ?_, ?_⟩
      · intro he
        rw [if_pos he]
        exact ⟨⟨by show upd σ2.pc t _ = _; rw [hpc2, upd_upd], hreq2, hspc, hrets⟩, hrep2⟩
      · intro he
        rw [if_neg he]
        exact ⟨⟨by show upd σ2.pc t _ = _; rw [hpc2, upd_upd], hreq2, hspc, hrets⟩, by show σ2.replies ++ _ = _; rw [hrep2]⟩

theorem mayCancel_next {σ : ServerConc.State} {j : Nat} {req : Request} (hj : σ.reqs[j]? = some req) {ctx : Ctx} (hctx : req.ctx = none → ctx = none) :
    ctx.done = true → σ.MayCancel j := by
  intro h
  refine ⟨req, hj, fun hn => ?_⟩
  rw [hctx hn] at h
  simp [Ctx.done] at h

/-- the row of a line is written to the remaining stores -/
theorem stores_alone {t j p : Nat} {ls : List Bytes} {e : Option Err} {r : Row} {req : Request} (hpos : ∀ c ∈ confs, 0 < c.slots) :
    ∀ (rest pre : List Store) (σ : ServerConc.State) (ctx : Ctx), ServerConc.Steps env confs ServerConc.init σ →
      σ.pc t = .row j p ls e r pre.length → (∀ s, (σ.stores s).m.pc t = .idle) → Agrees confs σ (pre ++ rest) → σ.reqs[j]? = some req →
      (req.ctx = none → ctx = none) → ∀ rest' out ctx', writeStores env.lib r ctx rest = (rest', out, ctx') → out ≠ some .panic → out ≠ some .hang →
      ∃ σ', ServerConc.Steps env confs σ σ' ∧ Agrees confs σ' (pre ++ rest') ∧ (req.ctx = none → ctx' = none) ∧
        (out = none → Only t (.lines j (p + 1) ls e) σ σ' ∧ σ'.replies = σ.replies) ∧
        (∀ rep, out = some rep → Only t .idle σ σ' ∧ σ'.replies = σ.replies ++ [(j, rep)])
  | [], pre, σ, ctx, hr, hpc, hidle, ha, hj, hctx, rest', out, ctx', hw, h1, h2 => by
    rw [writeStores] at hw
    simp only [Prod.mk.injEq] at hw
    obtain ⟨rfl, rfl, rfl⟩ := hw
    rw [List.append_nil] at ha ⊢
    refine ⟨_, one (.stored σ t j p ls e r (by rw [hpc, ha.len])), ⟨ha.len, ha.store⟩, hctx, fun _ => ⟨only_goto _ _ _, rfl⟩, by simp⟩
  | st :: rest, pre, σ, ctx, hr, hpc, hidle, ha, hj, hctx, rest', out, ctx', hw, h1, h2 => by
    have hst : (pre ++ st :: rest)[pre.length]? = some st := by simp
    have hset : ∀ st', (pre ++ st :: rest).set pre.length st' = pre ++ st' :: rest := by
      intro st'
      rw [List.set_append_right _ _ (by omega)]
      simp
    have hnext : req.ctx = none → ctx.next = none := by intro h; rw [hctx h]; rfl
    rw [writeStores] at hw
    simp only at hw
    split at hw
    · next hout =>
      simp only [Prod.mk.injEq] at hw
      obtain ⟨rfl, hw2⟩ := hw
      obtain ⟨σ1, b1, b2, b3, _⟩ := write_alone hr hpos hpc hidle ha hst ctx.done (mayCancel_next hj hctx) (Prod.ext rfl hout)
      obtain ⟨b3, b4⟩ := b3 rfl
      rw [hset] at b2
      obtain ⟨σ2, c1, c2, c3, c4, c5⟩ := stores_alone (j := j) (p := p) (ls := ls) (e := e) (r := r) (req := req) hpos rest (pre ++ [(Storage.write env.lib st ctx.done r).1]) σ1 ctx.next (hr.trans b1)
        (by rw [b3.at, List.length_append]; rfl) (fun s => by rw [b3.spc]; exact hidle s) (by rw [List.append_assoc]; exact b2) (by rw [b3.reqs]; exact hj)
        hnext _ out ctx' (Prod.ext rfl hw2) h1 h2
      refine ⟨σ2, b1.trans c1, by rw [List.append_assoc] at c2; exact c2, c3, ?_, ?_⟩
      · intro ho
        obtain ⟨d1, d2⟩ := c4 ho
        exact ⟨b3.trans d1, by rw [d2, b4]⟩
      · intro rep ho
        obtain ⟨d1, d2⟩ := c5 rep ho
        exact ⟨b3.trans d1, by rw [d2, b4]⟩
    · next err hout =>
      simp only [Prod.mk.injEq] at hw
      obtain ⟨rfl, rfl, rfl⟩ := hw
      obtain ⟨σ1, b1, b2, _, b3⟩ := write_alone hr hpos hpc hidle ha hst ctx.done (mayCancel_next hj hctx) (Prod.ext rfl hout)
      obtain ⟨b3, b4⟩ := b3 (by simp)
      rw [hset] at b2
      refine ⟨σ1, b1, b2, hnext, by simp, ?_⟩
      intro rep ho
      have ho := Option.some.inj ho
      subst ho
      exact ⟨b3, b4⟩
    · simp only [Prod.mk.injEq] at hw
      exact absurd hw.2.1.symm h1
    · simp only [Prod.mk.injEq] at hw
      exact absurd hw.2.1.symm h2

/-- the lines -/
theorem lines_alone {t j : Nat} {e : Option Err} {req : Request} (hpos : ∀ c ∈ confs, 0 < c.slots) :
    ∀ (ls : List Bytes) (p : Nat) (sts : List Store) (σ : ServerConc.State) (ctx : Ctx), ServerConc.Steps env confs ServerConc.init σ →
      σ.pc t = .lines j p ls e → (∀ s, (σ.stores s).m.pc t = .idle) → Agrees confs σ sts → σ.reqs[j]? = some req →
      (req.ctx = none → ctx = none) → ∀ sts' rep, recvLoop env.lib e ctx ls sts = (sts', rep) → rep ≠ .panic → rep ≠ .hang →
      ∃ σ', ServerConc.Steps env confs σ σ' ∧ Agrees confs σ' sts' ∧ Only t .idle σ σ' ∧ σ'.replies = σ.replies ++ [(j, rep)]
  | [], p, sts, σ, ctx, hr, hpc, hidle, ha, hj, hctx, sts', rep, hw, h1, h2 => by
    rw [recvLoop] at hw
    simp only [Prod.mk.injEq] at hw
    obtain ⟨rfl, rfl⟩ := hw
    exact ⟨_, one (.finish σ t j p e hpc), ⟨ha.len, ha.store⟩, only_reply _ _ _ _, rfl⟩
  | line :: ls, p, sts, σ, ctx, hr, hpc, hidle, ha, hj, hctx, sts', rep, hw, h1, h2 => by
    rw [recvLoop] at hw
    split at hw
    · next hd =>
      simp only [Prod.mk.injEq] at hw
      obtain ⟨rfl, rfl⟩ := hw
      exact ⟨_, one (.cancelLine σ t j p line ls e hpc (mayCancel_next hj hctx hd)), ⟨ha.len, ha.store⟩, only_reply _ _ _ _, rfl⟩
    · have hnext : req.ctx = none → ctx.next = none := by intro h; rw [hctx h]; rfl
      have s1 := ServerConc.Step.parse (env := env) (confs := confs) σ t j p line ls e hpc
      unfold State.parse at s1
      split at hw
      · simp only [Prod.mk.injEq] at hw
        exact absurd hw.2.symm h1
      · next err he =>
        rw [he] at s1
        simp only [Prod.mk.injEq] at hw s1
        obtain ⟨rfl, rfl⟩ := hw
        exact ⟨_, one s1, ⟨ha.len, ha.store⟩, only_reply _ _ _ _, rfl⟩
      · next r he =>
        rw [he] at s1
        simp only at s1
        have o1 := only_goto t (.row j p ls e r 0) σ
        have key := stores_alone (env := env) (t := t) (j := j) (p := p) (ls := ls) (e := e) (r := r) (req := req) hpos sts [] _ ctx.next
          (hr.trans (one s1)) o1.at hidle ⟨ha.len, ha.store⟩ hj hnext
        split at hw
        · next sts1 rep1 ctx1 hws =>
          simp only [Prod.mk.injEq] at hw
          obtain ⟨rfl, rfl⟩ := hw
          obtain ⟨σ', b1, b2, _, _, b3⟩ := key _ _ _ hws (by intro h; exact h1 (Option.some.inj h)) (by intro h; exact h2 (Option.some.inj h))
          obtain ⟨b3, b4⟩ := b3 _ rfl
          exact ⟨σ', (one s1).trans b1, b2, o1.trans b3, b4⟩
        · next sts1 ctx1 hws =>
          obtain ⟨σ', b1, b2, b3, b4, _⟩ := key _ _ _ hws (by simp) (by simp)
          obtain ⟨b4, b5⟩ := b4 rfl
          have o2 := o1.trans b4
          obtain ⟨σ2, c1, c2, c3, c4⟩ := lines_alone hpos ls (p + 1) _ σ' ctx1 ((hr.trans (one s1)).trans b1) b4.at
            (fun s => by rw [o2.spc]; exact hidle s) b2 (by rw [o2.reqs]; exact hj) b3 sts' rep hw h1 h2
          exact ⟨σ2, ((one s1).trans b1).trans c1, c2, o2.trans c3, by rw [c4, b5]; rfl⟩

/-- the reply made of what `Storage.read` returned -/
def replyOf (env : Env) (q : Query) : Bufmap.Res (List FMV × Option Err) → Reply
  | .panic => .panic
  | .hang => .hang
  | .ret out => queryReply env q (.val out)

theorem queryStores_find (env : Env) (cname : Bytes) (q : Query) : ∀ (sts : List Store) (confs : List Conf), sts.length = confs.length →
    (∀ (s : Nat) (st : Store) (c : Conf), sts[s]? = some st → confs[s]? = some c → st.coll = c.coll) →
    (confs.findIdx? (fun c => decide (c.coll.name = cname)) = none ∧ queryStores env cname q sts = .refused 404) ∨
    ∃ s st c, confs.findIdx? (fun c => decide (c.coll.name = cname)) = some s ∧ sts[s]? = some st ∧ confs[s]? = some c ∧
      queryStores env cname q sts = replyOf env q (Storage.read env.lib st q)
  | [], [], _, _ => .inl ⟨rfl, rfl⟩
  | [], _ :: _, h, _ => by simp at h
  | _ :: _, [], h, _ => by simp at h
  | st :: sts, c :: confs, hl, h => by
    have h0 := h 0 st c rfl rfl
    by_cases hn : c.coll.name = cname
    · refine .inr ⟨0, st, c, by rw [List.findIdx?_cons, if_pos (by simpa using hn)], rfl, rfl, ?_⟩
      rw [queryStores, if_pos (by rw [h0]; exact hn)]
      cases Storage.read env.lib st q with
      | panic => rfl
      | hang => rfl
      | ret x =>
        obtain ⟨res, e⟩ := x
        cases e <;> rfl
    · have hd : decide (c.coll.name = cname) ≠ true := by simpa using hn
      rw [List.findIdx?_cons, if_neg hd, queryStores, if_neg (by rw [h0]; exact hn)]
      rcases queryStores_find env cname q sts confs (by simpa using hl) (fun s st' c' h1 h2 => h (s + 1) st' c' h1 h2) with
        ⟨e1, e2⟩ | ⟨s, st', c', e1, e2, e3, e4⟩
      · exact .inl ⟨by rw [e1]; rfl, e2⟩
      · exact .inr ⟨s + 1, st', c', by rw [e1]; rfl, e2, e3, e4⟩

/-- the sequential server does what the request asks for -/
theorem serve_task (env : Env) (confs : List Conf) (sts : List Store) (hl : sts.length = confs.length)
    (hc : ∀ (s : Nat) (st : Store) (c : Conf), sts[s]? = some st → confs[s]? = some c → st.coll = c.coll) (req : Request) :
    (∃ r, task env confs req = .answer r ∧ Server.serve env sts req = (sts, r)) ∨
    (∃ ls e, task env confs req = .observe ls e ∧ Server.serve env sts req = recvLoop env.lib e req.ctx ls sts) ∨
    ∃ s q st c, task env confs req = .query s q ∧ sts[s]? = some st ∧ confs[s]? = some c ∧
      Server.serve env sts req = (sts, replyOf env q (Storage.read env.lib st q)) := by
  unfold task Server.serve
  split
  · exact .inl ⟨_, rfl, rfl⟩
  split
  · exact .inl ⟨_, rfl, rfl⟩
  split
  · split
    · unfold observation recvObservation
      cases contentType env req with
      | error _ => exact .inl ⟨_, rfl, rfl⟩
      | ok ct =>
        simp only
        by_cases h1 : ct = asc "application/x-www-form-urlencoded"
        · rw [if_pos h1, if_pos h1]
          by_cases h2 : req.form (asc "data") = []
          · rw [if_pos h2, if_pos h2]; exact .inl ⟨_, rfl, rfl⟩
          · rw [if_neg h2, if_neg h2]; exact .inr (.inl ⟨_, _, rfl, rfl⟩)
        · rw [if_neg h1, if_neg h1]
          by_cases h2 : ct = asc "text/plain" ∨ ct = asc "application/octet-stream"
          · rw [if_pos h2, if_pos h2]; exact .inr (.inl ⟨_, _, rfl, rfl⟩)
          · rw [if_neg h2, if_neg h2]; exact .inl ⟨_, rfl, rfl⟩
    · exact .inl ⟨_, rfl, rfl⟩
  split
  · simp only
    split
    · exact .inl ⟨_, rfl, rfl⟩
    split
    · exact .inl ⟨_, rfl, rfl⟩
    split
    · exact .inl ⟨_, rfl, rfl⟩
    unfold ServerConc.lookup queryCollation
    cases Query.roughParse env.ord (req.form (asc "q")) with
    | error _ => exact .inl ⟨_, rfl, rfl⟩
    | ok q =>
      simp only
      rcases queryStores_find env (req.path.drop (asc "/collation/").length) q sts confs hl hc with ⟨e1, e2⟩ | ⟨s, st, c, e1, e2, e3, e4⟩
      · rw [e1, e2]; exact .inl ⟨_, rfl, rfl⟩
      · rw [e1, e4]; exact .inr (.inr ⟨s, q, st, c, rfl, e2, e3, rfl⟩)
  · split
    · exact .inl ⟨_, rfl, rfl⟩
    · exact .inl ⟨_, rfl, rfl⟩

end

/-- a panic, if any, comes from reading the copy of a record, not from copying it -/
def CopiedFirst (env : Env) (confs : List Conf) (sts : List Store) (req : Request) : Prop :=
  ∃ s q st c k r, task env confs req = .query s q ∧ sts[s]? = some st ∧ confs[s]? = some c ∧ keyValue q.criteria c.coll.keys = some k ∧
    0 ≤ c.coll.size ∧ Bufmap.get st.backend k (List.replicate c.coll.size.toNat 0) = .ret r

/-- agreement with the sequential model; see `C68_alone` and `C80_panics` -/
theorem alone_any (env : Env) (confs : List Conf) (hpos : ∀ c ∈ confs, 0 < c.slots) (σ : ServerConc.State)
    (hr : ServerConc.Steps env confs ServerConc.init σ) (t : Nat) (hpc : σ.pc t = .idle) (hidle : ∀ s, (σ.stores s).m.pc t = .idle)
    (sts : List Store) (ha : Agrees confs σ sts) (req : Request) (sts' : List Store) (rep : Reply)
    (h : Server.serve env sts req = (sts', rep)) (h1 : rep = .panic → CopiedFirst env confs sts req) (h2 : rep ≠ .hang) :
    ∃ σ', ServerConc.Steps env confs σ σ' ∧ Agrees confs σ' sts' ∧ σ'.reqs = σ.reqs ++ [req] ∧
      σ'.replies = σ.replies ++ [(σ.reqs.length, rep)] ∧ σ'.pc = σ.pc ∧ (∀ s, (σ'.stores s).m.pc = (σ.stores s).m.pc) ∧
      ∀ (s i : Nat) (f : Bool) (buf : Bytes) (d : Nat), (i, Ret.got f buf d) ∈ (σ'.stores s).m.rets → (i, Ret.got f buf d) ∈ (σ.stores s).m.rets ∨ d = 0 := by
  have s0 := ServerConc.Step.receive (env := env) (confs := confs) σ t req hpc
  unfold State.receive at s0
  simp only at s0
  have hget : (σ.reqs ++ [req])[σ.reqs.length]? = some req := by simp
  have hid : ∀ {σ' : ServerConc.State}, Only t .idle { σ with reqs := σ.reqs ++ [req] } σ' → σ'.pc = σ.pc := by
    intro σ' ho
    rw [ho.pc]
    exact upd_id _ _ _ hpc
  rcases serve_task env confs sts ha.len (fun s st c e1 e2 => (ha.store s st c e1 e2).1) req with
    ⟨r, e1, e2⟩ | ⟨ls, e, e1, e2⟩ | ⟨s, q, st, c, e1, e3, e4, e2⟩
  · rw [e1] at s0
    simp only at s0
    rw [h] at e2
    simp only [Prod.mk.injEq] at e2
    obtain ⟨rfl, rfl⟩ := e2
    exact ⟨_, one s0, ⟨ha.len, ha.store⟩, rfl, rfl, hid (only_reply _ _ _ _), fun _ => rfl, fun _ _ _ _ _ => .inl⟩
  · rw [e1] at s0
    simp only at s0
    rw [h] at e2
    have o1 := only_goto t (.lines σ.reqs.length 0 ls e) { σ with reqs := σ.reqs ++ [req] }
    obtain ⟨σ', b1, b2, b3, b4⟩ := lines_alone (env := env) (req := req) hpos ls 0 sts _ req.ctx (hr.trans (one s0)) o1.at hidle
      ⟨ha.len, ha.store⟩ hget id sts' rep e2.symm (by
        intro hp
        obtain ⟨_, _, _, _, _, _, g, _⟩ := h1 hp
        rw [e1] at g; simp at g) h2
    have o2 := o1.trans b3
    exact ⟨σ', (one s0).trans b1, b2, o2.reqs, b4, hid o2, o2.spc, o2.rets⟩
  · rw [e1] at s0
    simp only at s0
    rw [h] at e2
    simp only [Prod.mk.injEq] at e2
    obtain ⟨rfl, e2⟩ := e2
    have o1 := only_goto t (.ask σ.reqs.length q s) { σ with reqs := σ.reqs ++ [req] }
    obtain ⟨hcoll, hsame⟩ := ha.store s st c e3 e4
    have h1' : rep = .panic → ∃ k r, keyValue q.criteria c.coll.keys = some k ∧ 0 ≤ c.coll.size ∧
        Bufmap.get st.backend k (List.replicate c.coll.size.toNat 0) = .ret r := by
      intro hp
      obtain ⟨s', q', st', c', k, r, g1, g2, g3, g4, g5, g6⟩ := h1 hp
      rw [e1] at g1
      injection g1 with g1 g1'
      subst g1 g1'
      rw [e3] at g2
      rw [e4] at g3
      obtain rfl := Option.some.inj g2
      obtain rfl := Option.some.inj g3
      exact ⟨k, r, g4, g5, g6⟩
    unfold Storage.read at e2
    rw [hcoll] at e2
    cases hk : keyValue q.criteria c.coll.keys with
    | none =>
      rw [hk] at e2
      simp only at e2
      have s1 := ServerConc.Step.noKey (env := env) (confs := confs) _ t σ.reqs.length q s c o1.at e4 hk
      have o2 := o1.trans (only_reply t σ.reqs.length (queryReply env q (.val ([], none))) _)
      refine ⟨_, (one s0).trans (one s1), ⟨ha.len, ha.store⟩, o2.reqs, ?_, hid o2, o2.spc, o2.rets⟩
      rw [e2]; rfl
    | some k =>
      rw [hk] at e2
      simp only at e2
      by_cases hn : c.coll.size < 0
      · rw [if_pos hn] at e2
        obtain ⟨_, _, _, g, _⟩ := h1' e2
        omega
      rw [if_neg hn] at e2
      have key : ∃ found buf out, Bufmap.get st.backend k (List.replicate c.coll.size.toNat 0) = .ret (found, buf) ∧
          StoreConc.readReply env.lib c.coll q (.got found buf 0) = some out ∧ rep = queryReply env q out := by
        cases hg : Bufmap.get st.backend k (List.replicate c.coll.size.toNat 0) with
        | panic =>
          rw [hg] at e2
          obtain ⟨k', r, g1, _, g2⟩ := h1' e2
          rw [hk] at g1
          obtain rfl := Option.some.inj g1
          rw [hg] at g2; simp at g2
        | hang => rw [hg] at e2; exact absurd e2 h2
        | ret x =>
          obtain ⟨f, b⟩ := x
          rw [hg] at e2
          cases f with
          | false => exact ⟨false, b, .val ([], none), rfl, rfl, e2⟩
          | true =>
            simp only at e2
            cases hrd : Collation.read env.lib c.coll q.fieldMeasures b with
            | panic =>
              rw [hrd] at e2
              exact ⟨true, b, .panic, rfl, by unfold StoreConc.readReply; simp only; rw [hrd], e2⟩
            | val a =>
              obtain ⟨res, err⟩ := a
              rw [hrd] at e2
              refine ⟨true, b, .val (res, err), rfl, by unfold StoreConc.readReply; simp only; rw [hrd], ?_⟩
              exact e2
      obtain ⟨found, buf, out, hg, hrd, hrep⟩ := key
      obtain ⟨m', a1, a2, a3, a4, a5⟩ := C35_get_alone c.slots c.coll.size.toNat t (hpos c (List.mem_of_getElem? e4)) (σ.stores s).m st.backend
        hsame (hidle s) k _ buf found hg
      generalize hσ0 : (({ σ with reqs := σ.reqs ++ [req] } : ServerConc.State).goto t (.ask σ.reqs.length q s)) = σ0 at *
      have hst0 : σ0.stores = σ.stores := by rw [← hσ0]; rfl
      have hrep0 : σ0.replies = σ.replies := by rw [← hσ0]; rfl
      have s1 := ServerConc.Step.read (env := env) (confs := confs) σ0 t σ.reqs.length q s c k o1.at e4 (by rw [hst0]; exact hidle s) hk (by omega)
      generalize hσ1 : σ0.enter t s ⟨BufmapConc.call (σ0.stores s).m t (.get k _), _⟩ (σ.reqs.length, 0) _ = σ1 at s1
      have hst1 : σ1.stores = upd σ.stores s ⟨BufmapConc.call (σ.stores s).m t (.get k (List.replicate c.coll.size.toNat 0)),
          (σ.stores s).calls ++ [.read q]⟩ := by rw [← hσ1, ← hst0]; rfl
      have hpc1 : σ1.pc = upd σ0.pc t (.reading σ.reqs.length q s (σ.stores s).calls.length) := by rw [← hσ1, ← hst0]; rfl
      have hreq1 : σ1.reqs = σ0.reqs := by rw [← hσ1]; rfl
      have hrep1 : σ1.replies = σ.replies := by rw [← hσ1, ← hrep0]; rfl
      have s2 := alone_inside (env := env) e4 a1 σ1 _ (by rw [hst1]; simp [upd]; rfl)
      generalize hσ2 : ({ σ1 with stores := upd σ1.stores s ⟨m', _⟩ } : ServerConc.State) = σ2 at s2
      have hst2 : σ2.stores = upd σ.stores s ⟨m', (σ.stores s).calls ++ [.read q]⟩ := by rw [← hσ2]; simp only; rw [hst1, upd_upd]
      have hpc2 : σ2.pc = upd σ0.pc t (.reading σ.reqs.length q s (σ.stores s).calls.length) := by rw [← hσ2]; exact hpc1
      have hreq2 : σ2.reqs = σ0.reqs := by rw [← hσ2]; exact hreq1
      have hrep2 : σ2.replies = σ.replies := by rw [← hσ2]; exact hrep1
      have hlen : (σ.stores s).m.invs.length = (σ.stores s).calls.length :=
        (StoreConc.callsOk_steps (StoreConc.callsOk_init env.lib c.coll) (steps_store hr e4)).len.symm
      have hat : upd σ.stores s ⟨m', (σ.stores s).calls ++ [.read q]⟩ s = ⟨m', (σ.stores s).calls ++ [.read q]⟩ := by simp [upd]
      have hret : ((σ.stores s).calls.length, Ret.got found buf 0) ∈ (σ2.stores s).m.rets := by
        rw [hst2, hat]
        simp only
        rw [a3, hlen]; simp
      have s3 := ServerConc.Step.answer (env := env) (confs := confs) σ2 t σ.reqs.length q s _ c _ out (by rw [hpc2]; simp [upd]) e4 hret hrd
      have hspc : ∀ s', (σ2.stores s').m.pc = (σ.stores s').m.pc := by
        intro s'
        rw [hst2]
        by_cases es : s' = s
        · subst es; rw [hat]; exact a2
        · simp [upd, es]
      have hrets : ∀ (s' i : Nat) (f : Bool) (buf : Bytes) (d : Nat), (i, Ret.got f buf d) ∈ (σ2.stores s').m.rets →
          (i, Ret.got f buf d) ∈ (σ.stores s').m.rets ∨ d = 0 := by
        intro s' i f buf d hm
        rw [hst2] at hm
        by_cases es : s' = s
        · subst es
          rw [hat] at hm
          simp only at hm
          rw [a3, List.mem_append, List.mem_singleton, Prod.mk.injEq] at hm
          exact hm.imp id fun h => by injection h.2
        · simp only [upd, if_neg es] at hm
          exact .inl hm
      have o2 : Only t .idle { σ with reqs := σ.reqs ++ [req] } (σ2.reply t σ.reqs.length (queryReply env q out)) :=
        ⟨by show upd σ2.pc t _ = _; rw [hpc2, upd_upd, o1.pc, upd_upd], by show σ2.reqs = _; rw [hreq2, o1.reqs], hspc, hrets⟩
      refine ⟨_, (((one s0).trans (one s1)).trans s2).trans (one s3), ?_, o2.reqs, ?_, hid o2, o2.spc, o2.rets⟩
      · refine ⟨ha.len, ?_⟩
        intro s' st3 c3 hs3 hc3
        show _ ∧ Same _ _ (σ2.stores s').m _
        rw [hst2]
        by_cases es : s' = s
        · subst es
          rw [hat]
          rw [e3] at hs3
          obtain rfl := Option.some.inj hs3
          rw [e4] at hc3
          obtain rfl := Option.some.inj hc3
          refine ⟨hcoll, hsame.hl, hsame.hs, hsame.klen, hsame.vlen, ?_, ?_⟩
          · intro x hx; simp only; rw [a4, a5]; exact hsame.slot x hx
          · intro x hx; simp only; rw [a5]; exact hsame.vals x hx
        · simp only [upd, if_neg es]
          exact ha.store s' st3 c3 hs3 hc3
      · show σ2.replies ++ _ = _
        rw [hrep2, hrep]

/-- **C68**, agreement with the sequential model: from any reachable state in which the stores have the contents of the sequential stores `sts` and the goroutine `t` is idle, a request
that `t` handles while no other goroutine moves can be answered exactly as by the sequential server, leaving the stores as the sequential server leaves
them. (For answers other than a panic or a hang; the last part says that a Read by a goroutine alone is not overtaken at all.) -/
theorem C68_alone (env : Env) (confs : List Conf) (hpos : ∀ c ∈ confs, 0 < c.slots) (σ : ServerConc.State)
    (hr : ServerConc.Steps env confs ServerConc.init σ) (t : Nat) (hpc : σ.pc t = .idle) (hidle : ∀ s, (σ.stores s).m.pc t = .idle)
    (sts : List Store) (ha : Agrees confs σ sts) (req : Request) (sts' : List Store) (rep : Reply)
    (h : Server.serve env sts req = (sts', rep)) (h1 : rep ≠ .panic) (h2 : rep ≠ .hang) :
    ∃ σ', ServerConc.Steps env confs σ σ' ∧ Agrees confs σ' sts' ∧ σ'.reqs = σ.reqs ++ [req] ∧
      σ'.replies = σ.replies ++ [(σ.reqs.length, rep)] ∧ σ'.pc = σ.pc ∧ (∀ s, (σ'.stores s).m.pc = (σ.stores s).m.pc) ∧
      ∀ (s i : Nat) (f : Bool) (buf : Bytes) (d : Nat), (i, Ret.got f buf d) ∈ (σ'.stores s).m.rets → (i, Ret.got f buf d) ∈ (σ.stores s).m.rets ∨ d = 0 :=
  alone_any env confs hpos σ hr t hpc hidle sts ha req sts' rep h (fun e => absurd e h1) h2

/-- the stores of the demo program -/
def demoConfs : List Conf := [⟨compile Demo.country, Demo.slots⟩, ⟨compile Demo.tz, Demo.slots⟩]

theorem demo_agrees : Agrees demoConfs ServerConc.init Demo.stores := by
  refine ⟨rfl, ?_⟩
  intro s st c hst hc
  match s with
  | 0 =>
    obtain rfl := Option.some.inj hst
    obtain rfl := Option.some.inj hc
    exact ⟨rfl, same_init _ _⟩
  | 1 =>
    obtain rfl := Option.some.inj hst
    obtain rfl := Option.some.inj hc
    exact ⟨rfl, same_init _ _⟩
  | s + 2 => simp [demoConfs] at hc

/-- instance of C68_count_partial and C68_exact_partial: a state `σ` of the demo program that is reachable, in which goroutine 0 has
answered the post of an observation of FR with 200 and then goroutine 1 has answered the query for FR; the hypotheses hold there, with one
acknowledged observation. -/
example (env : Env) (hord : ∀ l, (env.ord l).Perm l) : ∃ σ₀ σ, ServerConc.Steps env demoConfs ServerConc.init σ₀ ∧
    ServerConc.Steps env demoConfs σ₀ σ ∧ Unwrapped σ ∧
    σ.reqs = [Step.posted [countryLine (asc "FR")], .other (askFor (asc "country") (countryQuery (asc "FR")))].map Step.request ∧
    acknowledged [.posted [countryLine (asc "FR")], .other (askFor (asc "country") (countryQuery (asc "FR")))] σ₀ = [[⟨asc "country", asc "FR"⟩]] ∧
    (∀ x, x < Demo.slots → (σ.stores 0).m.keys x = 12582602682680778473 → 8 * Demo.country.recordMeasures.length ≤ x) ∧
    (1, Reply.ok (echo [⟨asc "country", asc "FR"⟩] ++ countLine env 1)) ∈ σ.replies := by
  have hpos : ∀ c ∈ demoConfs, 0 < c.slots := by
    intro c hc
    simp only [demoConfs, List.mem_cons, List.not_mem_nil, or_false] at hc
    rcases hc with rfl | rfl <;> (show 0 < Demo.slots; decide)
  have hw : Writable (asc "FR") := ⟨by decide +kernel, by decide +kernel, by decide +kernel, by decide +kernel⟩
  have hk : keyValue [⟨asc "country", asc "FR"⟩] Demo.country.keys = some 12582602682680778473 := by decide +kernel
  have hcor := countryLine_correct hw
  obtain ⟨σ₀, a1, a2, a3, a4, a5, a6, a7⟩ := C68_alone env demoConfs hpos ServerConc.init (.refl _) 0 rfl (fun _ => rfl) _ demo_agrees
    (Step.posted [countryLine (asc "FR")]).request _ _ (demo_post env hw hk (by decide)) (by simp) (by simp)
  have hans := demo_ask env hord hw hk (by decide) (c' := asc "FR") (by decide +kernel) (by decide +kernel) (by decide +kernel)
  rw [demo_post env hw hk (by decide), country_answers,
    C48_counts_partial env.lib Demo.country country_valid (by decide) Demo.slots (by decide) _ (apart_one _ _ _) _ _ hk (by decide) (by decide)
      (by rw [country_size]; decide), seen_first env.lib _ _ hk (by decide), rowsFor_seen hk, if_neg (by simp)] at hans
  unfold countIs at hans
  simp only at hans
  have hans' := hans.trans (congrArg Reply.ok (render_count env _ 1))
  have hsame : Server.serve env [(writes env.lib (newStore Demo.country Demo.slots) [seenCountry (asc "FR")]).1, newStore Demo.tz Demo.slots]
      (askFor (asc "country") (countryQuery (asc "FR"))) =
      ([(writes env.lib (newStore Demo.country Demo.slots) [seenCountry (asc "FR")]).1, newStore Demo.tz Demo.slots], _) :=
    Prod.ext (by
      rw [serve_collation env _ (askFor (asc "country") (countryQuery (asc "FR"))) rfl (asc "country") rfl
        (.inl (clean_collation (asc "country") country_name.noslash country_name.nodot country_name.nodots))]
      split
      · rfl
      split
      · rfl
      split <;> rfl) hans'
  obtain ⟨σ, b1, b2, b3, b4, b5, b6, b7⟩ := C68_alone env demoConfs hpos σ₀ a1 1 (by rw [a5]; rfl) (fun s => by rw [a6]; rfl) _ a2 _ _ _ hsame
    (by simp) (by simp)
  refine ⟨σ₀, σ, a1, b1, ?_, ?_, ?_, ?_, ?_⟩
  · intro s i buf d hm
    rcases b7 s i true buf d hm with h | rfl
    · rcases a7 s i true buf d h with h | rfl
      · simp [ServerConc.init, StoreConc.init, BufmapConc.init] at h
      · decide
    · decide
  · rw [b3, a3]; rfl
  · unfold acknowledged
    simp [Acked, a4, ServerConc.init, Step.posts, countryLine]
  · intro x hx hkx
    obtain ⟨L, D, pos, h, hD⟩ := laid_compile Demo.country country_valid
    have hg := good_writes (l := Demo.slots) env.lib h [seenCountry (asc "FR")] (good_new h (by decide))
    have hsl := (b2.store 0 _ _ rfl rfl).2
    rw [hsl.keyAt hx] at hkx
    have hs := (Bufmap.slotOf_eq hg.wf (by decide)).2 ⟨hx, hkx⟩
    have := home_run env.lib h (l := Demo.slots) (by decide) [seenCountry (asc "FR")] (apart_one _ _ _)
      (k := 12582602682680778473) (by decide) (x := x) hs
    rw [this]
    decide
  · rw [b4, a3]
    exact List.mem_append_right _ (List.mem_singleton.2 rfl)

end Starbow.Props
