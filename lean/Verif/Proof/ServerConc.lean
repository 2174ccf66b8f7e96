import Verif.Model.ServerConc
import Verif.Proof.StoreAlone
/- The concurrent server: what every run of it keeps. -/
namespace Starbow.ServerConc
open Starbow Starbow.Collation Starbow.Server Starbow.Cell Starbow.Probe Starbow.BufmapConc

variable {env : Env} {confs : List Conf}

theorem pre {α : Type} (a : List α) : a <+: a := List.prefix_refl a

/-- the history of `σ'` continues that of `σ` -/
structure Ext (σ σ' : State) : Prop where
  reqs : σ.reqs <+: σ'.reqs
  replies : σ.replies <+: σ'.replies
  origin : ∀ s, σ.origin s <+: σ'.origin s
  calls : ∀ s, (σ.stores s).calls <+: (σ'.stores s).calls
  rets : ∀ s, (σ.stores s).m.rets <+: (σ'.stores s).m.rets

theorem Ext.refl (σ : State) : Ext σ σ := ⟨pre _, pre _, fun _ => pre _, fun _ => pre _, fun _ => pre _⟩

theorem Ext.trans {a b c : State} (h : Ext a b) (h' : Ext b c) : Ext a c :=
  ⟨h.reqs.trans h'.reqs, h.replies.trans h'.replies, fun s => (h.origin s).trans (h'.origin s), fun s => (h.calls s).trans (h'.calls s),
    fun s => (h.rets s).trans (h'.rets s)⟩

theorem prefix_get {α : Type} {a b : List α} (h : a <+: b) {i : Nat} {x : α} (hx : a[i]? = some x) : b[i]? = some x := by
  obtain ⟨c, rfl⟩ := h
  rw [List.getElem?_append_left (List.getElem?_eq_some_iff.1 hx).1]; exact hx

theorem call_rets (m : BufmapConc.State) (t : Nat) (op : Op) : m.rets <+: (BufmapConc.call m t op).rets := by
  unfold BufmapConc.call
  cases op with
  | upd k fn =>
    simp only
    split
    · exact List.prefix_append _ _
    · exact List.prefix_refl _
  | get k buf => exact List.prefix_refl _

theorem ext_goto (σ : State) (t : Nat) (p : PC) : Ext σ (σ.goto t p) :=
  ⟨pre _, pre _, fun _ => pre _, fun _ => pre _, fun _ => pre _⟩

theorem ext_reply (σ : State) (t j : Nat) (r : Reply) : Ext σ (σ.reply t j r) :=
  ⟨pre _, List.prefix_append _ _, fun _ => pre _, fun _ => pre _, fun _ => pre _⟩

theorem ext_enter (σ : State) (t s : Nat) (op : Op) (x : StoreConc.Call) (o : Nat × Nat) (p : PC) :
    Ext σ (σ.enter t s ⟨BufmapConc.call (σ.stores s).m t op, (σ.stores s).calls ++ [x]⟩ o p) := by
  refine ⟨pre _, pre _, ?_, ?_, ?_⟩ <;> intro s' <;> unfold State.enter <;> simp only <;> by_cases h : s' = s
  · subst h; rw [upd_same]; exact List.prefix_append _ _
  · rw [upd_other _ _ h]; exact pre _
  · subst h; rw [upd_same]; exact List.prefix_append _ _
  · rw [upd_other _ _ h]; exact pre _
  · subst h; rw [upd_same]; exact call_rets _ _ _
  · rw [upd_other _ _ h]; exact pre _

theorem ext_step {σ σ' : State} (h : Step env confs σ σ') : Ext σ σ' := by
  cases h with
  | receive t req h =>
    unfold State.receive
    simp only
    have h1 : Ext σ { σ with reqs := σ.reqs ++ [req] } :=
      ⟨List.prefix_append _ _, pre _, fun _ => pre _, fun _ => pre _, fun _ => pre _⟩
    split
    · exact h1.trans (ext_reply _ _ _ _)
    · exact h1.trans (ext_goto _ _ _)
    · exact h1.trans (ext_goto _ _ _)
  | finish t j p e h => exact ext_reply _ _ _ _
  | cancelLine t j p line ls e h hc => exact ext_reply _ _ _ _
  | parse t j p line ls e h =>
    unfold State.parse
    split
    · exact ext_reply _ _ _ _
    · exact ext_reply _ _ _ _
    · exact ext_goto _ _ _
  | stored t j p ls e r h => exact ext_goto _ _ _
  | skip t j p ls e r s c h hs hk => exact ext_goto _ _ _
  | cancelWrite t j p ls e r s c k h hs hk hc => exact ext_reply _ _ _ _
  | write t j p ls e r s c k fn h hs hi hk hf => exact ext_enter _ _ _ _ _ _ _
  | wrote t j p ls e r s i ret err h hr he =>
    split
    · exact ext_goto _ _ _
    · exact ext_reply _ _ _ _
  | noKey t j q s c h hs hk => exact ext_reply _ _ _ _
  | noBuffer t j q s c k h hs hk hn => exact ext_reply _ _ _ _
  | read t j q s c k h hs hi hk hn => exact ext_enter _ _ _ _ _ _ _
  | answer t j q s i c ret out h hs hr ho => exact ext_reply _ _ _ _
  | inside t s c m' hs h =>
    refine ⟨pre _, pre _, fun _ => pre _, ?_, ?_⟩ <;> intro s' <;> simp only <;> by_cases e : s' = s
    · subst e; rw [upd_same]; exact pre _
    · rw [upd_other _ _ e]; exact pre _
    · subst e; rw [upd_same]
      simp only
      rcases StoreConc.step_rets h with e | ⟨r, e⟩
      · rw [e]; exact pre _
      · rw [e]; exact List.prefix_append _ _
    · rw [upd_other _ _ e]; exact pre _

theorem ext_steps {σ σ' : State} (h : Steps env confs σ σ') : Ext σ σ' := by
  induction h with
  | refl => exact Ext.refl _
  | tail _ h1 ih => exact ih.trans (ext_step h1)

theorem Steps.trans {a b c : State} (h : Steps env confs a b) (h' : Steps env confs b c) : Steps env confs a c := by
  induction h' with
  | refl => exact h
  | tail _ h1 ih => exact .tail ih h1

/-- a run of the server is a run of each of its stores -/
theorem step_store {σ σ' : State} (h : Step env confs σ σ') {s : Nat} {c : Conf} (hc : confs[s]? = some c) :
    StoreConc.Steps env.lib c.coll c.slots (σ.stores s) (σ'.stores s) := by
  have same : ∀ {x : StoreConc.State}, x = σ.stores s → StoreConc.Steps env.lib c.coll c.slots (σ.stores s) x := by
    rintro x rfl; exact .refl _
  cases h with
  | receive t req h =>
    apply same; unfold State.receive; simp only; split <;> rfl
  | finish t j p e h => exact same rfl
  | cancelLine t j p line ls e h hc => exact same rfl
  | parse t j p line ls e h => apply same; unfold State.parse; split <;> rfl
  | stored t j p ls e r h => exact same rfl
  | skip t j p ls e r s c h hs hk => exact same rfl
  | cancelWrite t j p ls e r s c k h hs hk hc => exact same rfl
  | write t j p ls e r s' c' k fn h hs hi hk hf =>
    unfold State.enter; simp only
    by_cases e : s = s'
    · subst e
      rw [hc] at hs
      obtain rfl := Option.some.inj hs
      rw [upd_same]
      exact .tail (.refl _) (.write _ t r k fn hi hk hf)
    · exact same (upd_other _ _ e)
  | wrote t j p ls e r s i ret err h hr he => apply same; split <;> rfl
  | noKey t j q s c h hs hk => exact same rfl
  | noBuffer t j q s c k h hs hk hn => exact same rfl
  | read t j q s' c' k h hs hi hk hn =>
    unfold State.enter; simp only
    by_cases e : s = s'
    · subst e
      rw [hc] at hs
      obtain rfl := Option.some.inj hs
      rw [upd_same]
      exact .tail (.refl _) (.read _ t q k hi hk)
    · exact same (upd_other _ _ e)
  | answer t j q s i c ret out h hs hr ho => exact same rfl
  | inside t s' c' m' hs h =>
    by_cases e : s = s'
    · subst e
      rw [hc] at hs
      obtain rfl := Option.some.inj hs
      simp only; rw [upd_same]
      exact .tail (.refl _) (.step _ t m' h)
    · exact same (upd_other _ _ e)

theorem steps_store {σ σ' : State} (h : Steps env confs σ σ') {s : Nat} {c : Conf} (hc : confs[s]? = some c) :
    StoreConc.Steps env.lib c.coll c.slots (σ.stores s) (σ'.stores s) := by
  induction h with
  | refl => exact .refl _
  | tail _ h1 ih => exact ih.trans (step_store h1 hc)

/-! ### the invariant -/

/-- line `p` of request `j` is the row `r` -/
def LineIs (env : Env) (confs : List Conf) (σ : State) (j p : Nat) (r : Row) : Prop :=
  ∃ req ls e line, σ.reqs[j]? = some req ∧ task env confs req = .observe ls e ∧ ls[p]? = some line ∧ parseRow line = .val (.ok r)

/-- call `i` of store `s` was made by line `p` of request `j` to write `r` -/
def Made (σ : State) (s i j p : Nat) (r : Row) : Prop :=
  (σ.origin s)[i]? = some (j, p) ∧ (σ.stores s).calls[i]? = some (.write r)

/-- line `p` of request `j` is done with store `s` -/
def Done (env : Env) (confs : List Conf) (σ : State) (j p s : Nat) : Prop :=
  ∃ r c, LineIs env confs σ j p r ∧ confs[s]? = some c ∧
    (keyValue r.data c.coll.keys = none ∨ ∃ i, Made σ s i j p r ∧ (i, Ret.ran none) ∈ (σ.stores s).m.rets)

/-- request `j` has not reached line `p` and store `s` yet -/
def Below (σ : State) (j p s : Nat) : Prop := ∀ s' i p' r, Made σ s' i j p' r → p' < p ∨ p' = p ∧ s' < s

theorem Ext.lineIs {σ σ' : State} (h : Ext σ σ') {j p : Nat} {r : Row} (hl : LineIs env confs σ j p r) : LineIs env confs σ' j p r := by
  obtain ⟨req, ls, e, line, h1, h2⟩ := hl
  exact ⟨req, ls, e, line, prefix_get h.reqs h1, h2⟩

theorem Ext.made {σ σ' : State} (h : Ext σ σ') {s i j p : Nat} {r : Row} (hm : Made σ s i j p r) : Made σ' s i j p r :=
  ⟨prefix_get (h.origin s) hm.1, prefix_get (h.calls s) hm.2⟩

theorem Ext.done {σ σ' : State} (h : Ext σ σ') {j p s : Nat} (hd : Done env confs σ j p s) : Done env confs σ' j p s := by
  obtain ⟨r, c, h1, h2, h3⟩ := hd
  refine ⟨r, c, h.lineIs h1, h2, ?_⟩
  rcases h3 with h3 | ⟨i, h3, h4⟩
  · exact .inl h3
  · exact .inr ⟨i, h.made h3, (h.rets s).subset h4⟩

/-- where the goroutines are -/
def PcOk (env : Env) (confs : List Conf) (σ : State) : PC → Prop
  | .idle => True
  | .lines j p ls e => ∃ req all, σ.reqs[j]? = some req ∧ task env confs req = .observe all e ∧ ls = all.drop p ∧
      (∀ p' < p, ∀ s < confs.length, Done env confs σ j p' s) ∧ Below σ j p 0
  | .row j p ls e r s => ∃ req all line, σ.reqs[j]? = some req ∧ task env confs req = .observe all e ∧ ls = all.drop (p + 1) ∧
      all[p]? = some line ∧ parseRow line = .val (.ok r) ∧ (∀ p' < p, ∀ s < confs.length, Done env confs σ j p' s) ∧
      (∀ s' < s, Done env confs σ j p s') ∧ Below σ j p s
  | .writing j p ls e r s i => ∃ req all line, σ.reqs[j]? = some req ∧ task env confs req = .observe all e ∧ ls = all.drop (p + 1) ∧
      all[p]? = some line ∧ parseRow line = .val (.ok r) ∧ (∀ p' < p, ∀ s < confs.length, Done env confs σ j p' s) ∧
      (∀ s' < s, Done env confs σ j p s') ∧ Below σ j p (s + 1) ∧ (∃ c, confs[s]? = some c) ∧ Made σ s i j p r
  | .ask j q s => ∃ req, σ.reqs[j]? = some req ∧ task env confs req = .query s q
  | .reading j q s i => ∃ req, σ.reqs[j]? = some req ∧ task env confs req = .query s q ∧ (σ.origin s)[i]? = some (j, 0) ∧
      (σ.stores s).calls[i]? = some (.read q)

/-- the request a goroutine works on -/
def job : PC → Option Nat
  | .idle => none
  | .lines j _ _ _ => some j
  | .row j _ _ _ _ _ => some j
  | .writing j _ _ _ _ _ _ => some j
  | .ask j _ _ => some j
  | .reading j _ _ _ => some j

/-- the reply of a query -/
def QueryOk (env : Env) (confs : List Conf) (σ : State) (j s : Nat) (q : Query) (rep : Reply) : Prop :=
  ∃ c, confs[s]? = some c ∧
    ((keyValue q.criteria c.coll.keys = none ∧ rep = queryReply env q (.val ([], none))) ∨ (c.coll.size < 0 ∧ rep = .panic) ∨
      ∃ i ret out, (σ.origin s)[i]? = some (j, 0) ∧ (σ.stores s).calls[i]? = some (.read q) ∧ (i, ret) ∈ (σ.stores s).m.rets ∧
        StoreConc.readReply env.lib c.coll q ret = some out ∧ rep = queryReply env q out)

/-- the replies -/
structure ReplyOk (env : Env) (confs : List Conf) (σ : State) (j : Nat) (rep : Reply) : Prop where
  req : ∃ req, σ.reqs[j]? = some req
  obs : ∀ req all e b, σ.reqs[j]? = some req → task env confs req = .observe all e → rep = .ok b → req.ctx = none →
    e = none ∧ ∀ p < all.length, ∀ s < confs.length, Done env confs σ j p s
  ask : ∀ req s q, σ.reqs[j]? = some req → task env confs req = .query s q → QueryOk env confs σ j s q rep
  now : ∀ req r, σ.reqs[j]? = some req → task env confs req = .answer r → rep = r

structure Inv (env : Env) (confs : List Conf) (σ : State) : Prop where
  len : ∀ s, (σ.origin s).length = (σ.stores s).calls.length
  olt : ∀ s o, o ∈ σ.origin s → o.1 < σ.reqs.length
  made : ∀ (s i : Nat) (r : Row), (σ.stores s).calls[i]? = some (StoreConc.Call.write r) → ∃ j p, (σ.origin s)[i]? = some (j, p) ∧ LineIs env confs σ j p r
  once : ∀ s i i' j p r r', Made σ s i j p r → Made σ s i' j p r' → i = i'
  pcs : ∀ t, PcOk env confs σ (σ.pc t)
  jobs : ∀ t t' j, job (σ.pc t) = some j → job (σ.pc t') = some j → t = t'
  replies : ∀ j rep, (j, rep) ∈ σ.replies → ReplyOk env confs σ j rep

theorem PcOk.lt {σ : State} {pc : PC} (h : PcOk env confs σ pc) {j : Nat} (hj : job pc = some j) : j < σ.reqs.length := by
  have key : ∀ {i : Nat} {req : Request}, σ.reqs[i]? = some req → some i = some j → j < σ.reqs.length := by
    intro i req h e
    obtain rfl := Option.some.inj e
    exact (List.getElem?_eq_some_iff.1 h).1
  cases pc with
  | idle => simp [job] at hj
  | lines i p ls e => obtain ⟨req, all, h1, _⟩ := h; exact key h1 hj
  | row i p ls e r s => obtain ⟨req, all, line, h1, _⟩ := h; exact key h1 hj
  | writing i p ls e r s n => obtain ⟨req, all, line, h1, _⟩ := h; exact key h1 hj
  | ask i q s => obtain ⟨req, h1, _⟩ := h; exact key h1 hj
  | reading i q s n => obtain ⟨req, h1, _⟩ := h; exact key h1 hj

/-- no new writes for request `j` -/
def NoNew (σ σ' : State) (j : Nat) : Prop := ∀ s i p r, Made σ' s i j p r → Made σ s i j p r

theorem PcOk.frame {σ σ' : State} (hx : Ext σ σ') {pc : PC} (hn : ∀ j, job pc = some j → NoNew σ σ' j) (h : PcOk env confs σ pc) :
    PcOk env confs σ' pc := by
  have below : ∀ {j p s}, NoNew σ σ' j → Below σ j p s → Below σ' j p s := fun hn hb s' i p' r hm => hb s' i p' r (hn _ _ _ _ hm)
  cases pc with
  | idle => trivial
  | lines j p ls e =>
    obtain ⟨req, all, h1, h2, h3, h4, h5⟩ := h
    exact ⟨req, all, prefix_get hx.reqs h1, h2, h3, fun p' hp s hs => hx.done (h4 p' hp s hs), below (hn j rfl) h5⟩
  | row j p ls e r s =>
    obtain ⟨req, all, line, h1, h2, h3, h3', h3'', h4, h5, h6⟩ := h
    exact ⟨req, all, line, prefix_get hx.reqs h1, h2, h3, h3', h3'', fun p' hp s hs => hx.done (h4 p' hp s hs), fun s' hs => hx.done (h5 s' hs),
      below (hn j rfl) h6⟩
  | writing j p ls e r s i =>
    obtain ⟨req, all, line, h1, h2, h3, h3', h3'', h4, h5, h6, h7, h8⟩ := h
    exact ⟨req, all, line, prefix_get hx.reqs h1, h2, h3, h3', h3'', fun p' hp s hs => hx.done (h4 p' hp s hs), fun s' hs => hx.done (h5 s' hs),
      below (hn j rfl) h6, h7, hx.made h8⟩
  | ask j q s => obtain ⟨req, h1, h2⟩ := h; exact ⟨req, prefix_get hx.reqs h1, h2⟩
  | reading j q s i =>
    obtain ⟨req, h1, h2, h3, h4⟩ := h
    exact ⟨req, prefix_get hx.reqs h1, h2, prefix_get (hx.origin s) h3, prefix_get (hx.calls s) h4⟩

theorem ReplyOk.frame {σ σ' : State} (hx : Ext σ σ') {j : Nat} {rep : Reply} (h : ReplyOk env confs σ j rep) : ReplyOk env confs σ' j rep := by
  obtain ⟨req, hreq⟩ := h.req
  have hreq' := prefix_get hx.reqs hreq
  have back : ∀ {x}, σ'.reqs[j]? = some x → σ.reqs[j]? = some x := by
    intro x hx'
    rw [hreq'] at hx'
    rw [hreq, hx']
  refine ⟨⟨req, hreq'⟩, ?_, ?_, ?_⟩
  · intro x all e b h1 h2 h3 h4
    obtain ⟨a, b⟩ := h.obs x all e b (back h1) h2 h3 h4
    exact ⟨a, fun p hp s hs => hx.done (b p hp s hs)⟩
  · intro x s q h1 h2
    obtain ⟨c, h3, h4⟩ := h.ask x s q (back h1) h2
    refine ⟨c, h3, ?_⟩
    rcases h4 with h4 | h4 | ⟨i, ret, out, a1, a2, a3, a4⟩
    · exact .inl h4
    · exact .inr (.inl h4)
    · exact .inr (.inr ⟨i, ret, out, prefix_get (hx.origin s) a1, prefix_get (hx.calls s) a2, (hx.rets s).subset a3, a4⟩)
  · intro x r h1 h2
    exact h.now x r (back h1) h2

/-- a goroutine goes on, all else is as before or new -/
theorem Inv.moved {σ σ' : State} (h : Inv env confs σ) (hx : Ext σ σ') (t : Nat) (hpc : ∀ t', t' ≠ t → σ'.pc t' = σ.pc t')
    (hlen : ∀ s, (σ'.origin s).length = (σ'.stores s).calls.length) (holt : ∀ s o, o ∈ σ'.origin s → o.1 < σ'.reqs.length)
    (hmade : ∀ (s i : Nat) (r : Row), (σ'.stores s).calls[i]? = some (StoreConc.Call.write r) → ∃ j p, (σ'.origin s)[i]? = some (j, p) ∧ LineIs env confs σ' j p r)
    (honce : ∀ s i i' j p r r', Made σ' s i j p r → Made σ' s i' j p r' → i = i')
    (hnew : ∀ t', t' ≠ t → ∀ j, job (σ.pc t') = some j → NoNew σ σ' j) (hok : PcOk env confs σ' (σ'.pc t))
    (hjob : ∀ j, job (σ'.pc t) = some j → ∀ t', t' ≠ t → job (σ.pc t') ≠ some j)
    (hrep : ∀ j rep, (j, rep) ∈ σ'.replies → (j, rep) ∉ σ.replies → ReplyOk env confs σ' j rep) : Inv env confs σ' := by
  refine ⟨hlen, holt, hmade, honce, ?_, ?_, ?_⟩
  · intro t'
    by_cases e : t' = t
    · rw [e]; exact hok
    · rw [hpc t' e]; exact (h.pcs t').frame hx (hnew t' e)
  · intro t1 t2 j h1 h2
    by_cases e1 : t1 = t
    · by_cases e2 : t2 = t
      · rw [e1, e2]
      · subst e1; rw [hpc t2 e2] at h2; exact absurd h2 (hjob j h1 t2 e2)
    · rw [hpc t1 e1] at h1
      by_cases e2 : t2 = t
      · subst e2; exact absurd h1 (hjob j h2 t1 e1)
      · rw [hpc t2 e2] at h2; exact h.jobs t1 t2 j h1 h2
  · intro j rep hm
    by_cases hold : (j, rep) ∈ σ.replies
    · exact (h.replies j rep hold).frame hx
    · exact hrep j rep hm hold

/-- a goroutine goes on without calling a store -/
theorem Inv.goto {σ : State} (h : Inv env confs σ) (t : Nat) (p : PC) (hp : PcOk env confs σ p) (hj : job p = job (σ.pc t)) :
    Inv env confs (σ.goto t p) := by
  refine h.moved (ext_goto σ t p) t (fun t' e => upd_other _ _ e) h.len h.olt h.made h.once (fun _ _ _ _ => fun _ _ _ _ hm => hm) ?_ ?_ ?_
  · show PcOk env confs _ (upd σ.pc t p t)
    rw [upd_same]
    exact hp.frame (ext_goto σ t p) (fun _ _ => fun _ _ _ _ hm => hm)
  · intro j hj' t' e hj''
    rw [show (σ.goto t p).pc t = p from upd_same _ _ _, hj] at hj'
    exact e (h.jobs t' t j hj'' hj')
  · intro j rep h1 h2; exact absurd h1 h2

/-- a goroutine answers its request -/
theorem Inv.reply {σ : State} (h : Inv env confs σ) (t j : Nat) (rep : Reply) (hr : ReplyOk env confs σ j rep) :
    Inv env confs (σ.reply t j rep) := by
  refine h.moved (ext_reply σ t j rep) t (fun t' e => upd_other _ _ e) h.len h.olt h.made h.once (fun _ _ _ _ => fun _ _ _ _ hm => hm) ?_ ?_ ?_
  · show PcOk env confs _ (upd σ.pc t .idle t)
    rw [upd_same]; trivial
  · intro j' hj'
    rw [show (σ.reply t j rep).pc t = .idle from upd_same _ _ _] at hj'
    simp [job] at hj'
  · intro j' rep' h1 h2
    have : (j', rep') = (j, rep) := by
      have : (j', rep') ∈ σ.replies ++ [(j, rep)] := h1
      rw [List.mem_append, List.mem_singleton] at this
      exact this.resolve_left h2
    simp only [Prod.mk.injEq] at this
    obtain ⟨rfl, rfl⟩ := this
    exact hr.frame (ext_reply σ t _ _)

theorem snoc_get {α : Type} {a : List α} {x y : α} {i : Nat} (h : (a ++ [x])[i]? = some y) : a[i]? = some y ∨ (i = a.length ∧ y = x) := by
  by_cases hlt : i < a.length
  · rw [List.getElem?_append_left hlt] at h; exact .inl h
  · rw [List.getElem?_append_right (by omega)] at h
    obtain ⟨h1, h2⟩ := List.getElem?_eq_some_iff.1 h
    simp only [List.length_singleton] at h1
    refine .inr ⟨by omega, ?_⟩
    rw [← h2]; simp

/-- a goroutine calls a store -/
theorem Inv.enter {σ : State} (h : Inv env confs σ) (t s : Nat) (op : Op) (x : StoreConc.Call) (j p : Nat) (pc : PC)
    (hj : job (σ.pc t) = some j) (hpj : job pc = some j)
    (hx : ∀ r, x = .write r → LineIs env confs σ j p r ∧ ∀ i r', ¬ Made σ s i j p r')
    (hok : PcOk env confs (σ.enter t s ⟨BufmapConc.call (σ.stores s).m t op, (σ.stores s).calls ++ [x]⟩ (j, p) pc) pc) :
    Inv env confs (σ.enter t s ⟨BufmapConc.call (σ.stores s).m t op, (σ.stores s).calls ++ [x]⟩ (j, p) pc) := by
  have hext := ext_enter σ t s op x (j, p) pc
  generalize hσ' : σ.enter t s ⟨BufmapConc.call (σ.stores s).m t op, (σ.stores s).calls ++ [x]⟩ (j, p) pc = σ' at *
  have hreqs : σ'.reqs = σ.reqs := by rw [← hσ']; rfl
  have hrepl : σ'.replies = σ.replies := by rw [← hσ']; rfl
  have hpc : σ'.pc = upd σ.pc t pc := by rw [← hσ']; rfl
  have hor : ∀ s', σ'.origin s' = if s' = s then σ.origin s ++ [(j, p)] else σ.origin s' := by
    intro s'; rw [← hσ']; unfold State.enter upd; simp only
  have hca : ∀ s', (σ'.stores s').calls = if s' = s then (σ.stores s).calls ++ [x] else (σ.stores s').calls := by
    intro s'; rw [← hσ']; unfold State.enter upd; simp only; split
    · rfl
    · rfl
  have old : ∀ s' i j' p' r, Made σ' s' i j' p' r → Made σ s' i j' p' r ∨ (s' = s ∧ i = (σ.origin s).length ∧ j' = j ∧ p' = p ∧ x = .write r) := by
    intro s' i j' p' r hm
    unfold Made at hm
    rw [hor, hca] at hm
    by_cases e : s' = s
    · rw [if_pos e, if_pos e] at hm
      obtain ⟨m1, m2⟩ := hm
      subst e
      rcases snoc_get m1 with m1' | ⟨m1', m1''⟩
      · rcases snoc_get m2 with m2' | ⟨m2', _⟩
        · exact .inl ⟨m1', m2'⟩
        · have := (List.getElem?_eq_some_iff.1 m1').1
          rw [h.len, ← m2'] at this; omega
      · rcases snoc_get m2 with m2' | ⟨m2', m2''⟩
        · have := (List.getElem?_eq_some_iff.1 m2').1
          rw [← h.len, ← m1'] at this; omega
        · simp only [Prod.mk.injEq] at m1''
          exact .inr ⟨rfl, m1', m1''.1, m1''.2, m2''.symm⟩
    · rw [if_neg e, if_neg e] at hm
      exact .inl hm
  refine h.moved hext t (fun t' e => by rw [hpc]; exact upd_other _ _ e) ?_ ?_ ?_ ?_ ?_ ?_ ?_ ?_
  · intro s'
    rw [hor, hca]
    split
    · rw [List.length_append, List.length_append, h.len]; rfl
    · exact h.len s'
  · intro s' o ho
    rw [hreqs]
    rw [hor] at ho
    split at ho
    · rw [List.mem_append, List.mem_singleton] at ho
      rcases ho with ho | rfl
      · exact h.olt s o ho
      · exact (h.pcs t).lt hj
    · exact h.olt s' o ho
  · intro s' i r hi
    have horig : i < (σ'.origin s').length := by
      have := (List.getElem?_eq_some_iff.1 hi).1
      rw [hor]; rw [hca] at this
      split
      · next e => rw [if_pos e] at this; rw [List.length_append, h.len]; simpa using this
      · next e => rw [if_neg e] at this; rw [h.len]; exact this
    obtain ⟨⟨j', p'⟩, ho⟩ : ∃ o, (σ'.origin s')[i]? = some o := ⟨_, List.getElem?_eq_getElem horig⟩
    refine ⟨j', p', ho, ?_⟩
    rcases old s' i j' p' r ⟨ho, hi⟩ with hm | ⟨_, _, rfl, rfl, e⟩
    · obtain ⟨j'', p'', h1, h2⟩ := h.made s' i r hm.2
      rw [hm.1] at h1
      simp only [Option.some.injEq, Prod.mk.injEq] at h1
      rw [h1.1, h1.2]
      exact hext.lineIs h2
    · exact hext.lineIs (hx r e).1
  · intro s' i i' j' p' r r' h1 h2
    rcases old _ _ _ _ _ h1 with o1 | ⟨e1, e2, e3, e4, e5⟩
    · rcases old _ _ _ _ _ h2 with o2 | ⟨f1, f2, f3, f4, f5⟩
      · exact h.once _ _ _ _ _ _ _ o1 o2
      · rw [f1, f3, f4] at o1; exact absurd o1 ((hx r' f5).2 _ _)
    · rcases old _ _ _ _ _ h2 with o2 | ⟨f1, f2, f3, f4, f5⟩
      · rw [e1, e3, e4] at o2; exact absurd o2 ((hx r e5).2 _ _)
      · rw [e2, f2]
  · intro t' e j' hj' s' i p' r hm
    rcases old _ _ _ _ _ hm with o | ⟨_, _, rfl, _, _⟩
    · exact o
    · exact absurd (h.jobs t' t _ hj' hj) e
  · rw [show σ'.pc t = pc by rw [hpc]; exact upd_same _ _ _]; exact hok
  · intro j' hj' t' e hj''
    rw [show σ'.pc t = pc by rw [hpc]; exact upd_same _ _ _, hpj] at hj'
    obtain rfl := Option.some.inj hj'
    exact e (h.jobs t' t _ hj'' hj)
  · intro j' rep h1 h2
    rw [hrepl] at h1; exact absurd h1 h2

theorem inv_init : Inv env confs init := by
  refine ⟨fun _ => rfl, ?_, ?_, ?_, fun _ => trivial, ?_, ?_⟩
  · intro s o ho; simp [init] at ho
  · intro s i r hi; simp [init, StoreConc.init] at hi
  · intro s i i' j p r r' h1; have := h1.1; simp [init] at this
  · intro t t' j h1; simp [init, job] at h1
  · intro j rep h1; simp [init] at h1

theorem inv_receive {σ : State} (h : Inv env confs σ) {t : Nat} (ht : σ.pc t = .idle) (req : Request) :
    Inv env confs (σ.receive env confs t req) := by
  have hext : Ext σ { σ with reqs := σ.reqs ++ [req] } :=
    ⟨List.prefix_append _ _, pre _, fun _ => pre _, fun _ => pre _, fun _ => pre _⟩
  have h1 : Inv env confs { σ with reqs := σ.reqs ++ [req] } := by
    refine h.moved hext t (fun _ _ => rfl) h.len ?_ ?_ h.once (fun _ _ _ _ => fun _ _ _ _ hm => hm) ?_ ?_ ?_
    · intro s o ho; have := h.olt s o ho; simp only [List.length_append, List.length_singleton]; omega
    · intro s i r hi
      obtain ⟨j, p, a1, a2⟩ := h.made s i r hi
      exact ⟨j, p, a1, hext.lineIs a2⟩
    · show PcOk env confs _ (σ.pc t)
      rw [ht]; trivial
    · intro j hj; rw [show ({ σ with reqs := σ.reqs ++ [req] } : State).pc t = .idle from ht] at hj; simp [job] at hj
    · intro j rep h1 h2; exact absurd h1 h2
  have hget : (σ.reqs ++ [req])[σ.reqs.length]? = some req := by simp
  have fresh : ∀ (pc : PC), PcOk env confs { σ with reqs := σ.reqs ++ [req] } pc → job pc = some σ.reqs.length →
      Inv env confs (({ σ with reqs := σ.reqs ++ [req] } : State).goto t pc) := by
    intro pc hok hj
    refine h1.moved (ext_goto _ t pc) t (fun t' e => upd_other _ _ e) h1.len h1.olt h1.made h1.once (fun _ _ _ _ => fun _ _ _ _ hm => hm) ?_ ?_ ?_
    · show PcOk env confs _ (upd _ t pc t)
      rw [upd_same]
      exact hok.frame (ext_goto _ t pc) (fun _ _ => fun _ _ _ _ hm => hm)
    · intro j hj' t' e hj''
      rw [show (({ σ with reqs := σ.reqs ++ [req] } : State).goto t pc).pc t = pc from upd_same _ _ _, hj] at hj'
      obtain rfl := Option.some.inj hj'
      have := (h.pcs t').lt hj''
      omega
    · intro j rep h1 h2; exact absurd h1 h2
  unfold State.receive
  simp only
  split
  · next r hr =>
    refine h1.reply t _ r ⟨⟨req, hget⟩, ?_, ?_, ?_⟩
    · intro x all e b hx ht'
      rw [hget] at hx
      obtain rfl := Option.some.inj hx
      rw [hr] at ht'; simp at ht'
    · intro x s q hx ht'
      rw [hget] at hx
      obtain rfl := Option.some.inj hx
      rw [hr] at ht'; simp at ht'
    · intro x r' hx ht'
      rw [hget] at hx
      obtain rfl := Option.some.inj hx
      rw [hr] at ht'
      injection ht'
  · next ls e hr =>
    refine fresh _ ⟨req, ls, hget, hr, by simp, by simp, ?_⟩ rfl
    intro s' i p' r hm
    have := h.olt s' _ (List.mem_of_getElem? hm.1)
    simp at this
  · next s q hr => exact fresh _ ⟨req, hget, hr⟩ rfl

/-- a reply that is not status 200, to a post -/
theorem replyOk_refused {σ : State} {j : Nat} {req : Request} {all : List Bytes} {e : Option Err} {rep : Reply}
    (h1 : σ.reqs[j]? = some req) (h2 : task env confs req = .observe all e) (h3 : ∀ b, rep ≠ .ok b) : ReplyOk env confs σ j rep := by
  refine ⟨⟨req, h1⟩, ?_, ?_, ?_⟩
  · intro x all' e' b hx _ h; exact absurd h (h3 b)
  · intro x s q hx ht
    rw [h1] at hx
    obtain rfl := Option.some.inj hx
    rw [h2] at ht; simp at ht
  · intro x s hx ht
    rw [h1] at hx
    obtain rfl := Option.some.inj hx
    rw [h2] at ht; simp at ht

theorem replyOk_query {σ : State} {j s : Nat} {req : Request} {q : Query} {rep : Reply}
    (h1 : σ.reqs[j]? = some req) (h2 : task env confs req = .query s q) (h3 : QueryOk env confs σ j s q rep) : ReplyOk env confs σ j rep := by
  refine ⟨⟨req, h1⟩, ?_, ?_, ?_⟩
  · intro x all' e' b hx ht
    rw [h1] at hx
    obtain rfl := Option.some.inj hx
    rw [h2] at ht; simp at ht
  · intro x s' q' hx ht
    rw [h1] at hx
    obtain rfl := Option.some.inj hx
    rw [h2] at ht
    injection ht with e1 e2
    rw [← e1, ← e2]; exact h3
  · intro x s hx ht
    rw [h1] at hx
    obtain rfl := Option.some.inj hx
    rw [h2] at ht; simp at ht

theorem inv_step {σ σ' : State} (h : Inv env confs σ) (hs : Step env confs σ σ') : Inv env confs σ' := by
  cases hs with
  | receive t req ht => exact inv_receive h ht req
  | finish t j p e ht =>
    have hp := h.pcs t
    rw [ht] at hp
    obtain ⟨req, all, h1, h2, h3, h4, h5⟩ := hp
    refine h.reply t j _ ?_
    by_cases he : e = none
    · rw [if_pos he]
      refine ⟨⟨req, h1⟩, ?_, ?_, ?_⟩
      · intro x all' e' b hx ht' _ _
        rw [h1] at hx
        obtain rfl := Option.some.inj hx
        rw [h2] at ht'
        injection ht' with e1 e2
        subst e1; subst e2
        refine ⟨he, fun p' hp' s hs => h4 p' ?_ s hs⟩
        have := List.drop_eq_nil_iff.1 h3.symm
        omega
      · intro x s q hx ht'
        rw [h1] at hx
        obtain rfl := Option.some.inj hx
        rw [h2] at ht'; simp at ht'
      · intro x s hx ht'
        rw [h1] at hx
        obtain rfl := Option.some.inj hx
        rw [h2] at ht'; simp at ht'
    · rw [if_neg he]; exact replyOk_refused h1 h2 (by simp)
  | cancelLine t j p line ls e ht hc =>
    have hp := h.pcs t
    rw [ht] at hp
    obtain ⟨req, all, h1, h2, h3, h4, h5⟩ := hp
    obtain ⟨req', hr', hc⟩ := hc
    rw [h1] at hr'
    obtain rfl := Option.some.inj hr'
    refine h.reply t j _ ⟨⟨req, h1⟩, ?_, ?_, ?_⟩
    · intro x all' e' b hx ht' _ hctx
      rw [h1] at hx
      obtain rfl := Option.some.inj hx
      exact absurd hctx hc
    · intro x s q hx ht'
      rw [h1] at hx
      obtain rfl := Option.some.inj hx
      rw [h2] at ht'; simp at ht'
    · intro x s hx ht'
      rw [h1] at hx
      obtain rfl := Option.some.inj hx
      rw [h2] at ht'; simp at ht'
  | parse t j p line ls e ht =>
    have hp := h.pcs t
    rw [ht] at hp
    obtain ⟨req, all, h1, h2, h3, h4, h5⟩ := hp
    unfold State.parse
    split
    · exact h.reply t j _ (replyOk_refused h1 h2 (by simp))
    · exact h.reply t j _ (replyOk_refused h1 h2 (by simp))
    · next r hr =>
      refine h.goto t _ ⟨req, all, line, h1, h2, ?_, ?_, hr, h4, by simp, h5⟩ (by rw [ht]; rfl)
      · rw [← List.drop_drop, ← h3]; rfl
      · have := congrArg (·[0]?) h3
        simp only [List.getElem?_cons_zero, List.getElem?_drop, Nat.add_zero] at this
        exact this.symm
  | stored t j p ls e r ht =>
    have hp := h.pcs t
    rw [ht] at hp
    obtain ⟨req, all, line, h1, h2, h3, h3', h3'', h4, h5, h6⟩ := hp
    refine h.goto t _ ⟨req, all, h1, h2, h3, ?_, ?_⟩ (by rw [ht]; rfl)
    · intro p' hp' s hs
      by_cases e : p' = p
      · rw [e]; exact h5 s hs
      · exact h4 p' (by omega) s hs
    · intro s' i p' r' hm
      rcases h6 s' i p' r' hm with h | ⟨h, _⟩ <;> omega
  | skip t j p ls e r s c ht hs hk =>
    have hp := h.pcs t
    rw [ht] at hp
    obtain ⟨req, all, line, h1, h2, h3, h3', h3'', h4, h5, h6⟩ := hp
    refine h.goto t _ ⟨req, all, line, h1, h2, h3, h3', h3'', h4, ?_, ?_⟩ (by rw [ht]; rfl)
    · intro s' hs'
      by_cases e' : s' = s
      · rw [e']; exact ⟨r, c, ⟨req, all, e, line, h1, h2, h3', h3''⟩, hs, .inl hk⟩
      · exact h5 s' (by omega)
    · intro s' i p' r' hm
      rcases h6 s' i p' r' hm with h | ⟨h, h'⟩
      · exact .inl h
      · exact .inr ⟨h, by omega⟩
  | cancelWrite t j p ls e r s c k ht hs hk hc =>
    have hp := h.pcs t
    rw [ht] at hp
    obtain ⟨req, all, line, h1, h2, _⟩ := hp
    exact h.reply t j _ (replyOk_refused h1 h2 (by simp))
  | write t j p ls e r s c k fn ht hs hi hk hf =>
    have hp := h.pcs t
    rw [ht] at hp
    obtain ⟨req, all, line, h1, h2, h3, h3', h3'', h4, h5, h6⟩ := hp
    have hext := ext_enter σ t s (.upd k fn) (.write r) (j, p) (.writing j p ls e r s (σ.stores s).calls.length)
    refine h.enter t s _ _ j p _ (by rw [ht]; rfl) rfl ?_ ?_
    · intro r' hr'
      injection hr' with hr'
      subst hr'
      refine ⟨⟨req, all, e, line, h1, h2, h3', h3''⟩, fun i r' hm => ?_⟩
      rcases h6 s i p r' hm with h | ⟨_, h⟩ <;> omega
    · refine ⟨req, all, line, h1, h2, h3, h3', h3'', fun p' hp' s' hs' => hext.done (h4 p' hp' s' hs'), fun s' hs' => hext.done (h5 s' hs'), ?_,
        ⟨c, hs⟩, ?_⟩
      · intro s' i p' r' hm
        by_cases e' : s' = s
        · subst e'
          by_cases ep : p' = p
          · exact .inr ⟨ep, by omega⟩
          · left
            obtain ⟨m1, m2⟩ := hm
            unfold State.enter at m1 m2
            simp only at m1 m2
            rw [upd_same] at m1 m2
            rcases snoc_get m1 with m1' | ⟨_, m1''⟩
            · rcases snoc_get m2 with m2' | ⟨m2', _⟩
              · rcases h6 s' i p' r' ⟨m1', m2'⟩ with h | ⟨h, _⟩
                · exact h
                · exact absurd h ep
              · have := (List.getElem?_eq_some_iff.1 m1').1
                rw [h.len, ← m2'] at this; omega
            · simp only [Prod.mk.injEq] at m1''
              exact absurd m1''.2 ep
        · have hm' : Made σ s' i j p' r' := by
            obtain ⟨m1, m2⟩ := hm
            unfold State.enter at m1 m2
            simp only at m1 m2
            rw [upd_other _ _ e'] at m1 m2
            exact ⟨m1, m2⟩
          rcases h6 s' i p' r' hm' with h | ⟨h, h'⟩
          · exact .inl h
          · exact .inr ⟨h, by omega⟩
      · unfold State.enter Made
        simp only
        rw [upd_same, upd_same]
        refine ⟨?_, by simp⟩
        rw [← h.len]; simp
  | wrote t j p ls e r s i ret err ht hr he =>
    have hp := h.pcs t
    rw [ht] at hp
    obtain ⟨req, all, line, h1, h2, h3, h3', h3'', h4, h5, h6, ⟨c, h7⟩, h8⟩ := hp
    split
    · next hn =>
      subst hn
      have hran : ret = .ran none := by
        cases ret with
        | ran e => injection he with h; rw [h]
        | invalidKey => simp [StoreConc.writeReply] at he
        | outOfSlots => simp [StoreConc.writeReply] at he
        | got _ _ _ => simp [StoreConc.writeReply] at he
      refine h.goto t _ ⟨req, all, line, h1, h2, h3, h3', h3'', h4, ?_, h6⟩ (by rw [ht]; rfl)
      intro s' hs'
      by_cases e' : s' = s
      · rw [e']; exact ⟨r, c, ⟨req, all, e, line, h1, h2, h3', h3''⟩, h7, .inr ⟨i, h8, by rw [← hran]; exact hr⟩⟩
      · exact h5 s' (by omega)
    · exact h.reply t j _ (replyOk_refused h1 h2 (by simp))
  | noKey t j q s c ht hs hk =>
    have hp := h.pcs t
    rw [ht] at hp
    obtain ⟨req, h1, h2⟩ := hp
    exact h.reply t j _ (replyOk_query h1 h2 ⟨c, hs, .inl ⟨hk, rfl⟩⟩)
  | noBuffer t j q s c k ht hs hk hn =>
    have hp := h.pcs t
    rw [ht] at hp
    obtain ⟨req, h1, h2⟩ := hp
    exact h.reply t j _ (replyOk_query h1 h2 ⟨c, hs, .inr (.inl ⟨hn, rfl⟩)⟩)
  | read t j q s c k ht hs hi hk hn =>
    have hp := h.pcs t
    rw [ht] at hp
    obtain ⟨req, h1, h2⟩ := hp
    refine h.enter t s _ _ j 0 _ (by rw [ht]; rfl) rfl (by simp) ⟨req, h1, h2, ?_, ?_⟩
    · unfold State.enter
      simp only
      rw [upd_same, ← h.len]; simp
    · unfold State.enter
      simp only
      rw [upd_same]; simp
  | answer t j q s i c ret out ht hs hr ho =>
    have hp := h.pcs t
    rw [ht] at hp
    obtain ⟨req, h1, h2, h3, h4⟩ := hp
    exact h.reply t j _ (replyOk_query h1 h2 ⟨c, hs, .inr (.inr ⟨i, ret, out, h3, h4, hr, ho, rfl⟩)⟩)
  | inside t s c m' hs hm =>
    have hca : ∀ s', ((upd σ.stores s ⟨m', (σ.stores s).calls⟩) s').calls = (σ.stores s').calls := by
      intro s'
      by_cases e : s' = s
      · subst e; rw [upd_same]
      · rw [upd_other _ _ e]
    have back : ∀ s' i j p r, Made { σ with stores := upd σ.stores s ⟨m', (σ.stores s).calls⟩ } s' i j p r → Made σ s' i j p r := by
      intro s' i j p r hm'
      refine ⟨hm'.1, ?_⟩
      rw [← hca]; exact hm'.2
    have hext := ext_step (Step.inside (env := env) σ t s c m' hs hm)
    refine h.moved hext t (fun _ _ => rfl) ?_ h.olt ?_ ?_ (fun _ _ _ _ => fun _ _ _ _ => back _ _ _ _ _) ?_ ?_ ?_
    · intro s'; rw [hca]; exact h.len s'
    · intro s' i r hi
      rw [hca] at hi
      exact h.made s' i r hi
    · intro s' i i' j p r r' h1 h2
      exact h.once _ _ _ _ _ _ _ (back _ _ _ _ _ h1) (back _ _ _ _ _ h2)
    · exact (h.pcs t).frame hext (fun _ _ => fun _ _ _ _ => back _ _ _ _ _)
    · intro j hj t' e hj'
      exact e (h.jobs t' t j hj' hj)
    · intro j rep h1 h2; exact absurd h1 h2

theorem inv_steps {σ σ' : State} (h : Inv env confs σ) (hs : Steps env confs σ σ') : Inv env confs σ' := by
  induction hs with
  | refl => exact h
  | tail _ h1 ih => exact inv_step ih h1

theorem inv_reach {σ : State} (hs : Steps env confs init σ) : Inv env confs σ := inv_steps inv_init hs

end Starbow.ServerConc
