import Verif.Props.Answer
import Verif.Props.ServerConc
/-
Property C82 under concurrent requests.
-/
namespace Starbow.Props
open Starbow.Collation Starbow.Spec Starbow.Storage Starbow.Server Starbow.ServerConc Starbow.Cell Starbow.Probe

/-- The two replies are the same but for the order of the lines of different fields in a successful answer; of two failed queries, one may be answered 500 and the other panic. -/
def SameButOrder (env : Env) (rep rep' : Reply) : Prop :=
  (∃ crit res res', rep = .ok (answerBody env crit res) ∧ rep' = .ok (answerBody env crit res') ∧ ∀ f, res'.filter (fun x => x.f = f) = res.filter (fun x => x.f = f)) ∨
  rep' = rep ∨ ((rep = .refused 500 ∨ rep = .panic) ∧ (rep' = .refused 500 ∨ rep' = .panic))

/-- the same query but for the order of the fields -/
def QueryLike (q q' : Query) : Prop := q'.criteria = q.criteria ∧ q'.fieldMeasures.Perm q.fieldMeasures ∧ (q.fieldMeasures.map FM.f).Nodup

/-- the goroutines are at the same point, with queries that differ in the order of the fields -/
inductive PCOrder : PC → PC → Prop where
  | idle : PCOrder .idle .idle
  | lines (j p : Nat) (ls : List Bytes) (e : Option Err) : PCOrder (.lines j p ls e) (.lines j p ls e)
  | row (j p : Nat) (ls : List Bytes) (e : Option Err) (r : Row) (s : Nat) : PCOrder (.row j p ls e r s) (.row j p ls e r s)
  | writing (j p : Nat) (ls : List Bytes) (e : Option Err) (r : Row) (s i : Nat) : PCOrder (.writing j p ls e r s i) (.writing j p ls e r s i)
  | ask (j : Nat) {q q' : Query} (h : QueryLike q q') (s : Nat) : PCOrder (.ask j q s) (.ask j q' s)
  | reading (j : Nat) {q q' : Query} (h : QueryLike q q') (s i : Nat) : PCOrder (.reading j q s i) (.reading j q' s i)

/-- what a query of the map's result reads -/
theorem answer_order (env : Env) (ord' : List FM → List FM) (c : Collator) {q q' : Query} (h : QueryLike q q') (ret : BufmapConc.Ret) {out : Out (List FMV × Option Err)}
    (ho : StoreConc.readReply env.lib c q ret = some out) :
    ∃ out', StoreConc.readReply env.lib c q' ret = some out' ∧ SameButOrder env (queryReply env q out) (queryReply { env with ord := ord' } q' out') := by
  obtain ⟨hc, hp, hn⟩ := h
  have hn' : (q'.fieldMeasures.map FM.f).Nodup := (hp.map FM.f).nodup_iff.2 hn
  have good : ∀ res res' : List FMV, (∀ f, res'.filter (fun x => x.f = f) = res.filter (fun x => x.f = f)) →
      SameButOrder env (queryReply env q (.val (res, none))) (queryReply { env with ord := ord' } q' (.val (res', none))) := by
    intro res res' hf
    refine .inl ⟨q.criteria, res, res', ?_, ?_, hf⟩
    · show Reply.ok _ = Reply.ok _
      rw [render_echo, answerBody, List.flatMap_map]
    · show Reply.ok _ = Reply.ok _
      rw [render_echo, answerBody, List.flatMap_map, hc]
      rfl
  have bad : ∀ o : Out (List FMV × Option Err), (∀ r, o ≠ .val (r, none)) → ∀ (env : Env) (q : Query), queryReply env q o = .refused 500 ∨ queryReply env q o = .panic := by
    intro o hb env q
    rcases o with ⟨r, _ | e⟩ | _
    · exact absurd rfl (hb r)
    · exact .inl rfl
    · exact .inr rfl
  cases ret with
  | ran e => simp [StoreConc.readReply] at ho
  | invalidKey => simp [StoreConc.readReply] at ho
  | outOfSlots => simp [StoreConc.readReply] at ho
  | got fnd buf d =>
    cases fnd with
    | false =>
      obtain rfl := Option.some.inj ho
      exact ⟨_, rfl, good [] [] fun _ => rfl⟩
    | true =>
      obtain rfl := Option.some.inj ho
      refine ⟨_, rfl, ?_⟩
      rcases h1 : Collation.read env.lib c q.fieldMeasures buf with ⟨r, _ | e⟩ | _
      · obtain ⟨r', h2, h3⟩ := read_order env.lib c buf _ _ hn hp r h1
        rw [h2]
        exact good r r' h3
      all_goals
        refine .inr (.inr ⟨bad _ (by simp) _ _, bad _ ?_ _ _⟩)
        intro r' h2
        obtain ⟨r'', h3, _⟩ := read_order env.lib c buf _ _ hn' hp.symm r' h2
        rw [h1] at h3; simp at h3

/-- The servers differ only in the order of fields within queries. -/
structure OrderLike (env : Env) (σ σ' : ServerConc.State) : Prop where
  mem : ∀ s, (σ'.stores s).m = (σ.stores s).m
  calls : ∀ s, (σ'.stores s).calls.length = (σ.stores s).calls.length
  pc : ∀ t, PCOrder (σ.pc t) (σ'.pc t)
  replies : List.Forall₂ (fun a b => b.1 = a.1 ∧ SameButOrder env a.2 b.2) σ.replies σ'.replies
  reqs : σ'.reqs = σ.reqs

theorem PCOrder.of_idle {p : PC} (h : PCOrder .idle p) : p = .idle := by cases h; rfl

theorem PCOrder.of_lines {p : PC} {j a : Nat} {ls : List Bytes} {e : Option Err} (h : PCOrder (.lines j a ls e) p) : p = .lines j a ls e := by cases h; rfl

theorem PCOrder.of_row {p : PC} {j a : Nat} {ls : List Bytes} {e : Option Err} {r : Row} {s : Nat} (h : PCOrder (.row j a ls e r s) p) : p = .row j a ls e r s := by
  cases h; rfl

theorem PCOrder.of_writing {p : PC} {j a : Nat} {ls : List Bytes} {e : Option Err} {r : Row} {s i : Nat} (h : PCOrder (.writing j a ls e r s i) p) :
    p = .writing j a ls e r s i := by cases h; rfl

theorem PCOrder.of_ask {p : PC} {j : Nat} {q : Query} {s : Nat} (h : PCOrder (.ask j q s) p) : ∃ q', p = .ask j q' s ∧ QueryLike q q' := by
  cases h with | ask _ h => exact ⟨_, rfl, h⟩

theorem PCOrder.of_reading {p : PC} {j : Nat} {q : Query} {s i : Nat} (h : PCOrder (.reading j q s i) p) : ∃ q', p = .reading j q' s i ∧ QueryLike q q' := by
  cases h with | reading _ h => exact ⟨_, rfl, h⟩

/-- the tasks set by a request -/
theorem task_order (env : Env) (ord' : List FM → List FM) (hord : ∀ l, (env.ord l).Perm l) (hord' : ∀ l, (ord' l).Perm l) (confs : List Conf) (req : Request) :
    task { env with ord := ord' } confs req = task env confs req ∨
      ∃ s q q', task env confs req = .query s q ∧ task { env with ord := ord' } confs req = .query s q' ∧ QueryLike q q' := by
  unfold task
  split
  · exact .inl rfl
  split
  · exact .inl rfl
  split
  · exact .inl rfl
  split
  · simp only
    split
    · exact .inl rfl
    split
    · exact .inl rfl
    split
    · exact .inl rfl
    unfold ServerConc.lookup
    simp only
    rcases parse_order hord hord' (req.form (asc "q")) with ⟨h1, h2⟩ | ⟨q, q', h1, h2, hc, hp, hn⟩
    · rw [h1, h2]; exact .inl rfl
    · rw [h1, h2]
      simp only
      split
      · exact .inl rfl
      · exact .inr ⟨_, _, _, rfl, rfl, hc, hp, hn⟩
  · exact .inl rfl

/-- a query always says which fields it has once each -/
theorem task_query_like (env : Env) (hord : ∀ l, (env.ord l).Perm l) (confs : List Conf) (req : Request) {s : Nat} {q : Query} (h : task env confs req = .query s q) :
    QueryLike q q := by
  rcases task_order env env.ord hord hord confs req with _ | ⟨s', q1, q2, h1, h2, h3⟩
  · unfold task at h
    split at h
    · simp at h
    split at h
    · simp at h
    split at h
    · split at h
      · unfold observation at h
        split at h
        · simp at h
        · split at h
          · split at h <;> simp [observeBody] at h
          · split at h <;> simp [observeBody] at h
      · simp at h
    split at h
    · simp only at h
      split at h
      · simp at h
      split at h
      · simp at h
      split at h
      · simp at h
      unfold ServerConc.lookup at h
      rcases parse_order hord hord (req.form (asc "q")) with ⟨h1, _⟩ | ⟨q1, q2, h1, h2, _, _, hn⟩
      · rw [h1] at h; simp at h
      · rw [h1] at h
        simp only at h
        split at h
        · simp at h
        · obtain ⟨-, rfl⟩ := Task.query.inj h
          exact ⟨rfl, .refl _, hn⟩
    · split at h <;> simp at h
  · rw [h] at h1
    obtain ⟨-, rfl⟩ := Task.query.inj h1
    exact ⟨rfl, .refl _, h3.2.2⟩

theorem mayCancel_order {env : Env} {σ σ' : ServerConc.State} (hl : OrderLike env σ σ') {j : Nat} (h : σ.MayCancel j) : σ'.MayCancel j := by
  obtain ⟨req, h1, h2⟩ := h
  exact ⟨req, by rw [hl.reqs]; exact h1, h2⟩

/-- one step of one server can be followed by the other -/
theorem step_order (env : Env) (ord' : List FM → List FM) (hord : ∀ l, (env.ord l).Perm l) (hord' : ∀ l, (ord' l).Perm l) (confs : List Conf)
    {σ σ' τ : ServerConc.State} (hl : OrderLike env σ σ') (hst : ServerConc.Step env confs σ τ) :
    ∃ τ', ServerConc.Step { env with ord := ord' } confs σ' τ' ∧ OrderLike env τ τ' := by
  have upd_pc : ∀ {f g : Nat → PC} (_ : ∀ u, PCOrder (f u) (g u)) (t : Nat) {p q : PC} (_ : PCOrder p q) (u : Nat), PCOrder (upd f t p u) (upd g t q u) := by
    intro f g hfg t p q hpq u
    unfold upd
    split
    · exact hpq
    · exact hfg u
  have goto_like : ∀ {t : Nat} {p q : PC}, PCOrder p q → OrderLike env (σ.goto t p) (σ'.goto t q) := fun hpq =>
    ⟨hl.mem, hl.calls, upd_pc hl.pc _ hpq, hl.replies, hl.reqs⟩
  have replied : ∀ {j : Nat} {r r' : Reply}, SameButOrder env r r' →
      List.Forall₂ (fun a b => b.1 = a.1 ∧ SameButOrder env a.2 b.2) (σ.replies ++ [(j, r)]) (σ'.replies ++ [(j, r')]) := fun h =>
    List.rel_append hl.replies (.cons ⟨rfl, h⟩ .nil)
  have reply_like : ∀ {t j : Nat} {r r' : Reply}, SameButOrder env r r' → OrderLike env (σ.reply t j r) (σ'.reply t j r') := fun h =>
    ⟨hl.mem, hl.calls, upd_pc hl.pc _ .idle, replied h, hl.reqs⟩
  have refl : ∀ r : Reply, SameButOrder env r r := fun _ => .inr (.inl rfl)
  have enter_like : ∀ {t s : Nat} {st st' : StoreConc.State} {o : Nat × Nat} {p q : PC}, st'.m = st.m → st'.calls.length = st.calls.length → PCOrder p q →
      OrderLike env (σ.enter t s st o p) (σ'.enter t s st' o q) := by
    intro t s st st' o p q hm hcl hpq
    refine ⟨?_, ?_, upd_pc hl.pc _ hpq, hl.replies, hl.reqs⟩
    · intro u
      show (upd σ'.stores s st' u).m = (upd σ.stores s st u).m
      unfold upd
      split
      · exact hm
      · exact hl.mem u
    · intro u
      show (upd σ'.stores s st' u).calls.length = (upd σ.stores s st u).calls.length
      unfold upd
      split
      · exact hcl
      · exact hl.calls u
  cases hst with
  | receive t req hp =>
    have hp' : σ'.pc t = .idle := by have := hl.pc t; rw [hp] at this; exact this.of_idle
    refine ⟨_, .receive σ' t req hp', ?_⟩
    unfold State.receive
    simp only
    rcases task_order env ord' hord hord' confs req with e | ⟨s, q, q', h1, h2, h3⟩
    · rw [e, hl.reqs]
      cases ht : task env confs req with
      | answer r => exact ⟨hl.mem, hl.calls, upd_pc hl.pc _ .idle, replied (refl _), rfl⟩
      | observe L e => exact ⟨hl.mem, hl.calls, upd_pc hl.pc _ (.lines _ _ _ _), hl.replies, rfl⟩
      | query s q => exact ⟨hl.mem, hl.calls, upd_pc hl.pc _ (.ask _ (task_query_like env hord confs req ht) _), hl.replies, rfl⟩
    · rw [h1, h2, hl.reqs]
      exact ⟨hl.mem, hl.calls, upd_pc hl.pc _ (.ask _ h3 _), hl.replies, rfl⟩
  | finish t j p e hp =>
    have hp' := hl.pc t
    rw [hp] at hp'
    exact ⟨_, .finish σ' t j p e hp'.of_lines, reply_like (refl _)⟩
  | cancelLine t j p line ls e hp hca =>
    have hp' := hl.pc t
    rw [hp] at hp'
    exact ⟨_, .cancelLine σ' t j p line ls e hp'.of_lines (mayCancel_order hl hca), reply_like (refl _)⟩
  | parse t j p line ls e hp =>
    have hp' := hl.pc t
    rw [hp] at hp'
    refine ⟨_, .parse σ' t j p line ls e hp'.of_lines, ?_⟩
    unfold State.parse
    split
    · exact reply_like (refl _)
    · exact reply_like (refl _)
    · exact goto_like (.row _ _ _ _ _ _)
  | stored t j p ls e r hp =>
    have hp' := hl.pc t
    rw [hp] at hp'
    exact ⟨_, .stored σ' t j p ls e r hp'.of_row, goto_like (.lines _ _ _ _)⟩
  | skip t j p ls e r s c hp hs hk =>
    have hp' := hl.pc t
    rw [hp] at hp'
    exact ⟨_, .skip σ' t j p ls e r s c hp'.of_row hs hk, goto_like (.row _ _ _ _ _ _)⟩
  | cancelWrite t j p ls e r s c k hp hs hk hca =>
    have hp' := hl.pc t
    rw [hp] at hp'
    exact ⟨_, .cancelWrite σ' t j p ls e r s c k hp'.of_row hs hk (mayCancel_order hl hca), reply_like (refl _)⟩
  | write t j p ls e r s c k fn hp hs hi hk hf =>
    have hp' := hl.pc t
    rw [hp] at hp'
    refine ⟨_, .write σ' t j p ls e r s c k fn hp'.of_row hs (by rw [hl.mem]; exact hi) hk hf, ?_⟩
    rw [hl.calls s]
    exact enter_like (by simp only; rw [hl.mem]) (by simp only [List.length_append, List.length_singleton, hl.calls]) (.writing _ _ _ _ _ _ _)
  | wrote t j p ls e r s i ret err hp hr he =>
    have hp' := hl.pc t
    rw [hp] at hp'
    refine ⟨_, .wrote σ' t j p ls e r s i ret err hp'.of_writing (by rw [hl.mem]; exact hr) he, ?_⟩
    split
    · exact goto_like (.row _ _ _ _ _ _)
    · exact reply_like (refl _)
  | noKey t j q s c hp hs hk =>
    have hp' := hl.pc t
    rw [hp] at hp'
    obtain ⟨q', h1, h2⟩ := hp'.of_ask
    refine ⟨_, .noKey σ' t j q' s c h1 hs (by rw [h2.1]; exact hk), reply_like ?_⟩
    obtain ⟨out', e1, e2⟩ := answer_order env ord' c.coll h2 (.got false [] 0) (out := .val ([], none)) rfl
    obtain rfl := Option.some.inj e1
    exact e2
  | noBuffer t j q s c k hp hs hk hn =>
    have hp' := hl.pc t
    rw [hp] at hp'
    obtain ⟨q', h1, h2⟩ := hp'.of_ask
    exact ⟨_, .noBuffer σ' t j q' s c k h1 hs (by rw [h2.1]; exact hk) hn, reply_like (refl _)⟩
  | read t j q s c k hp hs hi hk hn =>
    have hp' := hl.pc t
    rw [hp] at hp'
    obtain ⟨q', h1, h2⟩ := hp'.of_ask
    refine ⟨_, .read σ' t j q' s c k h1 hs (by rw [hl.mem]; exact hi) (by rw [h2.1]; exact hk) hn, ?_⟩
    rw [hl.calls s]
    exact enter_like (by simp only; rw [hl.mem]) (by simp only [List.length_append, List.length_singleton, hl.calls]) (.reading _ h2 _ _)
  | answer t j q s i c ret out hp hs hr ho =>
    have hp' := hl.pc t
    rw [hp] at hp'
    obtain ⟨q', h1, h2⟩ := hp'.of_reading
    obtain ⟨out', e1, e2⟩ := answer_order env ord' c.coll h2 ret ho
    exact ⟨_, .answer σ' t j q' s i c ret out' h1 hs (by rw [hl.mem]; exact hr) e1, reply_like e2⟩
  | inside t s c m' hs hm =>
    refine ⟨_, .inside σ' t s c m' hs (by rw [hl.mem]; exact hm), ?_, ?_, hl.pc, hl.replies, hl.reqs⟩
    · intro u
      show (upd σ'.stores s _ u).m = (upd σ.stores s _ u).m
      unfold upd
      split
      · rfl
      · exact hl.mem u
    · intro u
      show (upd σ'.stores s _ u).calls.length = (upd σ.stores s _ u).calls.length
      unfold upd
      split
      · exact hl.calls s
      · exact hl.calls u

/-- **C82** under concurrent requests: whatever the order in which Go iterates over maps of fields, for every run of the server, with any number of requests in progress and any
interleaving, there is a run with any other order that receives the same requests, leaves the memory of every store the same, byte by byte, and sends the same replies in the same order,
but for the order of the lines of different fields within an answer. -/
theorem C82_concurrent (env : Env) (ord' : List FM → List FM) (hord : ∀ l, (env.ord l).Perm l) (hord' : ∀ l, (ord' l).Perm l) (confs : List Conf) (σ : ServerConc.State)
    (hr : ServerConc.Steps env confs ServerConc.init σ) :
    ∃ σ', ServerConc.Steps { env with ord := ord' } confs ServerConc.init σ' ∧ σ'.reqs = σ.reqs ∧ (∀ s, (σ'.stores s).m = (σ.stores s).m) ∧
      List.Forall₂ (fun a b => b.1 = a.1 ∧ SameButOrder env a.2 b.2) σ.replies σ'.replies := by
  have key : ∀ σ₀ σ, ServerConc.Steps env confs σ₀ σ → σ₀ = ServerConc.init →
      ∃ σ', ServerConc.Steps { env with ord := ord' } confs ServerConc.init σ' ∧ OrderLike env σ σ' := by
    intro σ₀ σ hr
    induction hr with
    | refl =>
      rintro rfl
      exact ⟨_, .refl _, fun _ => rfl, fun _ => rfl, fun _ => .idle, .nil, rfl⟩
    | @tail σ' σ'' h1 h2 ih =>
      intro h0
      obtain ⟨τ, g1, g2⟩ := ih h0
      obtain ⟨τ', k1, k2⟩ := step_order env ord' hord hord' confs g2 h2
      exact ⟨τ', .tail g1 k1, k2⟩
  obtain ⟨σ', h1, h2⟩ := key _ σ hr rfl
  exact ⟨σ', h1, h2.reqs, h2.mem, h2.replies⟩

end Starbow.Props
