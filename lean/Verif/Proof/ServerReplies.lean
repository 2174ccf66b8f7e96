import Verif.Proof.ServerConc
import Verif.Proof.Server
/- The concurrent server: what every run of it keeps about the replies. -/
namespace Starbow.ServerConc
open Starbow Starbow.Collation Starbow.Server Starbow.Cell Starbow.Probe Starbow.BufmapConc

variable {env : Env} {confs : List Conf}

/-- why request `j`, a post of the lines `all`, got status 500, and how far it had come -/
def Stopped (env : Env) (confs : List Conf) (σ : State) (j : Nat) (all : List Bytes) (e : Option Err) : Prop :=
  ∃ p s, (∀ p' < p, ∀ s' < confs.length, Done env confs σ j p' s') ∧ (∀ s' < s, Done env confs σ j p s') ∧
    ((p = all.length ∧ s = 0 ∧ e ≠ none ∧ Below σ j p 0) ∨
     (∃ line err, all[p]? = some line ∧ parseRow line = .val (.error err) ∧ s = 0 ∧ Below σ j p 0) ∨
     (∃ r i ret err, LineIs env confs σ j p r ∧ s < confs.length ∧ Made σ s i j p r ∧ (i, ret) ∈ (σ.stores s).m.rets ∧
       StoreConc.writeReply ret = some (some err) ∧ Below σ j p (s + 1)))

/-- what is kept about the reply `rep` to request `j` -/
structure Replied (env : Env) (confs : List Conf) (σ : State) (j : Nat) (rep : Reply) : Prop where
  lt : j < σ.reqs.length
  free : ∀ t, job (σ.pc t) ≠ some j
  ask : ∀ req s q c, σ.reqs[j]? = some req → task env confs req = .query s q → confs[s]? = some c →
    keyValue q.criteria c.coll.keys = none → rep = queryReply env q (.val ([], none))
  post : ∀ req all e, σ.reqs[j]? = some req → task env confs req = .observe all e → req.ctx = none →
    rep = .ok [] ∨ rep = .refused 500 ∧ Stopped env confs σ j all e

structure Inv2 (env : Env) (confs : List Conf) (σ : State) : Prop where
  once : (σ.replies.map Prod.fst).Nodup
  rd : ∀ t j q s i, σ.pc t = .reading j q s i → ∃ c k, confs[s]? = some c ∧ keyValue q.criteria c.coll.keys = some k
  all : ∀ j rep, (j, rep) ∈ σ.replies → Replied env confs σ j rep

theorem Stopped.frame {σ σ' : State} (hx : Ext σ σ') {j : Nat} (hn : NoNew σ σ' j) {all : List Bytes} {e : Option Err}
    (h : Stopped env confs σ j all e) : Stopped env confs σ' j all e := by
  have below : ∀ {p s}, Below σ j p s → Below σ' j p s := fun hb s' i p' r hm => hb s' i p' r (hn _ _ _ _ hm)
  obtain ⟨p, s, h1, h2, h3⟩ := h
  refine ⟨p, s, fun p' hp s' hs => hx.done (h1 p' hp s' hs), fun s' hs => hx.done (h2 s' hs), ?_⟩
  rcases h3 with ⟨a, b, c, d⟩ | ⟨line, err, a, b, c, d⟩ | ⟨r, i, ret, err, a, b, c, d, f, g⟩
  · exact .inl ⟨a, b, c, below d⟩
  · exact .inr (.inl ⟨line, err, a, b, c, below d⟩)
  · exact .inr (.inr ⟨r, i, ret, err, hx.lineIs a, b, hx.made c, (hx.rets s).subset d, f, below g⟩)

theorem Replied.frame {σ σ' : State} (hx : Ext σ σ') {j : Nat} {rep : Reply} (hn : NoNew σ σ' j) (hf : ∀ t, job (σ'.pc t) ≠ some j)
    (h : Replied env confs σ j rep) : Replied env confs σ' j rep := by
  have back : ∀ {x}, σ'.reqs[j]? = some x → σ.reqs[j]? = some x := by
    intro x h'
    have := prefix_get hx.reqs (List.getElem?_eq_getElem h.lt)
    rw [this] at h'
    rw [List.getElem?_eq_getElem h.lt, h']
  refine ⟨Nat.lt_of_lt_of_le h.lt hx.reqs.length_le, hf, fun req s q c h1 => h.ask req s q c (back h1), fun req all e h1 h2 h3 => ?_⟩
  rcases h.post req all e (back h1) h2 h3 with h4 | ⟨h4, h5⟩
  · exact .inl h4
  · exact .inr ⟨h4, h5.frame hx hn⟩

/-- a goroutine goes on without answering -/
theorem Inv2.moved {σ σ' : State} (h2 : Inv2 env confs σ) (hx : Ext σ σ') (t : Nat) (hr : σ'.replies = σ.replies)
    (hpc : ∀ t', t' ≠ t → σ'.pc t' = σ.pc t') (hn : ∀ j, job (σ.pc t) ≠ some j → NoNew σ σ' j)
    (hj : ∀ j, job (σ'.pc t) = some j → job (σ.pc t) = some j ∨ σ.reqs.length ≤ j)
    (hrd : ∀ j q s i, σ'.pc t = .reading j q s i → ∃ c k, confs[s]? = some c ∧ keyValue q.criteria c.coll.keys = some k) :
    Inv2 env confs σ' := by
  refine ⟨by rw [hr]; exact h2.once, ?_, ?_⟩
  · intro t' j q s i h
    by_cases e : t' = t
    · subst e; exact hrd j q s i h
    · rw [hpc t' e] at h; exact h2.rd t' j q s i h
  · intro j rep hm
    rw [hr] at hm
    have hr := h2.all j rep hm
    refine hr.frame hx (hn j (hr.free t)) ?_
    intro t' hj'
    by_cases e : t' = t
    · subst e
      rcases hj j hj' with h | h
      · exact hr.free t' h
      · have := hr.lt; omega
    · rw [hpc t' e] at hj'; exact hr.free t' hj'

/-- a goroutine answers -/
theorem Inv2.reply {σ : State} (h2 : Inv2 env confs σ) (t j : Nat) (rep : Reply) (hnew : ∀ r, (j, r) ∉ σ.replies) (hlt : j < σ.reqs.length)
    (hfree : ∀ t', t' ≠ t → job (σ.pc t') ≠ some j)
    (hask : ∀ req s q c, σ.reqs[j]? = some req → task env confs req = .query s q → confs[s]? = some c →
      keyValue q.criteria c.coll.keys = none → rep = queryReply env q (.val ([], none)))
    (hpost : ∀ req all e, σ.reqs[j]? = some req → task env confs req = .observe all e → req.ctx = none →
      rep = .ok [] ∨ rep = .refused 500 ∧ Stopped env confs σ j all e) : Inv2 env confs (σ.reply t j rep) := by
  have hx := ext_reply σ t j rep
  have hn : ∀ j, NoNew σ (σ.reply t j rep) j := fun _ _ _ _ _ hm => hm
  have hpc : ∀ t', (σ.reply t j rep).pc t' = if t' = t then .idle else σ.pc t' := fun t' => rfl
  refine ⟨?_, ?_, ?_⟩
  · show ((σ.replies ++ [(j, rep)]).map Prod.fst).Nodup
    rw [List.map_append, List.nodup_append]
    refine ⟨h2.once, by simp, ?_⟩
    rintro a ha b hb rfl
    simp only [List.map_cons, List.map_nil, List.mem_singleton] at hb
    subst hb
    obtain ⟨⟨a, r⟩, h1, rfl⟩ := List.mem_map.1 ha
    exact hnew r h1
  · intro t' j' q s i h
    rw [hpc] at h
    split at h
    · simp at h
    · exact h2.rd t' j' q s i h
  · intro j' rep' hm
    have hm' : (j', rep') ∈ σ.replies ∨ (j', rep') = (j, rep) := by
      rcases List.mem_append.1 (show (j', rep') ∈ σ.replies ++ [(j, rep)] from hm) with h | h
      · exact .inl h
      · exact .inr (List.mem_singleton.1 h)
    rcases hm' with hm' | hm'
    · have hr := h2.all j' rep' hm'
      refine hr.frame hx (fun _ _ _ _ hm => hm) ?_
      intro t' h
      rw [hpc] at h
      split at h
      · simp [job] at h
      · exact hr.free t' h
    · simp only [Prod.mk.injEq] at hm'
      obtain ⟨rfl, rfl⟩ := hm'
      refine ⟨hlt, ?_, hask, ?_⟩
      · intro t' h
        rw [hpc] at h
        split at h
        · simp [job] at h
        · next e => exact hfree t' e h
      · intro req all e h1 h2 h3
        rcases hpost req all e h1 h2 h3 with h4 | ⟨h4, h5⟩
        · exact .inl h4
        · exact .inr ⟨h4, h5.frame hx (fun _ _ _ _ hm => hm)⟩

theorem noNew_enter {σ : State} (h : Inv env confs σ) (t s : Nat) (op : Op) (x : StoreConc.Call) (j p : Nat) (pc : PC) {j' : Nat} (hj : j' ≠ j) :
    NoNew σ (σ.enter t s ⟨BufmapConc.call (σ.stores s).m t op, (σ.stores s).calls ++ [x]⟩ (j, p) pc) j' := by
  intro s' i p' r hm
  obtain ⟨m1, m2⟩ := hm
  unfold State.enter at m1 m2
  simp only at m1 m2
  by_cases e : s' = s
  · subst e
    rw [upd_same] at m1 m2
    rcases snoc_get m1 with m1' | ⟨m1', m1''⟩
    · rcases snoc_get m2 with m2' | ⟨m2', _⟩
      · exact ⟨m1', m2'⟩
      · have := (List.getElem?_eq_some_iff.1 m1').1
        rw [h.len, ← m2'] at this; omega
    · simp only [Prod.mk.injEq] at m1''
      exact absurd m1''.1 hj
  · rw [upd_other _ _ e] at m1 m2
    exact ⟨m1, m2⟩

theorem inv2_init : Inv2 env confs init := by
  refine ⟨by simp [init], ?_, ?_⟩
  · intro t j q s i h; simp [init] at h
  · intro j rep h; simp [init] at h

theorem inv2_receive {σ : State} (h : Inv env confs σ) (h2 : Inv2 env confs σ) {t : Nat} (ht : σ.pc t = .idle) (req : Request) :
    Inv2 env confs (σ.receive env confs t req) := by
  have hext : Ext σ { σ with reqs := σ.reqs ++ [req] } :=
    ⟨List.prefix_append _ _, pre _, fun _ => pre _, fun _ => pre _, fun _ => pre _⟩
  have hget : (σ.reqs ++ [req])[σ.reqs.length]? = some req := by simp
  have h1 : Inv2 env confs { σ with reqs := σ.reqs ++ [req] } :=
    h2.moved hext t rfl (fun _ _ => rfl) (fun _ _ => fun _ _ _ _ hm => hm) (fun j hj => .inl hj) (fun j q s i e => h2.rd t j q s i e)
  have fresh : ∀ (pc : PC), job pc = some σ.reqs.length → (∀ j q s i, pc ≠ .reading j q s i) →
      Inv2 env confs (({ σ with reqs := σ.reqs ++ [req] } : State).goto t pc) := by
    intro pc hj hr
    refine h2.moved (hext.trans (ext_goto _ t pc)) t rfl (fun t' e => upd_other _ _ e) (fun _ _ => fun _ _ _ _ hm => hm) ?_ ?_
    · intro j hj'
      rw [show (({ σ with reqs := σ.reqs ++ [req] } : State).goto t pc).pc t = pc from upd_same _ _ _, hj] at hj'
      obtain rfl := Option.some.inj hj'
      exact .inr (Nat.le_refl _)
    · intro j q s i e
      rw [show (({ σ with reqs := σ.reqs ++ [req] } : State).goto t pc).pc t = pc from upd_same _ _ _] at e
      exact absurd e (hr _ _ _ _)
  unfold State.receive
  simp only
  split
  · next r hr =>
    refine h1.reply t _ r ?_ (by simp) ?_ ?_ ?_
    · intro r' hm
      have := (h2.all _ _ hm).lt; omega
    · intro t' _ hj
      have := (h.pcs t').lt hj; omega
    · intro x s q c hx ht'
      rw [hget] at hx
      obtain rfl := Option.some.inj hx
      rw [hr] at ht'; simp at ht'
    · intro x all e hx ht'
      rw [hget] at hx
      obtain rfl := Option.some.inj hx
      rw [hr] at ht'; simp at ht'
  · exact fresh _ rfl (by simp)
  · exact fresh _ rfl (by simp)

theorem inv2_step {σ σ' : State} (h : Inv env confs σ) (h2 : Inv2 env confs σ) (hs : Step env confs σ σ') : Inv2 env confs σ' := by
  -- going on without calling a store
  have goto : ∀ (t : Nat) (pc : PC), job pc = job (σ.pc t) → (∀ j q s i, pc ≠ .reading j q s i) → Inv2 env confs (σ.goto t pc) := by
    intro t pc hj hr
    refine h2.moved (ext_goto _ t pc) t rfl (fun t' e => upd_other _ _ e) (fun _ _ => fun _ _ _ _ hm => hm) ?_ ?_
    · intro j hj'
      rw [show (σ.goto t pc).pc t = pc from upd_same _ _ _, hj] at hj'
      exact .inl hj'
    · intro j q s i e
      rw [show (σ.goto t pc).pc t = pc from upd_same _ _ _] at e
      exact absurd e (hr _ _ _ _)
  -- calling a store
  have enter : ∀ (t s : Nat) (op : Op) (x : StoreConc.Call) (j p : Nat) (pc : PC), job (σ.pc t) = some j → job pc = some j →
      (∀ j q s i, pc = .reading j q s i → ∃ c k, confs[s]? = some c ∧ keyValue q.criteria c.coll.keys = some k) →
      Inv2 env confs (σ.enter t s ⟨BufmapConc.call (σ.stores s).m t op, (σ.stores s).calls ++ [x]⟩ (j, p) pc) := by
    intro t s op x j p pc hj hpj hr
    refine h2.moved (ext_enter _ t s op x (j, p) pc) t rfl (fun t' e => upd_other _ _ e) ?_ ?_ ?_
    · intro j' hj'
      exact noNew_enter h t s op x j p pc (fun e => hj' (by rw [hj, e]))
    · intro j' hj'
      rw [show (σ.enter t s ⟨BufmapConc.call (σ.stores s).m t op, (σ.stores s).calls ++ [x]⟩ (j, p) pc).pc t = pc from upd_same _ _ _, hpj] at hj'
      exact .inl (by rw [hj, hj'])
    · intro j' q s' i e
      rw [show (σ.enter t s ⟨BufmapConc.call (σ.stores s).m t op, (σ.stores s).calls ++ [x]⟩ (j, p) pc).pc t = pc from upd_same _ _ _] at e
      exact hr _ _ _ _ e
  -- answering a post
  have post : ∀ (t j : Nat) (rep : Reply) (req : Request) (all : List Bytes) (e : Option Err), job (σ.pc t) = some j → σ.reqs[j]? = some req →
      task env confs req = .observe all e → (req.ctx = none → rep = .ok [] ∨ rep = .refused 500 ∧ Stopped env confs σ j all e) →
      Inv2 env confs (σ.reply t j rep) := by
    intro t j rep req all e hj h1 h3 h4
    refine h2.reply t j rep ?_ ((h.pcs t).lt hj) ?_ ?_ ?_
    · intro r hm; exact (h2.all _ _ hm).free t hj
    · intro t' e hj'; exact e (h.jobs t' t j hj' hj)
    · intro x s q c hx ht
      rw [h1] at hx
      obtain rfl := Option.some.inj hx
      rw [h3] at ht; simp at ht
    · intro x all' e' hx ht hc
      rw [h1] at hx
      obtain rfl := Option.some.inj hx
      rw [h3] at ht
      injection ht with e1 e2
      subst e1; subst e2
      exact h4 hc
  -- answering a query
  have ask : ∀ (t j : Nat) (rep : Reply) (req : Request) (s : Nat) (q : Query) (c : Conf), job (σ.pc t) = some j → σ.reqs[j]? = some req →
      task env confs req = .query s q → confs[s]? = some c →
      (keyValue q.criteria c.coll.keys = none → rep = queryReply env q (.val ([], none))) → Inv2 env confs (σ.reply t j rep) := by
    intro t j rep req s q c hj h1 h3 hc h4
    refine h2.reply t j rep ?_ ((h.pcs t).lt hj) ?_ ?_ ?_
    · intro r hm; exact (h2.all _ _ hm).free t hj
    · intro t' e hj'; exact e (h.jobs t' t j hj' hj)
    · intro x s' q' c' hx ht hc' hk
      rw [h1] at hx
      obtain rfl := Option.some.inj hx
      rw [h3] at ht
      injection ht with e1 e2
      subst e1; subst e2
      rw [hc] at hc'
      obtain rfl := Option.some.inj hc'
      exact h4 hk
    · intro x all e hx ht
      rw [h1] at hx
      obtain rfl := Option.some.inj hx
      rw [h3] at ht; simp at ht
  cases hs with
  | receive t req ht => exact inv2_receive h h2 ht req
  | finish t j p e ht =>
    have hp := h.pcs t
    rw [ht] at hp
    obtain ⟨req, all, h1, h3, h4, h5, h6⟩ := hp
    refine post t j _ req all e (by rw [ht]; rfl) h1 h3 (fun _ => ?_)
    by_cases he : e = none
    · rw [if_pos he]; exact .inl rfl
    · rw [if_neg he]
      have hle := List.drop_eq_nil_iff.1 h4.symm
      have hd : ∀ p' < all.length, ∀ s' < confs.length, Done env confs σ j p' s' := fun p' hp' => h5 p' (by omega)
      refine .inr ⟨rfl, all.length, 0, hd, by simp, .inl ⟨rfl, rfl, he, ?_⟩⟩
      intro s' i p' r hm
      obtain ⟨j', p'', m1, req', ls, e', line, a1, a2, a3, a4⟩ := h.made s' i r hm.2
      rw [hm.1] at m1
      simp only [Option.some.injEq, Prod.mk.injEq] at m1
      obtain ⟨rfl, rfl⟩ := m1
      rw [h1] at a1
      obtain rfl := Option.some.inj a1
      rw [h3] at a2
      injection a2 with a2 _
      subst a2
      exact .inl (List.getElem?_eq_some_iff.1 a3).1
  | cancelLine t j p line ls e ht hc =>
    have hp := h.pcs t
    rw [ht] at hp
    obtain ⟨req, all, h1, h3, _⟩ := hp
    exact post t j _ req all e (by rw [ht]; rfl) h1 h3 (fun _ => .inl rfl)
  | parse t j p line ls e ht =>
    have hp := h.pcs t
    rw [ht] at hp
    obtain ⟨req, all, h1, h3, h4, h5, h6⟩ := hp
    have hline : all[p]? = some line := by
      have := congrArg (·[0]?) h4
      simp only [List.getElem?_cons_zero, List.getElem?_drop, Nat.add_zero] at this
      exact this.symm
    unfold State.parse
    split
    · next hpan => rw [parseRow_eq] at hpan; simp at hpan
    · next err hpe =>
      exact post t j _ req all e (by rw [ht]; rfl) h1 h3 (fun _ => .inr ⟨rfl, p, 0, h5, by simp, .inr (.inl ⟨line, err, hline, hpe, rfl, h6⟩)⟩)
    · exact goto t _ (by rw [ht]; rfl) (by simp)
  | stored t j p ls e r ht => exact goto t _ (by rw [ht]; rfl) (by simp)
  | skip t j p ls e r s c ht hs hk => exact goto t _ (by rw [ht]; rfl) (by simp)
  | cancelWrite t j p ls e r s c k ht hs hk hc =>
    have hp := h.pcs t
    rw [ht] at hp
    obtain ⟨req, all, line, h1, h3, _⟩ := hp
    refine post t j _ req all e (by rw [ht]; rfl) h1 h3 (fun hn => ?_)
    obtain ⟨req', hr', hc⟩ := hc
    rw [h1] at hr'
    obtain rfl := Option.some.inj hr'
    exact absurd hn hc
  | write t j p ls e r s c k fn ht hs hi hk hf =>
    exact enter t s _ _ j p _ (by rw [ht]; rfl) rfl (by simp)
  | wrote t j p ls e r s i ret err ht hr he =>
    have hp := h.pcs t
    rw [ht] at hp
    obtain ⟨req, all, line, h1, h3, h4, h4', h4'', h5, h6, h7, ⟨c, h8⟩, h9⟩ := hp
    split
    · exact goto t _ (by rw [ht]; rfl) (by simp)
    · next hn =>
      obtain ⟨err', rfl⟩ := Option.ne_none_iff_exists'.1 hn
      refine post t j _ req all e (by rw [ht]; rfl) h1 h3 (fun _ => .inr ⟨rfl, p, s, h5, h6, .inr (.inr ?_)⟩)
      exact ⟨r, i, ret, err', ⟨req, all, e, line, h1, h3, h4', h4''⟩, (List.getElem?_eq_some_iff.1 h8).1, h9, hr, he, h7⟩
  | noKey t j q s c ht hs hk =>
    have hp := h.pcs t
    rw [ht] at hp
    obtain ⟨req, h1, h3⟩ := hp
    exact ask t j _ req s q c (by rw [ht]; rfl) h1 h3 hs (fun _ => rfl)
  | noBuffer t j q s c k ht hs hk hn =>
    have hp := h.pcs t
    rw [ht] at hp
    obtain ⟨req, h1, h3⟩ := hp
    exact ask t j _ req s q c (by rw [ht]; rfl) h1 h3 hs (fun hk' => by rw [hk] at hk'; simp at hk')
  | read t j q s c k ht hs hi hk hn =>
    refine enter t s _ _ j 0 _ (by rw [ht]; rfl) rfl ?_
    intro j' q' s' i' e
    injection e with e1 e2 e3 e4
    subst e2; subst e3
    exact ⟨c, k, hs, hk⟩
  | answer t j q s i c ret out ht hs hr ho =>
    have hp := h.pcs t
    rw [ht] at hp
    obtain ⟨req, h1, h3, _⟩ := hp
    obtain ⟨c', k, hc', hk⟩ := h2.rd t j q s i ht
    rw [hs] at hc'
    obtain rfl := Option.some.inj hc'
    exact ask t j _ req s q c (by rw [ht]; rfl) h1 h3 hs (fun hk' => by rw [hk] at hk'; simp at hk')
  | inside t s c m' hs hm =>
    have hext := ext_step (Step.inside (env := env) σ t s c m' hs hm)
    refine h2.moved hext t rfl (fun _ _ => rfl) ?_ (fun j hj => .inl hj) (fun j q s i e => h2.rd t j q s i e)
    intro j _ s' i p r hm'
    refine ⟨hm'.1, ?_⟩
    have := hm'.2
    simp only at this
    by_cases e : s' = s
    · subst e; rw [upd_same] at this; exact this
    · rw [upd_other _ _ e] at this; exact this

theorem inv2_reach {σ : State} (hs : Steps env confs init σ) : Inv2 env confs σ := by
  suffices ∀ {a b}, Steps env confs a b → Inv env confs a → Inv2 env confs a → Inv2 env confs b from this hs inv_init inv2_init
  intro a b hs ha h2
  induction hs with
  | refl => exact h2
  | tail h0 h1 ih => exact inv2_step (inv_steps ha h0) ih h1

end Starbow.ServerConc
