import Verif.Props.Neighbours
import Verif.Props.UnknownRace
import Verif.Props.ReadBackRace
/-
Property C90 under concurrent requests.
-/
namespace Starbow.Props
open Starbow.Collation Starbow.Spec Starbow.Server Starbow.ServerConc Starbow.Cell Starbow.Probe

/-- the request asks about one of these collations -/
def AsksOf (a : List Conf) (req : Request) : Prop := ∃ c ∈ a, req.path = asc "/collation/" ++ c.coll.name

theorem asksOf_path {a : List Conf} {req : Request} (h : AsksOf a req) : req.path ≠ asc "/obs" := by
  obtain ⟨c, -, h⟩ := h
  intro e
  rw [h] at e
  have := congrArg List.length e
  rw [List.length_append, show (asc "/collation/").length = 11 by decide +kernel, show (asc "/obs").length = 4 by decide +kernel] at this
  omega

theorem lookup_later (env : Env) (a b : List Conf) (name : Bytes) (req : Request) :
    (ServerConc.lookup env (a ++ b) name req = ServerConc.lookup env a name req ∧ ∀ s q, ServerConc.lookup env a name req = .query s q → s < a.length) ∨
      ∃ s q, ServerConc.lookup env (a ++ b) name req = .query s q ∧ a.length ≤ s ∧ ServerConc.lookup env a name req = .answer (.refused 404) ∧
        ∀ c ∈ a, c.coll.name ≠ name := by
  unfold ServerConc.lookup
  split
  · exact .inl ⟨rfl, by simp⟩
  rw [List.findIdx?_append]
  cases h : a.findIdx? fun c => decide (c.coll.name = name) with
  | some s =>
    refine .inl ⟨rfl, fun s' q' e => ?_⟩
    simp only [Task.query.injEq] at e
    rw [List.findIdx?_eq_some_iff_getElem] at h
    rw [← e.1]
    exact h.1
  | none =>
    cases h' : b.findIdx? fun c => decide (c.coll.name = name) with
    | none => exact .inl ⟨rfl, by simp⟩
    | some s =>
      refine .inr ⟨s + a.length, _, rfl, by omega, rfl, ?_⟩
      intro c hc
      have := List.findIdx?_eq_none_iff.1 h c hc
      simpa using this

/-- a post is not a query -/
theorem observation_query (env : Env) (req : Request) (s : Nat) (q : Query) : observation env req ≠ .query s q := by
  unfold observation observeBody
  split
  · simp
  · split
    · split <;> simp
    · split <;> simp

/-- the collations declared later only matter for a request that asks about one of them -/
theorem task_later (env : Env) (a b : List Conf) (req : Request) :
    (task env (a ++ b) req = task env a req ∧ ∀ s q, task env a req = .query s q → s < a.length) ∨
      ∃ s q, task env (a ++ b) req = .query s q ∧ a.length ≤ s ∧ task env a req = .answer (.refused 404) ∧ ¬ AsksOf a req ∧ req.path ≠ asc "/obs" := by
  unfold task
  split
  · exact .inl ⟨rfl, by simp⟩
  split
  · exact .inl ⟨rfl, by simp⟩
  split
  · split
    · refine .inl ⟨rfl, fun s q h => ?_⟩
      exact absurd h (observation_query env req s q)
    · exact .inl ⟨rfl, by simp⟩
  split
  · next hobs h =>
    simp only
    split
    · exact .inl ⟨rfl, by simp⟩
    split
    · exact .inl ⟨rfl, by simp⟩
    split
    · exact .inl ⟨rfl, by simp⟩
    rcases lookup_later env a b (req.path.drop (asc "/collation/").length) req with h1 | ⟨s, q, h1, h2, h3, h4⟩
    · exact .inl h1
    · refine .inr ⟨s, q, h1, h2, h3, ?_, hobs⟩
      rintro ⟨c, hc, e⟩
      refine h4 c hc ?_
      rw [e, List.drop_left]
  split
  · exact .inl ⟨rfl, by simp⟩
  · exact .inl ⟨rfl, by simp⟩

/-! ### the simulation -/

/-- what goroutine `t` does in the server with the later collations, and in the one without them: the same, unless it is at one of the later collations. A goroutine that asks such a
collation has ended in the other server; one that is feeding it is about to be told that all stores have its row. -/
inductive PCLater (n : Nat) (About Post : Nat → Prop) : PC → PC → Prop where
  | idle : PCLater n About Post .idle .idle
  | ask (j : Nat) (q : Query) (s : Nat) (h : s < n) : PCLater n About Post (.ask j q s) (.ask j q s)
  | reading (j : Nat) (q : Query) (s i : Nat) (h : s < n) : PCLater n About Post (.reading j q s i) (.reading j q s i)
  | askLater (j : Nat) (q : Query) (s : Nat) (h : n ≤ s) (ha : ¬ About j) (hp : ¬ Post j) : PCLater n About Post (.ask j q s) .idle
  | readingLater (j : Nat) (q : Query) (s i : Nat) (h : n ≤ s) (ha : ¬ About j) (hp : ¬ Post j) : PCLater n About Post (.reading j q s i) .idle
  | lines (j p : Nat) (ls : List Bytes) (e : Option Err) (hl : ls.length ≤ 1) (ha : ¬ About j) : PCLater n About Post (.lines j p ls e) (.lines j p ls e)
  | row (j p : Nat) (e : Option Err) (r : Row) (s : Nat) (h : s < n) (ha : ¬ About j) : PCLater n About Post (.row j p [] e r s) (.row j p [] e r s)
  | writing (j p : Nat) (e : Option Err) (r : Row) (s i : Nat) (h : s < n) (ha : ¬ About j) : PCLater n About Post (.writing j p [] e r s i) (.writing j p [] e r s i)
  | rowLater (j p : Nat) (e : Option Err) (r : Row) (s : Nat) (h : n ≤ s) (ha : ¬ About j) : PCLater n About Post (.row j p [] e r s) (.row j p [] e r n)
  | writingLater (j p : Nat) (e : Option Err) (r : Row) (s i : Nat) (h : n ≤ s) (ha : ¬ About j) :
      PCLater n About Post (.writing j p [] e r s i) (.row j p [] e r n)

/-- the server with the later collations (`σ`) and the one without them (`σ'`) -/
structure WithLater (n : Nat) (About Post : Nat → Prop) (σ σ' : ServerConc.State) : Prop where
  stores : ∀ s < n, σ'.stores s = σ.stores s
  pc : ∀ t, PCLater n About Post (σ.pc t) (σ'.pc t)
  reqs : σ'.reqs = σ.reqs
  answers : ∀ j r, About j → ((j, r) ∈ σ'.replies ↔ (j, r) ∈ σ.replies)
  acks : ∀ j b, Post j → (j, Reply.ok b) ∈ σ.replies → (j, Reply.ok b) ∈ σ'.replies

variable {n : Nat} {About Post : Nat → Prop} {σ σ' : ServerConc.State}

theorem upd_later {f g : Nat → PC} (h : ∀ u, PCLater n About Post (f u) (g u)) (t : Nat) {p q : PC} (hpq : PCLater n About Post p q) (u : Nat) :
    PCLater n About Post (upd f t p u) (upd g t q u) := by
  unfold upd
  split
  · exact hpq
  · exact h u

theorem upd_later_left {f g : Nat → PC} (h : ∀ u, PCLater n About Post (f u) (g u)) (t : Nat) {p : PC} (hpq : PCLater n About Post p (g t)) (u : Nat) :
    PCLater n About Post (upd f t p u) (g u) := by
  unfold upd
  split
  · next e => rw [e]; exact hpq
  · exact h u

theorem WithLater.goto (h : WithLater n About Post σ σ') (t : Nat) {p q : PC} (hpq : PCLater n About Post p q) : WithLater n About Post (σ.goto t p) (σ'.goto t q) :=
  ⟨h.stores, upd_later h.pc t hpq, h.reqs, h.answers, h.acks⟩

theorem WithLater.goto_left (h : WithLater n About Post σ σ') (t : Nat) {p : PC} (hpq : PCLater n About Post p (σ'.pc t)) : WithLater n About Post (σ.goto t p) σ' :=
  ⟨h.stores, upd_later_left h.pc t hpq, h.reqs, h.answers, h.acks⟩

theorem WithLater.reply (h : WithLater n About Post σ σ') (t j : Nat) (r : Reply) : WithLater n About Post (σ.reply t j r) (σ'.reply t j r) := by
  refine ⟨h.stores, upd_later h.pc t .idle, h.reqs, fun j' r' ha => ?_, fun j' b hp hb => ?_⟩
  · show (j', r') ∈ σ'.replies ++ _ ↔ (j', r') ∈ σ.replies ++ _
    rw [List.mem_append, List.mem_append, h.answers j' r' ha]
  · rcases List.mem_append.1 hb with hb | hb
    · exact List.mem_append_left _ (h.acks j' b hp hb)
    · exact List.mem_append_right _ hb

/-- both answer, but differently -/
theorem WithLater.reply_apart (h : WithLater n About Post σ σ') (t j : Nat) (r r' : Reply) (ha : ¬ About j) (hr : Post j → ∀ b, r ≠ .ok b) :
    WithLater n About Post (σ.reply t j r) (σ'.reply t j r') := by
  refine ⟨h.stores, upd_later h.pc t .idle, h.reqs, fun k s hk => ?_, fun k b hk hb => ?_⟩
  · show (k, s) ∈ σ'.replies ++ [(j, r')] ↔ (k, s) ∈ σ.replies ++ [(j, r)]
    have hne : k ≠ j := fun e => ha (e ▸ hk)
    simp [h.answers k s hk, hne]
  · rcases List.mem_append.1 hb with hb | hb
    · exact List.mem_append_left _ (h.acks k b hk hb)
    · obtain ⟨rfl, e⟩ := Prod.mk.inj (List.mem_singleton.1 hb)
      exact absurd e.symm (hr hk b)

/-- only the larger server answers -/
theorem WithLater.reply_left (h : WithLater n About Post σ σ') (t j : Nat) (r : Reply) (hi : σ'.pc t = .idle) (ha : ¬ About j) (hp : ¬ Post j) :
    WithLater n About Post (σ.reply t j r) σ' := by
  refine ⟨h.stores, upd_later_left h.pc t (by rw [hi]; exact .idle), h.reqs, fun k s hk => ?_, fun k b hk hb => ?_⟩
  · show (k, s) ∈ σ'.replies ↔ (k, s) ∈ σ.replies ++ [(j, r)]
    have hne : k ≠ j := fun e => ha (e ▸ hk)
    simp [h.answers k s hk, hne]
  · rcases List.mem_append.1 hb with hb | hb
    · exact h.acks k b hk hb
    · exact absurd ((Prod.mk.inj (List.mem_singleton.1 hb)).1 ▸ hk) hp

/-- only the smaller server answers -/
theorem WithLater.reply_right (h : WithLater n About Post σ σ') (t j : Nat) (r : Reply) {p : PC} (hi : PCLater n About Post p .idle) (ha : ¬ About j) :
    WithLater n About Post (σ.goto t p) (σ'.reply t j r) := by
  refine ⟨h.stores, upd_later h.pc t hi, h.reqs, fun k s hk => ?_, fun k b hk hb => List.mem_append_left _ (h.acks k b hk hb)⟩
  show (k, s) ∈ σ'.replies ++ [(j, r)] ↔ (k, s) ∈ σ.replies
  have hne : k ≠ j := fun e => ha (e ▸ hk)
  simp [h.answers k s hk, hne]

theorem WithLater.enter (h : WithLater n About Post σ σ') (t s : Nat) (st : StoreConc.State) (o : Nat × Nat) {p : PC} (hp : PCLater n About Post p p) :
    WithLater n About Post (σ.enter t s st o p) (σ'.enter t s st o p) := by
  refine ⟨fun u hu => ?_, upd_later h.pc t hp, h.reqs, h.answers, h.acks⟩
  show upd σ'.stores s st u = upd σ.stores s st u
  unfold upd
  split
  · rfl
  · exact h.stores u hu

theorem WithLater.enter_left (h : WithLater n About Post σ σ') (t s : Nat) (st : StoreConc.State) (o : Nat × Nat) {p : PC} (hs : n ≤ s) (hp : PCLater n About Post p (σ'.pc t)) :
    WithLater n About Post (σ.enter t s st o p) σ' := by
  refine ⟨fun u hu => ?_, upd_later_left h.pc t hp, h.reqs, h.answers, h.acks⟩
  show σ'.stores u = upd σ.stores s st u
  unfold upd
  rw [if_neg (by omega)]
  exact h.stores u hu

/-- `a` and `b` share their first elements -/
theorem conf_first {a b : List Conf} {s : Nat} {c : Conf} (hs : (a ++ b)[s]? = some c) (h : s < a.length) : a[s]? = some c := by
  rwa [List.getElem?_append_left h] at hs

/-- such a post has one line -/
theorem single_lines {env : Env} {confs : List Conf} {req : Request} {L : List Bytes} {e : Option Err} (hp : SinglePost req)
    (ht : task env confs req = .observe L e) : L.length ≤ 1 := by
  rcases hp with ⟨l, hl, rfl⟩ | hp
  · rw [task_obs env confs _ rfl rfl rfl] at ht
    unfold observation contentType at ht
    rw [if_pos (show (post (l ++ [0x0a])).contentType = [] from rfl)] at ht
    simp only at ht
    rw [if_neg (by decide +kernel), if_pos (by decide +kernel)] at ht
    unfold observeBody post at ht
    simp only at ht
    rw [scan_line none false hl, scan_last none (l := []) ⟨by simp, by simp⟩, if_pos rfl] at ht
    injection ht with h1 h2
    rw [← h1]
    simp
  · exact absurd (task_observe ht) hp

theorem goto_reply (σ : ServerConc.State) (t j : Nat) (p : PC) (r : Reply) : (σ.goto t p).reply t j r = σ.reply t j r := by
  have : upd (upd σ.pc t p) t PC.idle = upd σ.pc t PC.idle := by
    funext u
    unfold upd
    split <;> rfl
  unfold State.reply State.goto
  simp only
  rw [this]

/-- the smaller server ends the request: all its stores have the row -/
theorem ends (env : Env) (a : List Conf) (σ : ServerConc.State) (t j p : Nat) (e : Option Err) (r : Row) (h : σ.pc t = .row j p [] e r a.length) :
    ServerConc.Steps env a σ (σ.reply t j (if e = none then .ok [] else .refused 500)) := by
  have h1 : ServerConc.Step env a σ (σ.goto t (.lines j (p + 1) [] e)) := .stored σ t j p [] e r h
  have h2 : ServerConc.Step env a (σ.goto t (.lines j (p + 1) [] e)) ((σ.goto t (.lines j (p + 1) [] e)).reply t j (if e = none then .ok [] else .refused 500)) :=
    .finish _ t j (p + 1) e (by unfold State.goto upd; simp)
  rw [goto_reply] at h2
  exact .tail (.tail (.refl _) h1) h2

/-- a step of the server with the later collations can be followed, in none, one or two steps, by the server without them -/
theorem step_later (env : Env) (a b : List Conf) (rs : List Request) (hrs : ∀ r ∈ rs, SinglePost r) {σ σ' τ : ServerConc.State}
    (hl : WithLater a.length (fun j => ∃ req, rs[j]? = some req ∧ AsksOf a req) (fun j => ∃ req, rs[j]? = some req ∧ req.path = asc "/obs") σ σ')
    (hst : ServerConc.Step env (a ++ b) σ τ) (hreq : τ.reqs <+: rs) :
    ∃ τ', ServerConc.Steps env a σ' τ' ∧
      WithLater a.length (fun j => ∃ req, rs[j]? = some req ∧ AsksOf a req) (fun j => ∃ req, rs[j]? = some req ∧ req.path = asc "/obs") τ τ' := by
  obtain ⟨About, hAbout⟩ : ∃ About : Nat → Prop, About = fun j => ∃ req, rs[j]? = some req ∧ AsksOf a req := ⟨_, rfl⟩
  obtain ⟨Post, hPost⟩ : ∃ Post : Nat → Prop, Post = fun j => ∃ req, rs[j]? = some req ∧ req.path = asc "/obs" := ⟨_, rfl⟩
  rw [← hAbout, ← hPost] at hl ⊢
  have one : ∀ {x y : ServerConc.State}, ServerConc.Step env a x y → ServerConc.Steps env a x y := fun h => .tail (.refl _) h
  have may : ∀ {j : Nat}, σ.MayCancel j → σ'.MayCancel j := by
    rintro j ⟨req, h1, h2⟩
    exact ⟨req, by rw [hl.reqs]; exact h1, h2⟩
  cases hst with
  | receive t req hp =>
    have hp' : σ'.pc t = .idle := by
      have := hl.pc t
      rw [hp] at this
      generalize hg : σ'.pc t = g at this
      cases this
      rfl
    have hr : (σ.receive env (a ++ b) t req).reqs = σ.reqs ++ [req] := by
      unfold State.receive
      simp only
      split <;> rfl
    rw [hr] at hreq
    have hj : rs[σ.reqs.length]? = some req := by
      obtain ⟨more, hm⟩ := hreq
      rw [← hm, List.append_assoc, List.getElem?_append_right (Nat.le_refl _), Nat.sub_self]
      rfl
    refine ⟨_, one (.receive σ' t req hp'), ?_⟩
    have base : WithLater a.length About Post { σ with reqs := σ.reqs ++ [req] } { σ' with reqs := σ'.reqs ++ [req] } :=
      ⟨hl.stores, hl.pc, by show σ'.reqs ++ _ = σ.reqs ++ _; rw [hl.reqs], hl.answers, hl.acks⟩
    unfold State.receive
    simp only
    rw [show σ'.reqs.length = σ.reqs.length by rw [hl.reqs]]
    rcases task_later env a b req with ⟨h1, h2⟩ | ⟨s, q, h1, h2, h3, h4, h5⟩
    · rw [h1]
      cases ht : task env a req with
      | answer r => exact base.reply _ _ _
      | observe L e =>
        refine base.goto _ (.lines _ _ _ _ (single_lines (hrs req (List.mem_of_getElem? hj)) ht) ?_)
        rw [hAbout]
        rintro ⟨req', e1, e2⟩
        rw [hj] at e1
        obtain rfl := Option.some.inj e1
        exact asksOf_path e2 (task_observe ht).1
      | query s q => exact base.goto _ (.ask _ _ _ (h2 s q ht))
    · rw [h1, h3]
      have na : ¬ About σ.reqs.length := by
        rw [hAbout]
        rintro ⟨req', e1, e2⟩
        rw [hj] at e1
        obtain rfl := Option.some.inj e1
        exact h4 e2
      have np : ¬ Post σ.reqs.length := by
        rw [hPost]
        rintro ⟨req', e1, e2⟩
        rw [hj] at e1
        obtain rfl := Option.some.inj e1
        exact h5 e2
      exact base.reply_right _ _ _ (.askLater _ _ _ h2 na np) na
  | finish t j p e hp =>
    have h := hl.pc t
    rw [hp] at h
    generalize hg : σ'.pc t = g at h
    cases h with
    | lines _ _ _ _ h1 h2 => exact ⟨_, one (.finish σ' t j p e hg), hl.reply _ _ _⟩
  | cancelLine t j p line ls e hp hca =>
    have h := hl.pc t
    rw [hp] at h
    generalize hg : σ'.pc t = g at h
    cases h with
    | lines _ _ _ _ h1 h2 => exact ⟨_, one (.cancelLine σ' t j p line ls e hg (may hca)), hl.reply _ _ _⟩
  | parse t j p line ls e hp =>
    have h := hl.pc t
    rw [hp] at h
    generalize hg : σ'.pc t = g at h
    cases h with
    | lines _ _ _ _ h1 h2 =>
      refine ⟨_, one (.parse σ' t j p line ls e hg), ?_⟩
      obtain rfl : ls = [] := List.length_eq_zero_iff.1 (by simp only [List.length_cons] at h1; omega)
      unfold State.parse
      cases parseRow line with
      | panic => exact hl.reply _ _ _
      | val x =>
        cases x with
        | error x => exact hl.reply _ _ _
        | ok r =>
          by_cases h0 : 0 < a.length
          · exact hl.goto _ (.row _ _ _ _ _ h0 h2)
          · have hz : a.length = 0 := by omega
            have hp := PCLater.rowLater (n := a.length) (Post := Post) j p e r 0 (by omega) h2
            rw [hz] at hp
            rw [hz] at hl ⊢
            exact hl.goto _ hp
  | stored t j p ls e r hp =>
    have h := hl.pc t
    rw [hp] at h
    generalize hg : σ'.pc t = g at h
    cases h with
    | row _ _ _ _ _ h1 h2 => rw [List.length_append] at h1; omega
    | rowLater _ _ _ _ _ h1 h2 => exact ⟨_, one (.stored σ' t j p [] e r hg), hl.goto _ (.lines _ _ _ _ (by simp) h2)⟩
  | skip t j p ls e r s c hp hs hk =>
    have h := hl.pc t
    rw [hp] at h
    generalize hg : σ'.pc t = g at h
    cases h with
    | row _ _ _ _ _ h1 h2 =>
      refine ⟨_, one (.skip σ' t j p [] e r s c hg (conf_first hs h1) hk), ?_⟩
      by_cases h0 : s + 1 < a.length
      · exact hl.goto _ (.row _ _ _ _ _ h0 h2)
      · have hz : s + 1 = a.length := by omega
        have hp := PCLater.rowLater (n := a.length) (Post := Post) j p e r (s + 1) (by omega) h2
        rw [← hz] at hp
        rw [← hz] at hl ⊢
        exact hl.goto _ hp
    | rowLater _ _ _ _ _ h1 h2 => exact ⟨σ', .refl _, hl.goto_left _ (by rw [hg]; exact .rowLater _ _ _ _ _ (by omega) h2)⟩
  | cancelWrite t j p ls e r s c k hp hs hk hca =>
    have h := hl.pc t
    rw [hp] at h
    generalize hg : σ'.pc t = g at h
    cases h with
    | row _ _ _ _ _ h1 h2 => exact ⟨_, one (.cancelWrite σ' t j p [] e r s c k hg (conf_first hs h1) hk (may hca)), hl.reply _ _ _⟩
    | rowLater _ _ _ _ _ h1 h2 => exact ⟨_, ends env a σ' t j p e r hg, hl.reply_apart _ _ _ _ h2 (by simp)⟩
  | write t j p ls e r s c k fn hp hs hi hk hf =>
    have h := hl.pc t
    rw [hp] at h
    generalize hg : σ'.pc t = g at h
    cases h with
    | row _ _ _ _ _ h1 h2 =>
      refine ⟨_, one (.write σ' t j p [] e r s c k fn hg (conf_first hs h1) (by rw [hl.stores s h1]; exact hi) hk hf), ?_⟩
      rw [hl.stores s h1]
      exact hl.enter _ _ _ _ (.writing _ _ _ _ _ _ h1 h2)
    | rowLater _ _ _ _ _ h1 h2 => exact ⟨σ', .refl _, hl.enter_left _ _ _ _ h1 (by rw [hg]; exact .writingLater _ _ _ _ _ _ h1 h2)⟩
  | wrote t j p ls e r s i ret err hp hr he =>
    have h := hl.pc t
    rw [hp] at h
    generalize hg : σ'.pc t = g at h
    cases h with
    | writing _ _ _ _ _ _ h1 h2 =>
      refine ⟨_, one (.wrote σ' t j p [] e r s i ret err hg (by rw [hl.stores s h1]; exact hr) he), ?_⟩
      split
      · by_cases h0 : s + 1 < a.length
        · exact hl.goto _ (.row _ _ _ _ _ h0 h2)
        · have hz : s + 1 = a.length := by omega
          have hp := PCLater.rowLater (n := a.length) (Post := Post) j p e r (s + 1) (by omega) h2
          rw [← hz] at hp
          rw [← hz] at hl ⊢
          exact hl.goto _ hp
      · exact hl.reply _ _ _
    | writingLater _ _ _ _ _ _ h1 h2 =>
      split
      · exact ⟨σ', .refl _, hl.goto_left _ (by rw [hg]; exact .rowLater _ _ _ _ _ (by omega) h2)⟩
      · exact ⟨_, ends env a σ' t j p e r hg, hl.reply_apart _ _ _ _ h2 (by simp)⟩
  | noKey t j q s c hp hs hk =>
    have h := hl.pc t
    rw [hp] at h
    generalize hg : σ'.pc t = g at h
    cases h with
    | ask _ _ _ h1 => exact ⟨_, one (.noKey σ' t j q s c hg (conf_first hs h1) hk), hl.reply _ _ _⟩
    | askLater _ _ _ h1 h2 h3 => exact ⟨σ', .refl _, hl.reply_left _ _ _ hg h2 h3⟩
  | noBuffer t j q s c k hp hs hk hn =>
    have h := hl.pc t
    rw [hp] at h
    generalize hg : σ'.pc t = g at h
    cases h with
    | ask _ _ _ h1 => exact ⟨_, one (.noBuffer σ' t j q s c k hg (conf_first hs h1) hk hn), hl.reply _ _ _⟩
    | askLater _ _ _ h1 h2 h3 => exact ⟨σ', .refl _, hl.reply_left _ _ _ hg h2 h3⟩
  | read t j q s c k hp hs hi hk hn =>
    have h := hl.pc t
    rw [hp] at h
    generalize hg : σ'.pc t = g at h
    cases h with
    | ask _ _ _ h1 =>
      refine ⟨_, one (.read σ' t j q s c k hg (conf_first hs h1) (by rw [hl.stores s h1]; exact hi) hk hn), ?_⟩
      rw [hl.stores s h1]
      exact hl.enter _ _ _ _ (.reading _ _ _ _ h1)
    | askLater _ _ _ h1 h2 h3 => exact ⟨σ', .refl _, hl.enter_left _ _ _ _ h1 (by rw [hg]; exact .readingLater _ _ _ _ h1 h2 h3)⟩
  | answer t j q s i c ret out hp hs hr ho =>
    have h := hl.pc t
    rw [hp] at h
    generalize hg : σ'.pc t = g at h
    cases h with
    | reading _ _ _ _ h1 =>
      exact ⟨_, one (.answer σ' t j q s i c ret out hg (conf_first hs h1) (by rw [hl.stores s h1]; exact hr) ho), hl.reply _ _ _⟩
    | readingLater _ _ _ _ h1 h2 h3 => exact ⟨σ', .refl _, hl.reply_left _ _ _ hg h2 h3⟩
  | inside t s c m' hs hm =>
    by_cases h1 : s < a.length
    · refine ⟨_, one (.inside σ' t s c m' (conf_first hs h1) (by rw [hl.stores s h1]; exact hm)), ?_, hl.pc, hl.reqs, hl.answers, hl.acks⟩
      intro u hu
      show upd σ'.stores s _ u = upd σ.stores s _ u
      rw [hl.stores s h1]
      unfold upd
      split
      · rfl
      · exact hl.stores u hu
    · refine ⟨σ', .refl _, ?_, hl.pc, hl.reqs, hl.answers, hl.acks⟩
      intro u hu
      show σ'.stores u = upd σ.stores s _ u
      unfold upd
      rw [if_neg (by omega)]
      exact hl.stores u hu

/-- **C90** under concurrent requests, for collations declared later: take a server with the collations `a` and, after them, `b`, any run of it with any number of requests in progress in any
interleaving, and let each post have one observation (any bytes). A server with `a` alone, sent the same requests in the same order, can do the same: it gives the same replies to the
requests that ask about a collation of `a`, has the same bytes in the stores of `a`, and has acknowledged each post that the larger server has acknowledged. -/
theorem C90_concurrent_partial (env : Env) (a b : List (Schema × Nat)) (σ : ServerConc.State) (hr : ServerConc.Steps env (serverOf (a ++ b)) ServerConc.init σ)
    (hp : ∀ r ∈ σ.reqs, SinglePost r) :
    ∃ σ', ServerConc.Steps env (serverOf a) ServerConc.init σ' ∧ σ'.reqs = σ.reqs ∧ (∀ s < a.length, (σ'.stores s).m = (σ.stores s).m) ∧
      (∀ j req, σ.reqs[j]? = some req → (∃ c ∈ a, req.path = asc "/collation/" ++ c.1.name) → ∀ r, (j, r) ∈ σ'.replies ↔ (j, r) ∈ σ.replies) ∧
      ∀ j req, σ.reqs[j]? = some req → req.path = asc "/obs" → ∀ body, (j, Reply.ok body) ∈ σ.replies → (j, Reply.ok body) ∈ σ'.replies := by
  have hsplit : serverOf (a ++ b) = serverOf a ++ serverOf b := by unfold serverOf; exact List.map_append
  have hlen : (serverOf a).length = a.length := by unfold serverOf; exact List.length_map _
  rw [hsplit] at hr
  have key : ∀ σ₀ τ, ServerConc.Steps env (serverOf a ++ serverOf b) σ₀ τ → σ₀ = ServerConc.init → τ.reqs <+: σ.reqs →
      ∃ τ', ServerConc.Steps env (serverOf a) ServerConc.init τ' ∧
        WithLater (serverOf a).length (fun j => ∃ req, σ.reqs[j]? = some req ∧ AsksOf (serverOf a) req) (fun j => ∃ req, σ.reqs[j]? = some req ∧ req.path = asc "/obs") τ τ' := by
    intro σ₀ τ hτ
    induction hτ with
    | refl =>
      rintro rfl -
      exact ⟨_, .refl _, fun _ _ => rfl, fun _ => .idle, rfl, fun _ _ _ => .rfl, fun _ _ _ h => h⟩
    | @tail τ τ₁ h1 h2 ih =>
      intro h0 hreq
      obtain ⟨more, hm⟩ := hreq
      obtain ⟨new, hnew⟩ := (ext_steps (.tail (.refl _) h2)).reqs
      obtain ⟨τ', g1, g2⟩ := ih h0 ⟨new ++ more, by rw [← hm, ← hnew, List.append_assoc]⟩
      obtain ⟨τ'', k1, k2⟩ := step_later env (serverOf a) (serverOf b) σ.reqs hp g2 h2 ⟨more, hm⟩
      exact ⟨τ'', g1.trans k1, k2⟩
  obtain ⟨σ', h1, h2⟩ := key _ σ hr rfl (List.prefix_refl _)
  refine ⟨σ', h1, h2.reqs, fun s hs => by rw [h2.stores s (by omega)], ?_, fun j req hj hpath body => h2.acks j body ⟨req, hj, hpath⟩⟩
  rintro j req hj ⟨c, hc, e⟩ r
  refine h2.answers j r ⟨req, hj, ⟨compile c.1, c.2⟩, List.mem_map.2 ⟨c, hc, rfl⟩, ?_⟩
  rw [e, show (compile c.1).name = c.1.name from compile_name c.1]

end Starbow.Props
