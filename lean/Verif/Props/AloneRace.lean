import Verif.Props.NeighboursRace
/-
Property C90 under concurrent requests, for a collation anywhere in the list.
-/
namespace Starbow.Props
open Starbow.Collation Starbow.Spec Starbow.Server Starbow.ServerConc Starbow.Cell Starbow.Probe

theorem lookup_alone (env : Env) (a b : List Conf) (d : Conf) (ha : ∀ c ∈ a, c.coll.name ≠ d.coll.name) (name : Bytes) (req : Request) :
    (∃ r, ServerConc.lookup env (a ++ d :: b) name req = .answer r ∧ ServerConc.lookup env [d] name req = .answer r) ∨
    (∃ q, ServerConc.lookup env (a ++ d :: b) name req = .query a.length q ∧ ServerConc.lookup env [d] name req = .query 0 q) ∨
      ∃ s q, ServerConc.lookup env (a ++ d :: b) name req = .query s q ∧ s ≠ a.length ∧ ServerConc.lookup env [d] name req = .answer (.refused 404) ∧
        d.coll.name ≠ name := by
  unfold ServerConc.lookup
  split
  · exact .inl ⟨_, rfl, rfl⟩
  rw [List.findIdx?_append, List.findIdx?_cons, List.findIdx?_cons]
  by_cases h : d.coll.name = name
  · have hn : (a.findIdx? fun c => decide (c.coll.name = name)) = none := by
      rw [List.findIdx?_eq_none_iff]
      intro c hc
      rw [← h]
      simpa using ha c hc
    rw [hn]
    simp only [h, decide_true, if_true]
    exact .inr (.inl ⟨_, by simp, rfl⟩)
  · simp only [h, decide_false, Bool.false_eq_true, if_false, List.findIdx?_nil, Option.map_none]
    cases h1 : a.findIdx? fun c => decide (c.coll.name = name) with
    | some s =>
      rw [List.findIdx?_eq_some_iff_getElem] at h1
      obtain ⟨hs, -⟩ := h1
      exact .inr (.inr ⟨s, _, rfl, by omega, by trivial, by trivial⟩)
    | none =>
      cases h2 : b.findIdx? fun c => decide (c.coll.name = name) with
      | some s => exact .inr (.inr ⟨s + 1 + a.length, _, rfl, by omega, by trivial, by trivial⟩)
      | none => exact .inl ⟨_, rfl, rfl⟩

theorem task_alone (env : Env) (a b : List Conf) (d : Conf) (ha : ∀ c ∈ a, c.coll.name ≠ d.coll.name) (req : Request) :
    (∃ r, task env (a ++ d :: b) req = .answer r ∧ task env [d] req = .answer r) ∨
    (∃ L e, task env (a ++ d :: b) req = .observe L e ∧ task env [d] req = .observe L e) ∨
    (∃ q, task env (a ++ d :: b) req = .query a.length q ∧ task env [d] req = .query 0 q) ∨
      ∃ s q, task env (a ++ d :: b) req = .query s q ∧ s ≠ a.length ∧ task env [d] req = .answer (.refused 404) ∧ ¬ AsksOf [d] req ∧ req.path ≠ asc "/obs" := by
  unfold task
  split
  · exact .inl ⟨_, rfl, rfl⟩
  split
  · exact .inl ⟨_, rfl, rfl⟩
  split
  · split
    · cases h : observation env req with
      | answer r => exact .inl ⟨_, rfl, rfl⟩
      | observe L e => exact .inr (.inl ⟨_, _, rfl, rfl⟩)
      | query s q => exact absurd h (observation_query env req s q)
    · exact .inl ⟨_, rfl, rfl⟩
  split
  · next hobs h =>
    simp only
    split
    · exact .inl ⟨_, rfl, rfl⟩
    split
    · exact .inl ⟨_, rfl, rfl⟩
    split
    · exact .inl ⟨_, rfl, rfl⟩
    rcases lookup_alone env a b d ha (req.path.drop (asc "/collation/").length) req with h1 | h1 | ⟨s, q, h1, h2, h3, h4⟩
    · exact .inl h1
    · exact .inr (.inr (.inl h1))
    · refine .inr (.inr (.inr ⟨s, q, h1, h2, h3, ?_, hobs⟩))
      rintro ⟨c, hc, e⟩
      obtain rfl := List.mem_singleton.1 hc
      refine h4 ?_
      rw [e, List.drop_left]
  split
  · exact .inl ⟨_, rfl, rfl⟩
  · exact .inl ⟨_, rfl, rfl⟩

/-- what goroutine `t` does in the server with all collations, and in the one with the collation number `n` alone -/
inductive PCAlone (n : Nat) (About Post : Nat → Prop) : PC → PC → Prop where
  | idle : PCAlone n About Post .idle .idle
  | ask (j : Nat) (q : Query) : PCAlone n About Post (.ask j q n) (.ask j q 0)
  | reading (j : Nat) (q : Query) (i : Nat) : PCAlone n About Post (.reading j q n i) (.reading j q 0 i)
  | askOther (j : Nat) (q : Query) (s : Nat) (h : s ≠ n) (ha : ¬ About j) (hp : ¬ Post j) : PCAlone n About Post (.ask j q s) .idle
  | readingOther (j : Nat) (q : Query) (s i : Nat) (h : s ≠ n) (ha : ¬ About j) (hp : ¬ Post j) : PCAlone n About Post (.reading j q s i) .idle
  | lines (j p : Nat) (ls : List Bytes) (e : Option Err) (hp : Post j) : PCAlone n About Post (.lines j p ls e) (.lines j p ls e)
  | before (j p : Nat) (ls : List Bytes) (e : Option Err) (r : Row) (s : Nat) (h : s ≤ n) (hp : Post j) :
      PCAlone n About Post (.row j p ls e r s) (.row j p ls e r 0)
  | writingBefore (j p : Nat) (ls : List Bytes) (e : Option Err) (r : Row) (s i : Nat) (h : s < n) (hp : Post j) :
      PCAlone n About Post (.writing j p ls e r s i) (.row j p ls e r 0)
  | writing (j p : Nat) (ls : List Bytes) (e : Option Err) (r : Row) (i : Nat) (hp : Post j) :
      PCAlone n About Post (.writing j p ls e r n i) (.writing j p ls e r 0 i)
  | after (j p : Nat) (ls : List Bytes) (e : Option Err) (r : Row) (s : Nat) (h : n < s) (hp : Post j) :
      PCAlone n About Post (.row j p ls e r s) (.row j p ls e r 1)
  | writingAfter (j p : Nat) (ls : List Bytes) (e : Option Err) (r : Row) (s i : Nat) (h : n < s) (hp : Post j) :
      PCAlone n About Post (.writing j p ls e r s i) (.row j p ls e r 1)

/-- the server with all collations (`σ`) and the one with collation number `n` alone (`σ'`) -/
structure Alone (n : Nat) (About Post : Nat → Prop) (σ σ' : ServerConc.State) : Prop where
  store : σ'.stores 0 = σ.stores n
  pc : ∀ t, PCAlone n About Post (σ.pc t) (σ'.pc t)
  reqs : σ'.reqs = σ.reqs
  answers : ∀ j r, About j ∨ Post j → ((j, r) ∈ σ'.replies ↔ (j, r) ∈ σ.replies)

variable {n : Nat} {About Post : Nat → Prop} {σ σ' : ServerConc.State}

theorem upd_alone {f g : Nat → PC} (h : ∀ u, PCAlone n About Post (f u) (g u)) (t : Nat) {p q : PC} (hpq : PCAlone n About Post p q) (u : Nat) :
    PCAlone n About Post (upd f t p u) (upd g t q u) := by
  unfold upd
  split
  · exact hpq
  · exact h u

theorem upd_alone_left {f g : Nat → PC} (h : ∀ u, PCAlone n About Post (f u) (g u)) (t : Nat) {p : PC} (hpq : PCAlone n About Post p (g t)) (u : Nat) :
    PCAlone n About Post (upd f t p u) (g u) := by
  unfold upd
  split
  · next e => rw [e]; exact hpq
  · exact h u

theorem Alone.goto (h : Alone n About Post σ σ') (t : Nat) {p q : PC} (hpq : PCAlone n About Post p q) : Alone n About Post (σ.goto t p) (σ'.goto t q) :=
  ⟨h.store, upd_alone h.pc t hpq, h.reqs, h.answers⟩

theorem Alone.goto_left (h : Alone n About Post σ σ') (t : Nat) {p : PC} (hpq : PCAlone n About Post p (σ'.pc t)) : Alone n About Post (σ.goto t p) σ' :=
  ⟨h.store, upd_alone_left h.pc t hpq, h.reqs, h.answers⟩

theorem Alone.reply (h : Alone n About Post σ σ') (t j : Nat) (r : Reply) : Alone n About Post (σ.reply t j r) (σ'.reply t j r) := by
  refine ⟨h.store, upd_alone h.pc t .idle, h.reqs, fun j' r' ha => ?_⟩
  show (j', r') ∈ σ'.replies ++ _ ↔ (j', r') ∈ σ.replies ++ _
  rw [List.mem_append, List.mem_append, h.answers j' r' ha]

/-- only the larger server answers -/
theorem Alone.reply_left (h : Alone n About Post σ σ') (t j : Nat) (r : Reply) (hi : σ'.pc t = .idle) (ha : ¬ About j) (hp : ¬ Post j) :
    Alone n About Post (σ.reply t j r) σ' := by
  refine ⟨h.store, upd_alone_left h.pc t (by rw [hi]; exact .idle), h.reqs, fun k s hk => ?_⟩
  show (k, s) ∈ σ'.replies ↔ (k, s) ∈ σ.replies ++ [(j, r)]
  have hne : k ≠ j := by
    rintro rfl
    exact hk.elim ha hp
  simp [h.answers k s hk, hne]

/-- only the smaller server answers -/
theorem Alone.reply_right (h : Alone n About Post σ σ') (t j : Nat) (r : Reply) {p : PC} (hi : PCAlone n About Post p .idle) (ha : ¬ About j) (hp : ¬ Post j) :
    Alone n About Post (σ.goto t p) (σ'.reply t j r) := by
  refine ⟨h.store, upd_alone h.pc t hi, h.reqs, fun k s hk => ?_⟩
  show (k, s) ∈ σ'.replies ++ [(j, r)] ↔ (k, s) ∈ σ.replies
  have hne : k ≠ j := by
    rintro rfl
    exact hk.elim ha hp
  simp [h.answers k s hk, hne]

theorem Alone.enter (h : Alone n About Post σ σ') (t : Nat) (st : StoreConc.State) (o : Nat × Nat) {p q : PC} (hp : PCAlone n About Post p q) :
    Alone n About Post (σ.enter t n st o p) (σ'.enter t 0 st o q) := by
  refine ⟨?_, upd_alone h.pc t hp, h.reqs, h.answers⟩
  show upd σ'.stores 0 st 0 = upd σ.stores n st n
  unfold upd
  simp

theorem Alone.enter_left (h : Alone n About Post σ σ') (t s : Nat) (st : StoreConc.State) (o : Nat × Nat) {p : PC} (hs : s ≠ n) (hp : PCAlone n About Post p (σ'.pc t)) :
    Alone n About Post (σ.enter t s st o p) σ' := by
  refine ⟨?_, upd_alone_left h.pc t hp, h.reqs, h.answers⟩
  show σ'.stores 0 = upd σ.stores s st n
  unfold upd
  rw [if_neg (by omega)]
  exact h.store

/-- a step of the server with all collations can be followed, in one step or none, by the server with the collation `d` alone, unless a post is refused -/
theorem step_alone (env : Env) (a b : List Conf) (d : Conf) (ha : ∀ c ∈ a, c.coll.name ≠ d.coll.name) (rs : List Request) {σ σ' τ : ServerConc.State}
    (hl : Alone a.length (fun j => ∃ req, rs[j]? = some req ∧ AsksOf [d] req) (fun j => ∃ req, rs[j]? = some req ∧ req.path = asc "/obs") σ σ')
    (hst : ServerConc.Step env (a ++ d :: b) σ τ) (hreq : τ.reqs <+: rs)
    (hok : ∀ j req r, rs[j]? = some req → req.path = asc "/obs" → (j, r) ∈ τ.replies → ∃ b, r = .ok b) :
    ∃ τ', ServerConc.Steps env [d] σ' τ' ∧
      Alone a.length (fun j => ∃ req, rs[j]? = some req ∧ AsksOf [d] req) (fun j => ∃ req, rs[j]? = some req ∧ req.path = asc "/obs") τ τ' := by
  obtain ⟨About, hAbout⟩ : ∃ About : Nat → Prop, About = fun j => ∃ req, rs[j]? = some req ∧ AsksOf [d] req := ⟨_, rfl⟩
  obtain ⟨Post, hPost⟩ : ∃ Post : Nat → Prop, Post = fun j => ∃ req, rs[j]? = some req ∧ req.path = asc "/obs" := ⟨_, rfl⟩
  have hok : ∀ j r, Post j → (j, r) ∈ τ.replies → ∃ b, r = .ok b := by
    rw [hPost]
    rintro j r ⟨req, h1, h2⟩ h
    exact hok j req r h1 h2 h
  rw [← hAbout, ← hPost] at hl ⊢
  have one : ∀ {x y : ServerConc.State}, ServerConc.Step env [d] x y → ServerConc.Steps env [d] x y := fun h => .tail (.refl _) h
  have may : ∀ {j : Nat}, σ.MayCancel j → σ'.MayCancel j := by
    rintro j ⟨req, h1, h2⟩
    exact ⟨req, by rw [hl.reqs]; exact h1, h2⟩
  have mid : ∀ {c : Conf}, (a ++ d :: b)[a.length]? = some c → c = d := by
    intro c h
    rw [List.getElem?_append_right (Nat.le_refl _), Nat.sub_self] at h
    exact (Option.some.inj h).symm
  have refused : ∀ {x : ServerConc.State} {t j : Nat} {k : Nat}, τ = x.reply t j (.refused k) → Post j → False := by
    intro x t j k e hj
    obtain ⟨b, hb⟩ := hok j (.refused k) hj (by rw [e]; exact List.mem_append_right _ (by simp))
    simp at hb
  generalize hτ : τ = τ₀ at hst
  cases hst with
  | receive t req hp =>
    subst hτ
    have hp' : σ'.pc t = .idle := by
      have := hl.pc t
      rw [hp] at this
      generalize hg : σ'.pc t = g at this
      cases this
      rfl
    have hr : (σ.receive env (a ++ d :: b) t req).reqs = σ.reqs ++ [req] := by
      unfold State.receive
      simp only
      split <;> rfl
    rw [hr] at hreq
    have hj : rs[σ.reqs.length]? = some req := by
      obtain ⟨more, hm⟩ := hreq
      rw [← hm, List.append_assoc, List.getElem?_append_right (Nat.le_refl _), Nat.sub_self]
      rfl
    refine ⟨_, one (.receive σ' t req hp'), ?_⟩
    have base : Alone a.length About Post { σ with reqs := σ.reqs ++ [req] } { σ' with reqs := σ'.reqs ++ [req] } :=
      ⟨hl.store, hl.pc, by show σ'.reqs ++ _ = σ.reqs ++ _; rw [hl.reqs], hl.answers⟩
    unfold State.receive
    simp only
    rw [show σ'.reqs.length = σ.reqs.length by rw [hl.reqs]]
    rcases task_alone env a b d ha req with ⟨r, h1, h2⟩ | ⟨L, e, h1, h2⟩ | ⟨q, h1, h2⟩ | ⟨s, q, h1, h2, h3, h4, h5⟩
    · rw [h1, h2]
      exact base.reply _ _ _
    · rw [h1, h2]
      exact base.goto _ (.lines _ _ _ _ (by rw [hPost]; exact ⟨req, hj, (task_observe h1).1⟩))
    · rw [h1, h2]
      exact base.goto _ (.ask _ _)
    · rw [h1, h3]
      have na : ¬ About σ.reqs.length := by
        rw [hAbout]
        rintro ⟨req', e1, e2⟩
        rw [hj] at e1
        obtain rfl := Option.some.inj e1
        exact h4 e2
      have np : ¬ Post σ.reqs.length := by
        rw [hPost]
        rintro ⟨req', e1, e2⟩
        rw [hj] at e1
        obtain rfl := Option.some.inj e1
        exact h5 e2
      exact base.reply_right _ _ _ (.askOther _ _ _ h2 na np) na np
  | finish t j p e hp =>
    have h := hl.pc t
    rw [hp] at h
    generalize hg : σ'.pc t = g at h
    cases h with
    | lines _ _ _ _ h1 => exact ⟨_, one (.finish σ' t j p e hg), hl.reply _ _ _⟩
  | cancelLine t j p line ls e hp hca =>
    have h := hl.pc t
    rw [hp] at h
    generalize hg : σ'.pc t = g at h
    cases h with
    | lines _ _ _ _ h1 => exact ⟨_, one (.cancelLine σ' t j p line ls e hg (may hca)), hl.reply _ _ _⟩
  | parse t j p line ls e hp =>
    have h := hl.pc t
    rw [hp] at h
    generalize hg : σ'.pc t = g at h
    cases h with
    | lines _ _ _ _ h1 =>
      refine ⟨_, one (.parse σ' t j p line ls e hg), ?_⟩
      unfold State.parse
      cases parseRow line with
      | panic => exact hl.reply _ _ _
      | val x =>
        cases x with
        | error x => exact hl.reply _ _ _
        | ok r => exact hl.goto _ (.before _ _ _ _ _ _ (Nat.zero_le _) h1)
  | stored t j p ls e r hp =>
    have h := hl.pc t
    rw [hp] at h
    generalize hg : σ'.pc t = g at h
    cases h with
    | before _ _ _ _ _ _ h1 h2 => rw [List.length_append, List.length_cons] at h1; omega
    | after _ _ _ _ _ _ h1 h2 => exact ⟨_, one (.stored σ' t j p ls e r hg), hl.goto _ (.lines _ _ _ _ h2)⟩
  | skip t j p ls e r s c hp hs hk =>
    have h := hl.pc t
    rw [hp] at h
    generalize hg : σ'.pc t = g at h
    cases h with
    | before _ _ _ _ _ _ h1 h2 =>
      by_cases h0 : s = a.length
      · subst h0
        obtain rfl := mid hs
        exact ⟨_, one (.skip σ' t j p ls e r 0 c hg rfl hk), hl.goto _ (.after _ _ _ _ _ _ (by omega) h2)⟩
      · exact ⟨σ', .refl _, hl.goto_left _ (by rw [hg]; exact .before _ _ _ _ _ _ (by omega) h2)⟩
    | after _ _ _ _ _ _ h1 h2 => exact ⟨σ', .refl _, hl.goto_left _ (by rw [hg]; exact .after _ _ _ _ _ _ (by omega) h2)⟩
  | cancelWrite t j p ls e r s c k hp hs hk hca =>
    have h := hl.pc t
    rw [hp] at h
    generalize hg : σ'.pc t = g at h
    cases h with
    | before _ _ _ _ _ _ h1 h2 => exact (refused hτ h2).elim
    | after _ _ _ _ _ _ h1 h2 => exact (refused hτ h2).elim
  | write t j p ls e r s c k fn hp hs hi hk hf =>
    have h := hl.pc t
    rw [hp] at h
    generalize hg : σ'.pc t = g at h
    cases h with
    | before _ _ _ _ _ _ h1 h2 =>
      by_cases h0 : s = a.length
      · subst h0
        obtain rfl := mid hs
        refine ⟨_, one (.write σ' t j p ls e r 0 c k fn hg rfl (by rw [hl.store]; exact hi) hk hf), ?_⟩
        rw [hl.store]
        exact hl.enter _ _ _ (.writing _ _ _ _ _ _ h2)
      · exact ⟨σ', .refl _, hl.enter_left _ _ _ _ h0 (by rw [hg]; exact .writingBefore _ _ _ _ _ _ _ (by omega) h2)⟩
    | after _ _ _ _ _ _ h1 h2 => exact ⟨σ', .refl _, hl.enter_left _ _ _ _ (by omega) (by rw [hg]; exact .writingAfter _ _ _ _ _ _ _ h1 h2)⟩
  | wrote t j p ls e r s i ret err hp hr he =>
    have h := hl.pc t
    rw [hp] at h
    generalize hg : σ'.pc t = g at h
    cases h with
    | writingBefore _ _ _ _ _ _ _ h1 h2 =>
      by_cases h3 : err = none
      · rw [if_pos h3]
        exact ⟨σ', .refl _, hl.goto_left _ (by rw [hg]; exact .before _ _ _ _ _ _ (by omega) h2)⟩
      · rw [if_neg h3] at hτ
        exact (refused hτ h2).elim
    | writing _ _ _ _ _ _ h2 =>
      refine ⟨_, one (.wrote σ' t j p ls e r 0 i ret err hg (by rw [hl.store]; exact hr) he), ?_⟩
      split
      · exact hl.goto _ (.after _ _ _ _ _ _ (by omega) h2)
      · exact hl.reply _ _ _
    | writingAfter _ _ _ _ _ _ _ h1 h2 =>
      by_cases h3 : err = none
      · rw [if_pos h3]
        exact ⟨σ', .refl _, hl.goto_left _ (by rw [hg]; exact .after _ _ _ _ _ _ (by omega) h2)⟩
      · rw [if_neg h3] at hτ
        exact (refused hτ h2).elim
  | noKey t j q s c hp hs hk =>
    have h := hl.pc t
    rw [hp] at h
    generalize hg : σ'.pc t = g at h
    cases h with
    | ask _ _ =>
      obtain rfl := mid hs
      exact ⟨_, one (.noKey σ' t j q 0 c hg rfl hk), hl.reply _ _ _⟩
    | askOther _ _ _ h1 h2 h3 => exact ⟨σ', .refl _, hl.reply_left _ _ _ hg h2 h3⟩
  | noBuffer t j q s c k hp hs hk hn =>
    have h := hl.pc t
    rw [hp] at h
    generalize hg : σ'.pc t = g at h
    cases h with
    | ask _ _ =>
      obtain rfl := mid hs
      exact ⟨_, one (.noBuffer σ' t j q 0 c k hg rfl hk hn), hl.reply _ _ _⟩
    | askOther _ _ _ h1 h2 h3 => exact ⟨σ', .refl _, hl.reply_left _ _ _ hg h2 h3⟩
  | read t j q s c k hp hs hi hk hn =>
    have h := hl.pc t
    rw [hp] at h
    generalize hg : σ'.pc t = g at h
    cases h with
    | ask _ _ =>
      obtain rfl := mid hs
      refine ⟨_, one (.read σ' t j q 0 c k hg rfl (by rw [hl.store]; exact hi) hk hn), ?_⟩
      rw [hl.store]
      exact hl.enter _ _ _ (.reading _ _ _)
    | askOther _ _ _ h1 h2 h3 => exact ⟨σ', .refl _, hl.enter_left _ _ _ _ h1 (by rw [hg]; exact .readingOther _ _ _ _ h1 h2 h3)⟩
  | answer t j q s i c ret out hp hs hr ho =>
    have h := hl.pc t
    rw [hp] at h
    generalize hg : σ'.pc t = g at h
    cases h with
    | reading _ _ _ =>
      obtain rfl := mid hs
      exact ⟨_, one (.answer σ' t j q 0 i c ret out hg rfl (by rw [hl.store]; exact hr) ho), hl.reply _ _ _⟩
    | readingOther _ _ _ _ h1 h2 h3 => exact ⟨σ', .refl _, hl.reply_left _ _ _ hg h2 h3⟩
  | inside t s c m' hs hm =>
    by_cases h1 : s = a.length
    · subst h1
      obtain rfl := mid hs
      refine ⟨_, one (.inside σ' t 0 c m' rfl (by rw [hl.store]; exact hm)), ?_, hl.pc, hl.reqs, hl.answers⟩
      show upd σ'.stores 0 _ 0 = upd σ.stores a.length _ a.length
      rw [hl.store]
      unfold upd
      simp
    · refine ⟨σ', .refl _, ?_, hl.pc, hl.reqs, hl.answers⟩
      show σ'.stores 0 = upd σ.stores s _ a.length
      unfold upd
      rw [if_neg (by omega)]
      exact hl.store

/-- **C90** under concurrent requests, for a collation `d` anywhere in the list (no earlier one has its name): take any run of the server, with any number of requests in progress in any
interleaving, in which no post was answered with a refusal. A server with `d` alone, sent the same requests in the same order, can do the same: it gives the same replies to every post and
every request that asks about `d`, and has the same bytes in the store of `d`. -/
theorem C90_answers_concurrent_partial (env : Env) (a b : List (Schema × Nat)) (d : Schema × Nat) (ha : ∀ c ∈ a, c.1.name ≠ d.1.name) (σ : ServerConc.State)
    (hr : ServerConc.Steps env (serverOf (a ++ d :: b)) ServerConc.init σ)
    (hok : ∀ j req r, σ.reqs[j]? = some req → req.path = asc "/obs" → (j, r) ∈ σ.replies → ∃ b, r = .ok b) :
    ∃ σ', ServerConc.Steps env (serverOf [d]) ServerConc.init σ' ∧ σ'.reqs = σ.reqs ∧ (σ'.stores 0).m = (σ.stores a.length).m ∧
      ∀ j req, σ.reqs[j]? = some req → req.path = asc "/collation/" ++ d.1.name ∨ req.path = asc "/obs" → ∀ r, (j, r) ∈ σ'.replies ↔ (j, r) ∈ σ.replies := by
  have hname : ∀ c : Schema × Nat, (compile c.1).name = c.1.name := fun c => compile_name c.1
  have hsplit : serverOf (a ++ d :: b) = serverOf a ++ ⟨compile d.1, d.2⟩ :: serverOf b := by unfold serverOf; rw [List.map_append, List.map_cons]
  have hlen : (serverOf a).length = a.length := by unfold serverOf; exact List.length_map _
  have ha' : ∀ c ∈ serverOf a, c.coll.name ≠ (⟨compile d.1, d.2⟩ : Conf).coll.name := by
    intro c hc
    obtain ⟨x, hx, rfl⟩ := List.mem_map.1 hc
    simp only [hname]
    exact ha x hx
  rw [hsplit] at hr
  have key : ∀ σ₀ τ, ServerConc.Steps env (serverOf a ++ ⟨compile d.1, d.2⟩ :: serverOf b) σ₀ τ → σ₀ = ServerConc.init → τ.reqs <+: σ.reqs → τ.replies <+: σ.replies →
      ∃ τ', ServerConc.Steps env [⟨compile d.1, d.2⟩] ServerConc.init τ' ∧
        Alone (serverOf a).length (fun j => ∃ req, σ.reqs[j]? = some req ∧ AsksOf [⟨compile d.1, d.2⟩] req)
          (fun j => ∃ req, σ.reqs[j]? = some req ∧ req.path = asc "/obs") τ τ' := by
    intro σ₀ τ hτ
    induction hτ with
    | refl =>
      rintro rfl - -
      exact ⟨_, .refl _, rfl, fun _ => .idle, rfl, fun _ _ _ => .rfl⟩
    | @tail τ τ₁ h1 h2 ih =>
      intro h0 hreq hrep
      have hx := ext_steps (.tail (.refl _) h2)
      obtain ⟨τ', g1, g2⟩ := ih h0 (hx.reqs.trans hreq) (hx.replies.trans hrep)
      obtain ⟨τ'', k1, k2⟩ := step_alone env (serverOf a) (serverOf b) ⟨compile d.1, d.2⟩ ha' σ.reqs g2 h2 hreq
        fun j req r e1 e2 e3 => hok j req r e1 e2 (hrep.subset e3)
      exact ⟨τ'', g1.trans k1, k2⟩
  obtain ⟨σ', h1, h2⟩ := key _ σ hr rfl (List.prefix_refl _) (List.prefix_refl _)
  refine ⟨σ', h1, h2.reqs, by rw [h2.store, hlen], fun j req hj hpath r => h2.answers j r ?_⟩
  rcases hpath with hpath | hpath
  · exact .inl ⟨req, hj, ⟨compile d.1, d.2⟩, by simp, by rw [hpath]; simp only [hname]⟩
  · exact .inr ⟨req, hj, hpath⟩

end Starbow.Props
