import Verif.Proof.ServerReplies
/- The concurrent server: how far a post had come when it was answered, also if it could be cancelled. -/
namespace Starbow.ServerConc
open Starbow Starbow.Collation Starbow.Server Starbow.Cell Starbow.Probe Starbow.BufmapConc

variable {env : Env} {confs : List Conf}

/-- why request `j`, the post `req` of the lines `all`, got the answer `rep`, and how far it had come -/
def Cut (env : Env) (confs : List Conf) (σ : State) (j : Nat) (req : Request) (all : List Bytes) (e : Option Err) (rep : Reply) : Prop :=
  ∃ p s, (∀ p' < p, ∀ s' < confs.length, Done env confs σ j p' s') ∧ (∀ s' < s, Done env confs σ j p s') ∧
    ((p = all.length ∧ s = 0 ∧ Below σ j p 0 ∧ rep = if e = none then .ok [] else .refused 500) ∨
     (p < all.length ∧ s = 0 ∧ Below σ j p 0 ∧ req.ctx ≠ none ∧ rep = .ok []) ∨
     (∃ line err, all[p]? = some line ∧ parseRow line = .val (.error err) ∧ s = 0 ∧ Below σ j p 0 ∧ rep = .refused 500) ∨
     (∃ r c k, LineIs env confs σ j p r ∧ confs[s]? = some c ∧ keyValue r.data c.coll.keys = some k ∧ Below σ j p s ∧ req.ctx ≠ none ∧ rep = .refused 500) ∨
     (∃ r i ret err, LineIs env confs σ j p r ∧ s < confs.length ∧ Made σ s i j p r ∧ (i, ret) ∈ (σ.stores s).m.rets ∧
       StoreConc.writeReply ret = some (some err) ∧ Below σ j p (s + 1) ∧ rep = .refused 500))

theorem Cut.frame {σ σ' : State} (hx : Ext σ σ') {j : Nat} (hn : NoNew σ σ' j) {req : Request} {all : List Bytes} {e : Option Err} {rep : Reply}
    (h : Cut env confs σ j req all e rep) : Cut env confs σ' j req all e rep := by
  have below : ∀ {p s}, Below σ j p s → Below σ' j p s := fun hb s' i p' r hm => hb s' i p' r (hn _ _ _ _ hm)
  obtain ⟨p, s, h1, h2, h3⟩ := h
  refine ⟨p, s, fun p' hp s' hs => hx.done (h1 p' hp s' hs), fun s' hs => hx.done (h2 s' hs), ?_⟩
  rcases h3 with ⟨a, b, c, d⟩ | ⟨a, b, c, d⟩ | ⟨line, err, a, b, c, d, f⟩ | ⟨r, c, k, a, b, d, f, g⟩ | ⟨r, i, ret, err, a, b, c, d, f, g, g'⟩
  · exact .inl ⟨a, b, below c, d⟩
  · exact .inr (.inl ⟨a, b, below c, d⟩)
  · exact .inr (.inr (.inl ⟨line, err, a, b, c, below d, f⟩))
  · exact .inr (.inr (.inr (.inl ⟨r, c, k, hx.lineIs a, b, d, below f, g⟩)))
  · exact .inr (.inr (.inr (.inr ⟨r, i, ret, err, hx.lineIs a, b, hx.made c, (hx.rets s).subset d, f, below g, g'⟩)))

/-- no store is called for a request no goroutine works on -/
theorem noNew_step {σ σ' : State} (h : Inv env confs σ) (hs : Step env confs σ σ') {j : Nat} (hj : ∀ t, job (σ.pc t) ≠ some j) : NoNew σ σ' j := by
  cases hs with
  | receive t req ht =>
    intro s i p r hm
    unfold State.receive at hm
    simp only at hm
    split at hm <;> exact hm
  | finish t j p e ht => exact fun _ _ _ _ hm => hm
  | cancelLine t j p line ls e ht hc => exact fun _ _ _ _ hm => hm
  | parse t j p line ls e ht =>
    intro s i p r hm
    unfold State.parse at hm
    split at hm <;> exact hm
  | stored t j p ls e r ht => exact fun _ _ _ _ hm => hm
  | skip t j p ls e r s c ht hs hk => exact fun _ _ _ _ hm => hm
  | cancelWrite t j p ls e r s c k ht hs hk hc => exact fun _ _ _ _ hm => hm
  | write t j' p ls e r s c k fn ht hs hi hk hf =>
    exact noNew_enter h t s _ _ j' p _ (fun e' => hj t (by rw [ht, e']; rfl))
  | wrote t j p ls e r s i ret err ht hr he =>
    intro s i p r hm
    split at hm <;> exact hm
  | noKey t j q s c ht hs hk => exact fun _ _ _ _ hm => hm
  | noBuffer t j q s c k ht hs hk hn => exact fun _ _ _ _ hm => hm
  | read t j' q s c k ht hs hi hk hn =>
    exact noNew_enter h t s _ _ j' 0 _ (fun e' => hj t (by rw [ht, e']; rfl))
  | answer t j q s i c ret out ht hs hr ho => exact fun _ _ _ _ hm => hm
  | inside t s c m' hs hm =>
    intro s' i p r hm'
    refine ⟨hm'.1, ?_⟩
    have := hm'.2
    simp only at this
    by_cases e : s' = s
    · subst e; rw [upd_same] at this; exact this
    · rw [upd_other _ _ e] at this; exact this

/-- what is kept about the answers to posts -/
def Cuts (env : Env) (confs : List Conf) (σ : State) : Prop :=
  ∀ j rep, (j, rep) ∈ σ.replies → ∀ req all e, σ.reqs[j]? = some req → task env confs req = .observe all e → Cut env confs σ j req all e rep

theorem cuts_step {σ σ' : State} (h : Inv env confs σ) (h2 : Inv2 env confs σ) (h3 : Cuts env confs σ) (hs : Step env confs σ σ') : Cuts env confs σ' := by
  have hx := ext_step hs
  have old : ∀ j rep, (j, rep) ∈ σ.replies → ∀ req all e, σ'.reqs[j]? = some req → task env confs req = .observe all e → Cut env confs σ' j req all e rep := by
    intro j rep hm req all e hj ht
    have hr := h2.all j rep hm
    have hj' : σ.reqs[j]? = some req := by
      have := prefix_get hx.reqs (List.getElem?_eq_getElem hr.lt)
      rw [this] at hj
      rw [List.getElem?_eq_getElem hr.lt, hj]
    exact (h3 j rep hm req all e hj' ht).frame hx (noNew_step h hs hr.free)
  -- nothing is answered
  have none' : σ'.replies = σ.replies → Cuts env confs σ' := by
    intro he j rep hm
    rw [he] at hm
    exact old j rep hm
  -- a post is answered
  have one : ∀ (t j : Nat) (rep : Reply) (req : Request) (all : List Bytes) (e : Option Err), σ' = σ.reply t j rep → σ.reqs[j]? = some req →
      task env confs req = .observe all e → Cut env confs σ j req all e rep → Cuts env confs σ' := by
    intro t j rep req all e he h1 ht hc j' rep' hm req' all' e' hj' ht'
    have hm' : (j', rep') ∈ σ.replies ∨ (j', rep') = (j, rep) := by
      rw [he] at hm
      rcases List.mem_append.1 (show (j', rep') ∈ σ.replies ++ [(j, rep)] from hm) with h | h
      · exact .inl h
      · exact .inr (List.mem_singleton.1 h)
    rcases hm' with hm' | hm'
    · exact old j' rep' hm' req' all' e' hj' ht'
    · simp only [Prod.mk.injEq] at hm'
      obtain ⟨rfl, rfl⟩ := hm'
      have : σ.reqs[j']? = some req' := by rw [he] at hj'; exact hj'
      rw [h1] at this
      obtain rfl := Option.some.inj this
      rw [ht] at ht'
      injection ht' with e1 e2
      subst e1; subst e2
      exact hc.frame hx (by rw [he]; exact fun _ _ _ _ hm => hm)
  -- something else is answered
  have other : ∀ (t j : Nat) (rep : Reply), σ' = σ.reply t j rep → (∀ req all e, σ.reqs[j]? = some req → task env confs req ≠ .observe all e) → Cuts env confs σ' := by
    intro t j rep he hno j' rep' hm req' all' e' hj' ht'
    have hm' : (j', rep') ∈ σ.replies ∨ (j', rep') = (j, rep) := by
      rw [he] at hm
      rcases List.mem_append.1 (show (j', rep') ∈ σ.replies ++ [(j, rep)] from hm) with h | h
      · exact .inl h
      · exact .inr (List.mem_singleton.1 h)
    rcases hm' with hm' | hm'
    · exact old j' rep' hm' req' all' e' hj' ht'
    · simp only [Prod.mk.injEq] at hm'
      obtain ⟨rfl, rfl⟩ := hm'
      have : σ.reqs[j']? = some req' := by rw [he] at hj'; exact hj'
      exact absurd ht' (hno _ _ _ this)
  have query : ∀ {j : Nat} {req : Request} {s : Nat} {q : Query}, σ.reqs[j]? = some req → task env confs req = .query s q →
      ∀ req' all e, σ.reqs[j]? = some req' → task env confs req' ≠ .observe all e := by
    intro j req s q h1 h2 req' all e h3 h4
    rw [h1] at h3
    obtain rfl := Option.some.inj h3
    rw [h2] at h4
    simp at h4
  cases hs with
  | receive t req ht =>
    intro j rep hm req' all e hj ht'
    by_cases hold : (j, rep) ∈ σ.replies
    · exact old j rep hold req' all e hj ht'
    · exfalso
      unfold State.receive at hm hj
      simp only at hm hj
      split at hm
      · next r hr =>
        have hm' : (j, rep) = (σ.reqs.length, r) := by
          rcases List.mem_append.1 (show (j, rep) ∈ σ.replies ++ [(σ.reqs.length, r)] from hm) with h | h
          · exact absurd h hold
          · exact List.mem_singleton.1 h
        simp only [Prod.mk.injEq] at hm'
        obtain ⟨rfl, rfl⟩ := hm'
        rw [hr] at hj
        have : (σ.reqs ++ [req])[σ.reqs.length]? = some req' := hj
        rw [List.getElem?_append_right (Nat.le_refl _)] at this
        simp only [Nat.sub_self, List.getElem?_cons_zero, Option.some.injEq] at this
        subst this
        rw [hr] at ht'
        simp at ht'
      · exact hold hm
      · exact hold hm
  | finish t j p e ht =>
    have hp := h.pcs t
    rw [ht] at hp
    obtain ⟨req, all, h1, h4, h5, h6, h7⟩ := hp
    refine one t j _ req all e rfl h1 h4 ?_
    have hle := List.drop_eq_nil_iff.1 h5.symm
    have hd : ∀ p' < all.length, ∀ s' < confs.length, Done env confs σ j p' s' := fun p' hp' => h6 p' (by omega)
    refine ⟨all.length, 0, hd, by simp, .inl ⟨rfl, rfl, ?_, rfl⟩⟩
    intro s' i p' r hm
    obtain ⟨j', p'', m1, req', ls, e', line, a1, a2, a3, a4⟩ := h.made s' i r hm.2
    rw [hm.1] at m1
    simp only [Option.some.injEq, Prod.mk.injEq] at m1
    obtain ⟨rfl, rfl⟩ := m1
    rw [h1] at a1
    obtain rfl := Option.some.inj a1
    rw [h4] at a2
    injection a2 with a2 _
    subst a2
    exact .inl (List.getElem?_eq_some_iff.1 a3).1
  | cancelLine t j p line ls e ht hc =>
    have hp := h.pcs t
    rw [ht] at hp
    obtain ⟨req, all, h1, h4, h5, h6, h7⟩ := hp
    obtain ⟨req', hr', hc⟩ := hc
    rw [h1] at hr'
    obtain rfl := Option.some.inj hr'
    refine one t j _ req all e rfl h1 h4 ⟨p, 0, h6, by simp, .inr (.inl ⟨?_, rfl, h7, hc, rfl⟩)⟩
    by_contra hge
    rw [List.drop_eq_nil_of_le (by omega)] at h5
    simp at h5
  | parse t j p line ls e ht =>
    have hp := h.pcs t
    rw [ht] at hp
    obtain ⟨req, all, h1, h4, h5, h6, h7⟩ := hp
    have hline : all[p]? = some line := by
      have := congrArg (·[0]?) h5
      simp only [List.getElem?_cons_zero, List.getElem?_drop, Nat.add_zero] at this
      exact this.symm
    cases hpr : parseRow line with
    | panic => rw [parseRow_eq] at hpr; simp at hpr
    | val x =>
      cases x with
      | error err =>
        refine one t j (.refused 500) req all e ?_ h1 h4 ⟨p, 0, h6, by simp, .inr (.inr (.inl ⟨line, err, hline, hpr, rfl, h7, rfl⟩))⟩
        unfold State.parse
        rw [hpr]
      | ok r =>
        refine none' ?_
        unfold State.parse
        rw [hpr]
        rfl
  | stored t j p ls e r ht => exact none' rfl
  | skip t j p ls e r s c ht hs hk => exact none' rfl
  | cancelWrite t j p ls e r s c k ht hs hk hc =>
    have hp := h.pcs t
    rw [ht] at hp
    obtain ⟨req, all, line, h1, h4, h5, h5', h5'', h6, h7, h8⟩ := hp
    obtain ⟨req', hr', hc⟩ := hc
    rw [h1] at hr'
    obtain rfl := Option.some.inj hr'
    exact one t j _ req all e rfl h1 h4 ⟨p, s, h6, h7, .inr (.inr (.inr (.inl ⟨r, c, k, ⟨req, all, e, line, h1, h4, h5', h5''⟩, hs, hk, h8, hc, rfl⟩)))⟩
  | write t j p ls e r s c k fn ht hs hi hk hf => exact none' rfl
  | wrote t j p ls e r s i ret err ht hr he =>
    have hp := h.pcs t
    rw [ht] at hp
    obtain ⟨req, all, line, h1, h4, h5, h5', h5'', h6, h7, h8, ⟨c, h9⟩, h10⟩ := hp
    by_cases hn : err = none
    · exact none' (by rw [if_pos hn]; rfl)
    · obtain ⟨err', rfl⟩ := Option.ne_none_iff_exists'.1 hn
      exact one t j _ req all e (by rw [if_neg hn]) h1 h4 ⟨p, s, h6, h7, .inr (.inr (.inr (.inr ⟨r, i, ret, err', ⟨req, all, e, line, h1, h4, h5', h5''⟩,
        (List.getElem?_eq_some_iff.1 h9).1, h10, hr, he, h8, rfl⟩)))⟩
  | noKey t j q s c ht hs hk =>
    have hp := h.pcs t
    rw [ht] at hp
    obtain ⟨req, h1, h4⟩ := hp
    exact other t j _ rfl (query h1 h4)
  | noBuffer t j q s c k ht hs hk hn =>
    have hp := h.pcs t
    rw [ht] at hp
    obtain ⟨req, h1, h4⟩ := hp
    exact other t j _ rfl (query h1 h4)
  | read t j q s c k ht hs hi hk hn => exact none' rfl
  | answer t j q s i c ret out ht hs hr ho =>
    have hp := h.pcs t
    rw [ht] at hp
    obtain ⟨req, h1, h4, _⟩ := hp
    exact other t j _ rfl (query h1 h4)
  | inside t s c m' hs hm => exact none' rfl

theorem cuts_reach {σ : State} (hs : Steps env confs init σ) : Cuts env confs σ := by
  suffices ∀ {a b}, Steps env confs a b → Inv env confs a → Inv2 env confs a → Cuts env confs a → Cuts env confs b from
    this hs inv_init inv2_init (by intro j rep hm; simp [init] at hm)
  intro a b hs ha h2 h3
  induction hs with
  | refl => exact h3
  | tail h0 h1 ih => exact cuts_step (inv_steps ha h0) (by
      clear ih h1
      induction h0 with
      | refl => exact h2
      | tail g0 g1 ih => exact inv2_step (inv_steps ha g0) ih g1) ih h1

end Starbow.ServerConc
