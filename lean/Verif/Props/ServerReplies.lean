import Verif.Proof.ServerReplies
import Verif.Props.ServerAlone
/-
Property C78: what the server answers, and how far it takes a post, whatever other requests are handled at the same time.
-/
namespace Starbow.Props
open Starbow.Collation Starbow.Spec Starbow.Storage Starbow.Server Starbow.ServerConc Starbow.BufmapConc Starbow.Cell Starbow.Probe

/-- the body the handler reads lines from: that of the request, or the form value `data` if there is one -/
inductive BodyOf (env : Env) (req : Request) : Body → Prop where
  | text (h : contentType env req = .ok (asc "text/plain") ∨ contentType env req = .ok (asc "application/octet-stream")) : BodyOf env req req.body
  | form (h : contentType env req = .ok (asc "application/x-www-form-urlencoded")) (hd : req.form (asc "data") ≠ []) :
      BodyOf env req (stringBody (req.form (asc "data")))

/-- the request is a post of observations whose body the scanner splits into `lines`, and ends with the error `e` -/
structure Posts (env : Env) (req : Request) (lines : List Bytes) (e : Option Err) : Prop where
  path : req.path = asc "/obs"
  method : req.method = asc "POST"
  star : req.star = false
  body : ∃ b, BodyOf env req b ∧ scan b.err b.eofWithData b.bytes = (lines, e)

/-- line `p` of request `j` was given to store `s`: its `Write` was called -/
def Given (σ : ServerConc.State) (j p s : Nat) : Prop :=
  ∃ (i : Nat) (r : Row), (σ.origin s)[i]? = some (j, p) ∧ (σ.stores s).calls[i]? = some (StoreConc.Call.write r)

/-- line `p` of request `j` is settled with store `s`: either it has not all the key fields, or the store's `Write` of it, made just once, returned nil -/
def Settled (confs : List Conf) (σ : ServerConc.State) (j p : Nat) (line : Bytes) (s : Nat) : Prop :=
  ∃ r c, parseRow line = .val (.ok r) ∧ confs[s]? = some c ∧
    (keyValue r.data c.coll.keys = none ∨
     ∃ i, (σ.origin s)[i]? = some (j, p) ∧ (σ.stores s).calls[i]? = some (StoreConc.Call.write r) ∧ (i, Ret.ran none) ∈ (σ.stores s).m.rets ∧
      ∀ i' r', (σ.origin s)[i']? = some (j, p) → (σ.stores s).calls[i']? = some (StoreConc.Call.write r') → i' = i)

theorem posts_task {env : Env} {confs : List Conf} {req : Request} {ls : List Bytes} {e : Option Err} (h : Posts env req ls e) :
    task env confs req = .observe ls e := by
  rw [task_obs env confs req h.path h.method h.star]
  obtain ⟨b, hb, hs⟩ := h.body
  unfold observation
  cases hb with
  | text ht =>
    rcases ht with ht | ht <;> rw [ht] <;> simp only
    · rw [if_neg (by decide +kernel), if_pos (.inl trivial)]; unfold observeBody; rw [hs]
    · rw [if_neg (by decide +kernel), if_pos (.inr trivial)]; unfold observeBody; rw [hs]
  | form ht hd =>
    rw [ht]; simp only
    rw [if_pos trivial, if_neg hd]; unfold observeBody; rw [hs]

theorem task_posts {env : Env} {confs : List Conf} {req : Request} {ls : List Bytes} {e : Option Err} (h : task env confs req = .observe ls e) :
    Posts env req ls e := by
  obtain ⟨h1, h2⟩ := task_observe h
  have h3 : req.star = false := by
    unfold task at h
    cases hs : req.star with
    | false => rfl
    | true => rw [hs] at h; simp at h
  refine ⟨h1, h2, h3, ?_⟩
  rw [task_obs env confs req h1 h2 h3] at h
  unfold observation at h
  split at h
  · simp at h
  · next ct hct =>
    split at h
    · next hf =>
      split at h
      · simp at h
      · next hd =>
        unfold observeBody at h
        injection h with e1 e2
        exact ⟨_, .form (by rw [hct, hf]) hd, by rw [← e1, ← e2]⟩
    · split at h
      · next ht =>
        unfold observeBody at h
        injection h with e1 e2
        refine ⟨_, .text ?_, by rw [← e1, ← e2]⟩
        rcases ht with ht | ht
        · exact .inl (by rw [hct, ht])
        · exact .inr (by rw [hct, ht])
      · simp at h

section
variable {env : Env} {confs : List Conf}

theorem done_settled {σ : ServerConc.State} (h : Inv env confs σ) {j p s : Nat} {req : Request} {ls : List Bytes} {e : Option Err} {line : Bytes}
    (hj : σ.reqs[j]? = some req) (hp : task env confs req = .observe ls e) (hl : ls[p]? = some line) (hd : Done env confs σ j p s) :
    Settled confs σ j p line s := by
  obtain ⟨r, c, ⟨req', ls', e', line', a1, a2, a3, a4⟩, hc, hd⟩ := hd
  rw [hj] at a1
  obtain rfl := Option.some.inj a1
  rw [hp] at a2
  injection a2 with a2 _
  subst a2
  rw [hl] at a3
  obtain rfl := Option.some.inj a3
  refine ⟨r, c, a4, hc, ?_⟩
  rcases hd with hd | ⟨i, hm, hi⟩
  · exact .inl hd
  · exact .inr ⟨i, hm.1, hm.2, hi, fun i' r' m1 m2 => h.once s i' i j p r' r ⟨m1, m2⟩ hm⟩

/-- a line is given to a store only when those before it are done -/
def InOrder (env : Env) (confs : List Conf) (σ : ServerConc.State) : Prop :=
  ∀ (s i j p : Nat) (r : Row), ServerConc.Made σ s i j p r → (∀ p' < p, ∀ s' < confs.length, Done env confs σ j p' s') ∧ ∀ s' < s, Done env confs σ j p s'

theorem inOrder_reach {σ : ServerConc.State} (hr : ServerConc.Steps env confs ServerConc.init σ) : InOrder env confs σ := by
  have key : ∀ {σ σ' : ServerConc.State}, Ext σ σ' → InOrder env confs σ → (∀ j, NoNew σ σ' j) → InOrder env confs σ' := by
    intro σ σ' hx h hn s i j p r hm
    obtain ⟨a, b⟩ := h s i j p r (hn j s i p r hm)
    exact ⟨fun p' hp s' hs => hx.done (a p' hp s' hs), fun s' hs => hx.done (b s' hs)⟩
  have enter : ∀ {σ : ServerConc.State}, Inv env confs σ → InOrder env confs σ →
      ∀ (t s : Nat) (op : Op) (x : StoreConc.Call) (j p : Nat) (pc : ServerConc.PC),
      ((∃ r, x = .write r) → (∀ p' < p, ∀ s' < confs.length, Done env confs σ j p' s') ∧ ∀ s' < s, Done env confs σ j p s') →
      InOrder env confs (σ.enter t s ⟨BufmapConc.call (σ.stores s).m t op, (σ.stores s).calls ++ [x]⟩ (j, p) pc) := by
    intro σ hi h t s op x j p pc hnew s' i j' p' r hm
    have hx := ext_enter σ t s op x (j, p) pc
    have old : ServerConc.Made σ s' i j' p' r ∨ (s' = s ∧ j' = j ∧ p' = p ∧ ∃ r, x = .write r) := by
      obtain ⟨m1, m2⟩ := hm
      unfold State.enter at m1 m2
      simp only at m1 m2
      by_cases e : s' = s
      · subst e
        rw [upd_same] at m1 m2
        rcases snoc_get m1 with m1' | ⟨m1', m1''⟩
        · rcases snoc_get m2 with m2' | ⟨m2', _⟩
          · exact .inl ⟨m1', m2'⟩
          · have := (List.getElem?_eq_some_iff.1 m1').1
            rw [hi.len, ← m2'] at this; omega
        · rcases snoc_get m2 with m2' | ⟨m2', m2''⟩
          · have := (List.getElem?_eq_some_iff.1 m2').1
            rw [← hi.len, ← m1'] at this; omega
          · simp only [Prod.mk.injEq] at m1''
            exact .inr ⟨rfl, m1''.1, m1''.2, r, m2''.symm⟩
      · rw [upd_other _ _ e] at m1 m2
        exact .inl ⟨m1, m2⟩
    have : (∀ p'' < p', ∀ s'' < confs.length, Done env confs σ j' p'' s'') ∧ ∀ s'' < s', Done env confs σ j' p' s'' := by
      rcases old with old | ⟨rfl, rfl, rfl, hw⟩
      · exact h s' i j' p' r old
      · exact hnew hw
    exact ⟨fun p'' hp s'' hs => hx.done (this.1 p'' hp s'' hs), fun s'' hs => hx.done (this.2 s'' hs)⟩
  suffices ∀ {a b}, ServerConc.Steps env confs a b → Inv env confs a → InOrder env confs a → InOrder env confs b from
    this hr inv_init (by intro s i j p r hm; have := hm.1; simp [ServerConc.init] at this)
  intro a b hs ha h0
  induction hs with
  | refl => exact h0
  | @tail σ σ' h1 hstep ih =>
    have hi := inv_steps ha h1
    have h := ih
    have same : (∀ s, σ'.origin s = σ.origin s) → (∀ s, (σ'.stores s).calls = (σ.stores s).calls) → InOrder env confs σ' := by
      intro e1 e2
      refine key (ext_step hstep) h ?_
      intro j s i p r hm
      exact ⟨by rw [← e1]; exact hm.1, by rw [← e2]; exact hm.2⟩
    cases hstep with
    | receive t req ht =>
      have hx := ext_step (ServerConc.Step.receive (env := env) (confs := confs) σ t req ht)
      refine key hx h ?_
      intro j s i p r hm
      unfold State.receive at hm
      simp only at hm
      split at hm <;> exact hm
    | finish t j p e ht => exact same (fun _ => rfl) (fun _ => rfl)
    | cancelLine t j p line ls e ht hc => exact same (fun _ => rfl) (fun _ => rfl)
    | parse t j p line ls e ht =>
      have hx := ext_step (ServerConc.Step.parse (env := env) (confs := confs) σ t j p line ls e ht)
      refine key hx h ?_
      intro j s i p r hm
      unfold State.parse at hm
      split at hm <;> exact hm
    | stored t j p ls e r ht => exact same (fun _ => rfl) (fun _ => rfl)
    | skip t j p ls e r s c ht hs hk => exact same (fun _ => rfl) (fun _ => rfl)
    | cancelWrite t j p ls e r s c k ht hs hk hc => exact same (fun _ => rfl) (fun _ => rfl)
    | write t j p ls e r s c k fn ht hs hidle hk hf =>
      have hp := hi.pcs t
      rw [ht] at hp
      obtain ⟨req, all, line, _, _, _, _, _, h4, h5, _⟩ := hp
      exact enter hi h t s _ _ j p _ (fun _ => ⟨h4, h5⟩)
    | wrote t j p ls e r s i ret err ht hr he =>
      by_cases hn : err = none
      · subst hn
        exact key (ext_goto _ _ _) h (fun _ _ _ _ _ hm => hm)
      · have := key (ext_reply σ t j (.refused 500)) h (fun _ _ _ _ _ hm => hm)
        simpa [hn] using this
    | noKey t j q s c ht hs hk => exact same (fun _ => rfl) (fun _ => rfl)
    | noBuffer t j q s c k ht hs hk hn => exact same (fun _ => rfl) (fun _ => rfl)
    | read t j q s c k ht hs hidle hk hn => exact enter hi h t s _ _ j 0 _ (fun ⟨r, hr⟩ => by simp at hr)
    | answer t j q s i c ret out ht hs hr ho => exact same (fun _ => rfl) (fun _ => rfl)
    | inside t s c m' hs hm =>
      refine same (fun _ => rfl) ?_
      intro s'
      simp only
      by_cases e : s' = s
      · subst e; rw [upd_same]
      · rw [upd_other _ _ e]
end

/-- **C78**: no request is answered twice, and nothing is answered that was not received. -/
theorem C78_once (env : Env) (confs : List Conf) (σ : ServerConc.State) (hr : ServerConc.Steps env confs ServerConc.init σ) :
    (σ.replies.map Prod.fst).Nodup ∧ ∀ j rep, (j, rep) ∈ σ.replies → j < σ.reqs.length :=
  ⟨(inv2_reach hr).once, fun j rep h => ((inv2_reach hr).all j rep h).lt⟩

/-- **C78**: a request that is neither a post whose body is read nor a query that gives all the key fields of a collation is answered as the sequential
server answers it, whatever its stores hold, and changes nothing there. -/
theorem C78_fixed (env : Env) (confs : List Conf) (σ : ServerConc.State) (hr : ServerConc.Steps env confs ServerConc.init σ) (j : Nat)
    (req : Request) (hj : σ.reqs[j]? = some req) (rep : Reply) (hrep : (j, rep) ∈ σ.replies)
    (hobs : ∀ ls e, ¬ Posts env req ls e)
    (hkey : ∀ (q : Query) (s : Nat) (c : Conf), Query.roughParse env.ord (req.form (asc "q")) = .ok q → confs[s]? = some c → req.path = asc "/collation/" ++ c.coll.name →
      keyValue q.criteria c.coll.keys = none)
    (sts : List Store) (hsts : sts.map (·.coll) = confs.map (·.coll)) : Server.serve env sts req = (sts, rep) := by
  have hlen : sts.length = confs.length := by simpa using congrArg List.length hsts
  have hcoll : ∀ (s : Nat) (st : Store) (c : Conf), sts[s]? = some st → confs[s]? = some c → st.coll = c.coll := by
    intro s st c h1 h2
    have := congrArg (·[s]?) hsts
    simp only [List.getElem?_map, h1, h2, Option.map_some, Option.some.injEq] at this
    exact this
  have hok := (inv_reach hr).replies j rep hrep
  rcases serve_task env confs sts hlen hcoll req with ⟨r, e1, e2⟩ | ⟨ls, e, e1, e2⟩ | ⟨s, q, st, c, e1, e3, e4, e2⟩
  · rw [e2, hok.now req r hj e1]
  · exact absurd (task_posts e1) (hobs ls e)
  · have hq : Query.roughParse env.ord (req.form (asc "q")) = .ok q ∧ req.path = asc "/collation/" ++ c.coll.name := by
      unfold task at e1
      split at e1
      · simp at e1
      split at e1
      · simp at e1
      split at e1
      · split at e1
        · unfold observation at e1
          split at e1
          · simp at e1
          · split at e1
            · split at e1
              · simp at e1
              · simp [observeBody] at e1
            · split at e1
              · simp [observeBody] at e1
              · simp at e1
        · simp at e1
      split at e1
      · next hp =>
        simp only at e1
        split at e1
        · simp at e1
        split at e1
        · simp at e1
        split at e1
        · simp at e1
        unfold ServerConc.lookup at e1
        split at e1
        · simp at e1
        · next q' hq' =>
          split at e1
          · simp at e1
          · next s' hs' =>
            injection e1 with e5 e6
            subst e5; subst e6
            refine ⟨hq', ?_⟩
            obtain ⟨h1, h2, _⟩ := List.findIdx?_eq_some_iff_getElem.1 hs'
            rw [List.getElem?_eq_getElem h1] at e4
            obtain rfl := Option.some.inj e4
            obtain ⟨name, hn⟩ := hp
            rw [← hn] at h2 ⊢
            simp only [List.drop_left, decide_eq_true_eq] at h2
            rw [h2]
      · split at e1 <;> simp at e1
    have hk := hkey q s c hq.1 e4 hq.2
    have := ((inv2_reach hr).all j rep hrep).ask req s q c hj e1 e4 hk
    rw [e2, this]
    unfold Storage.read
    rw [hcoll s st c e3 e4, hk]
    rfl

/-- **C78**: a post that cannot be cancelled and is answered 200 was read to its end without an error, and every line of it is settled with every
store. -/
theorem C78_accepted (env : Env) (confs : List Conf) (σ : ServerConc.State) (hr : ServerConc.Steps env confs ServerConc.init σ) (j : Nat)
    (req : Request) (hj : σ.reqs[j]? = some req) (hctx : req.ctx = none) (ls : List Bytes) (e : Option Err) (hp : Posts env req ls e)
    (b : Bytes) (hrep : (j, Reply.ok b) ∈ σ.replies) :
    b = [] ∧ e = none ∧ ∀ p line, ls[p]? = some line → ∀ s < confs.length, Settled confs σ j p line s := by
  have hi := inv_reach hr
  have ht := posts_task (confs := confs) hp
  obtain ⟨h1, h2⟩ := (hi.replies j _ hrep).obs req ls e b hj ht rfl hctx
  refine ⟨?_, h1, fun p line hl s hs => done_settled hi hj ht hl (h2 p (List.getElem?_eq_some_iff.1 hl).1 s hs)⟩
  rcases ((inv2_reach hr).all j _ hrep).post req ls e hj ht hctx with h | ⟨h, _⟩
  · injection h
  · simp at h

/-- **C78**: a post that cannot be cancelled and is not answered 200 is answered 500, and there is a first place `(p, s)` at which it went wrong: all lines
before line `p` are settled with every store, line `p` is with the stores before `s`, nothing behind this place was given to a store, and
either the body ended there with an error, or line `p` is no observation (and was given to no store), or store `s` returned an error for it. -/
theorem C78_refused (env : Env) (confs : List Conf) (σ : ServerConc.State) (hr : ServerConc.Steps env confs ServerConc.init σ) (j : Nat)
    (req : Request) (hj : σ.reqs[j]? = some req) (hctx : req.ctx = none) (ls : List Bytes) (e : Option Err) (hp : Posts env req ls e)
    (rep : Reply) (hrep : (j, rep) ∈ σ.replies) (hno : ∀ b, rep ≠ .ok b) :
    rep = .refused 500 ∧ ∃ p s,
      (∀ p' < p, ∀ line, ls[p']? = some line → ∀ s' < confs.length, Settled confs σ j p' line s') ∧
      (∀ line, ls[p]? = some line → ∀ s' < s, Settled confs σ j p line s') ∧
      (∀ p' s', Given σ j p' s' → p' < p ∨ p' = p ∧ s' ≤ s) ∧
      ((p = ls.length ∧ e ≠ none) ∨
       (∃ line err, ls[p]? = some line ∧ parseRow line = .val (.error err) ∧ ∀ s', ¬ Given σ j p s') ∨
       (∃ line r i ret err, ls[p]? = some line ∧ parseRow line = .val (.ok r) ∧ s < confs.length ∧ (σ.origin s)[i]? = some (j, p) ∧
         (σ.stores s).calls[i]? = some (StoreConc.Call.write r) ∧ (i, ret) ∈ (σ.stores s).m.rets ∧ StoreConc.writeReply ret = some (some err))) := by
  have hi := inv_reach hr
  have ht := posts_task (confs := confs) hp
  rcases ((inv2_reach hr).all j _ hrep).post req ls e hj ht hctx with h | ⟨h, p, s, h1, h2, h3⟩
  · exact absurd h (hno _)
  refine ⟨h, p, s, fun p' hp' line hl s' hs' => done_settled hi hj ht hl (h1 p' hp' s' hs'), fun line hl s' hs' => done_settled hi hj ht hl (h2 s' hs'),
    ?_, ?_⟩
  · rintro p' s' ⟨i, r, m1, m2⟩
    rcases h3 with ⟨_, rfl, _, hb⟩ | ⟨_, _, _, _, rfl, hb⟩ | ⟨_, _, _, _, _, _, _, _, _, hb⟩
    · rcases hb s' i p' r ⟨m1, m2⟩ with h | ⟨h, h'⟩
      · exact .inl h
      · omega
    · rcases hb s' i p' r ⟨m1, m2⟩ with h | ⟨h, h'⟩
      · exact .inl h
      · omega
    · rcases hb s' i p' r ⟨m1, m2⟩ with h | ⟨h, h'⟩
      · exact .inl h
      · exact .inr ⟨h, by omega⟩
  · rcases h3 with ⟨a, _, c, _⟩ | ⟨line, err, a, b, _, hb⟩ | ⟨r, i, ret, err, ⟨req', ls', e', line, a1, a2, a3, a4⟩, b, c, d, f, g⟩
    · exact .inl ⟨a, c⟩
    · refine .inr (.inl ⟨line, err, a, b, ?_⟩)
      rintro s' ⟨i, r, m1, m2⟩
      rcases hb s' i p r ⟨m1, m2⟩ with h | ⟨_, h⟩ <;> omega
    · rw [hj] at a1
      obtain rfl := Option.some.inj a1
      rw [ht] at a2
      injection a2 with a2 _
      subst a2
      exact .inr (.inr ⟨line, r, i, ret, err, a3, a4, b, c.1, c.2, d, f⟩)

/-- **C78**, in order, of any post at any moment, be it cancelled, in progress or answered: a line is given to a store only once all lines before it
are settled with all the stores and it itself with the stores before this one. -/
theorem C78_order (env : Env) (confs : List Conf) (σ : ServerConc.State) (hr : ServerConc.Steps env confs ServerConc.init σ) (j p s : Nat)
    (hg : Given σ j p s) : ∃ req ls e, σ.reqs[j]? = some req ∧ Posts env req ls e ∧ p < ls.length ∧
      (∀ p' < p, ∀ line, ls[p']? = some line → ∀ s' < confs.length, Settled confs σ j p' line s') ∧
      ∀ line, ls[p]? = some line → ∀ s' < s, Settled confs σ j p line s' := by
  have hi := inv_reach hr
  obtain ⟨i, r, m1, m2⟩ := hg
  obtain ⟨j', p', h1, req, ls, e, line, a1, a2, a3, a4⟩ := hi.made s i r m2
  rw [m1] at h1
  simp only [Option.some.injEq, Prod.mk.injEq] at h1
  obtain ⟨rfl, rfl⟩ := h1
  obtain ⟨b1, b2⟩ := inOrder_reach hr s i j p r ⟨m1, m2⟩
  exact ⟨req, ls, e, a1, task_posts a2, (List.getElem?_eq_some_iff.1 a3).1, fun p' hp' line hl s' hs' => done_settled hi a1 a2 hl (b1 p' hp' s' hs'),
    fun line hl s' hs' => done_settled hi a1 a2 hl (b2 s' hs')⟩

/-- the body of the posts used below -/
theorem posts_one (env : Env) (l : Bytes) (hl : LineOk l) : Posts env (post (l ++ [0x0a])) [noCR l] none := by
  refine ⟨rfl, rfl, rfl, _, .text (.inr rfl), ?_⟩
  have := scan_unlines none false [] [l] (by simpa using hl)
  rw [show scan none false [] = ([], none) by decide +kernel] at this
  simpa [unlines, post] using this

/-- instance of all theorems above: in the program, one goroutine posts an observation of FR and is answered 200, another posts a line that is no
observation and is answered 500, a third asks for a page there is not and is answered 404 -/
example (env : Env) : ∃ σ, ServerConc.Steps env demoConfs ServerConc.init σ ∧
    σ.reqs = [post (unlines [(countryLine (asc "FR")).text]), post (asc "country=FR" ++ [0x0a]), { method := asc "GET", path := asc "/nowhere" }] ∧
    σ.replies = [(0, .ok []), (1, .refused 500), (2, .refused 404)] ∧
    (∀ s < 2, Settled demoConfs σ 0 0 (countryLine (asc "FR")).text s) ∧ Given σ 0 0 0 ∧ ∀ p s, ¬ Given σ 1 p s := by
  have hpos : ∀ c ∈ demoConfs, 0 < c.slots := by
    intro c hc
    simp only [demoConfs, List.mem_cons, List.not_mem_nil, or_false] at hc
    rcases hc with rfl | rfl <;> (show 0 < Demo.slots; decide)
  have hw : Writable (asc "FR") := ⟨by decide +kernel, by decide +kernel, by decide +kernel, by decide +kernel⟩
  have hk : keyValue [⟨asc "country", asc "FR"⟩] Demo.country.keys = some 12582602682680778473 := by decide +kernel
  have hcor := countryLine_correct hw
  obtain ⟨σ₀, a1, a2, a3, a4, a5, a6, a7⟩ := C68_alone env demoConfs hpos ServerConc.init (.refl _) 0 rfl (fun _ => rfl) _ demo_agrees
    (post (unlines [(countryLine (asc "FR")).text])) _ _ (demo_post env hw hk (by decide)) (by simp) (by simp)
  have hbad : LineOk (asc "country=FR") := ⟨by decide +kernel, by decide +kernel⟩
  obtain ⟨σ₁, b1, b2, b3, b4, b5, b6, b7⟩ := C68_alone env demoConfs hpos σ₀ a1 1 (by rw [a5]; rfl) (fun s => by rw [a6]; rfl) _ a2 _ _ _
    (C43_bad_line env _ (asc "country=FR") hbad .missingTimestamp (by decide +kernel)) (by simp) (by simp)
  obtain ⟨σ, c1, c2, c3, c4, c5, c6, c7⟩ := C68_alone env demoConfs hpos σ₁ (a1.trans b1) 2 (by rw [b5, a5]; rfl) (fun s => by rw [b6, a6]; rfl) _ b2
    { method := asc "GET", path := asc "/nowhere" } _ (.refused 404)
    (by
      unfold Server.serve
      rw [if_neg (by simp), if_neg (by decide +kernel), if_neg (by decide +kernel), if_neg (by decide +kernel), if_neg (by decide +kernel)])
    (by simp) (by simp)
  have hr := (a1.trans b1).trans c1
  have hreqs : σ.reqs = [post (unlines [(countryLine (asc "FR")).text]), post (asc "country=FR" ++ [0x0a]), { method := asc "GET", path := asc "/nowhere" }] := by
    rw [c3, b3, a3]; rfl
  have hreps : σ.replies = [(0, .ok []), (1, .refused 500), (2, .refused 404)] := by
    rw [c4, b4, a4, b3, a3]; rfl
  have hp0 : Posts env (post (unlines [(countryLine (asc "FR")).text])) [(countryLine (asc "FR")).text] none := by
    have := posts_one env (countryLine (asc "FR")).text ⟨hcor.no_newline, hcor.fits⟩
    rw [show noCR (countryLine (asc "FR")).text = (countryLine (asc "FR")).text by decide +kernel] at this
    simpa [unlines] using this
  have hset := (C78_accepted env demoConfs σ hr 0 _ (by rw [hreqs]; rfl) rfl _ _ hp0 [] (by rw [hreps]; simp)).2.2 0 _ rfl
  refine ⟨σ, hr, hreqs, hreps, hset, ?_, ?_⟩
  · obtain ⟨r, c, h1, h2, h3⟩ := hset 0 (by simp [demoConfs])
    rcases h3 with h3 | ⟨i, h3, h4, _⟩
    · have hp := line_parse hcor
      rw [show noCR (countryLine (asc "FR")).text = (countryLine (asc "FR")).text by decide +kernel, h1] at hp
      injection hp with hp
      injection hp with hp
      rw [hp] at h3
      obtain rfl := Option.some.inj h2
      rw [show (⟨compile Demo.country, Demo.slots⟩ : Conf).coll.keys = Demo.country.keys from compile_keys _] at h3
      rw [show ((countryLine (asc "FR")).fs) = [⟨asc "country", asc "FR"⟩] from rfl] at h3
      simp only at h3
      rw [hk] at h3
      simp at h3
    · exact ⟨i, r, h3, h4⟩
  · intro p s hg
    have hp1 := posts_one env (asc "country=FR") hbad
    obtain ⟨_, p', s', e1, e2, e3, e4⟩ := C78_refused env demoConfs σ hr 1 _ (by rw [hreqs]; rfl) rfl _ _ hp1 (.refused 500) (by rw [hreps]; simp) (by simp)
    rcases e4 with ⟨_, h⟩ | ⟨line, err, f1, f2, f3⟩ | ⟨line, r, i, ret, err, f1, f2, _⟩
    · exact h rfl
    · have hp' : p' = 0 := by
        have := (List.getElem?_eq_some_iff.1 f1).1
        simpa using this
      subst hp'
      rcases e3 p s hg with h | ⟨rfl, _⟩
      · omega
      · exact f3 s hg
    · have hp' : p' = 0 := by
        have := (List.getElem?_eq_some_iff.1 f1).1
        simpa using this
      subst hp'
      obtain rfl := Option.some.inj f1
      rw [show parseRow (noCR (asc "country=FR")) = .val (.error .missingTimestamp) by decide +kernel] at f2
      simp at f2

end Starbow.Props
