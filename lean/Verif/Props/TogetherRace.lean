import Verif.Props.Together
import Verif.Props.NeighboursRace
/-
Property C92 under concurrent requests.
-/
namespace Starbow.Props
open Starbow.Collation Starbow.Spec Starbow.Server Starbow.ServerConc Starbow.Cell Starbow.Probe

/-- the same point of the program, if request `j` asks `q'` instead -/
def swapQuery (j : Nat) (q' : Query) : PC → PC
  | .ask k q s => .ask k (if k = j then q' else q) s
  | .reading k q s i => .reading k (if k = j then q' else q) s i
  | p => p

/-- request `j` asks `q` and posts nothing -/
def Asking (j : Nat) (q : Query) : PC → Prop
  | .idle => True
  | .ask k q₀ _ => k = j → q₀ = q
  | .reading k q₀ _ _ => k = j → q₀ = q
  | .lines k _ _ _ => k ≠ j
  | .row k _ _ _ _ _ => k ≠ j
  | .writing k _ _ _ _ _ _ => k ≠ j

/-- how the reply to a query with the criteria `crit` depends on what it asks for -/
def ReplyForm (env : Env) (crit : List FV) (F : Query → Reply) : Prop :=
  (∃ r : Reply, (∀ body, r ≠ .ok body) ∧ ∀ q, F q = r) ∨ (∀ q, q.criteria = crit → F q = .ok (render env crit [])) ∨
    ∃ c buf, ∀ q, q.criteria = crit → F q = outReply env crit (Collation.read env.lib c q.fieldMeasures buf)

/-- The server in the state `σ`, where request `j` is the query `q`, and the servers in the states `σ' i`, where it is the query `Q i` instead (`T i` as text): nothing differs but the
reply to that request. -/
structure Fam {ι : Type} (env : Env) (rs : List Request) (j : Nat) (name : Bytes) (q : Query) (T : ι → Bytes) (Q : ι → Query) (σ : ServerConc.State)
    (σ' : ι → ServerConc.State) : Prop where
  mem : ∀ i s, ((σ' i).stores s).m = (σ.stores s).m
  calls : ∀ i s, ((σ' i).stores s).calls.length = (σ.stores s).calls.length
  pc : ∀ i t, (σ' i).pc t = swapQuery j (Q i) (σ.pc t)
  own : ∀ t, Asking j q (σ.pc t)
  reqs : ∀ i, (σ' i).reqs = (rs.set j (askFor name (T i))).take σ.reqs.length
  replies : ∃ R : List (Nat × (Query → Reply)), (∀ x ∈ R, (x.1 = j → ReplyForm env q.criteria x.2) ∧ (x.1 ≠ j → ∀ a b, x.2 a = x.2 b)) ∧
    σ.replies = R.map (fun x => (x.1, x.2 q)) ∧ ∀ i, (σ' i).replies = R.map fun x => (x.1, x.2 (Q i))

section
variable {ι : Type} {env : Env} {rs : List Request} {j : Nat} {name : Bytes} {q : Query} {T : ι → Bytes} {Q : ι → Query} {σ : ServerConc.State} {σ' : ι → ServerConc.State}

theorem upd_swap {f g : Nat → PC} {q' : Query} (h : ∀ u, g u = swapQuery j q' (f u)) (t : Nat) {p p' : PC} (hp : p' = swapQuery j q' p) (u : Nat) :
    upd g t p' u = swapQuery j q' (upd f t p u) := by
  unfold upd
  split
  · exact hp
  · exact h u

theorem upd_asking {f : Nat → PC} (h : ∀ u, Asking j q (f u)) (t : Nat) {p : PC} (hp : Asking j q p) (u : Nat) : Asking j q (upd f t p u) := by
  unfold upd
  split
  · exact hp
  · exact h u

theorem Fam.goto (h : Fam env rs j name q T Q σ σ') (t : Nat) {p : PC} {p' : ι → PC} (hp : Asking j q p) (hp' : ∀ i, p' i = swapQuery j (Q i) p) :
    Fam env rs j name q T Q (σ.goto t p) fun i => (σ' i).goto t (p' i) :=
  ⟨h.mem, h.calls, fun i u => upd_swap (h.pc i) t (hp' i) u, upd_asking h.own t hp, h.reqs, h.replies⟩

theorem Fam.reply (h : Fam env rs j name q T Q σ σ') (t k : Nat) (F : Query → Reply) {r : Reply} {r' : ι → Reply} (hr : r = F q) (hr' : ∀ i, r' i = F (Q i))
    (h1 : k = j → ReplyForm env q.criteria F) (h2 : k ≠ j → ∀ a b, F a = F b) :
    Fam env rs j name q T Q (σ.reply t k r) fun i => (σ' i).reply t k (r' i) := by
  obtain ⟨R, e1, e2, e3⟩ := h.replies
  refine ⟨h.mem, h.calls, fun i u => upd_swap (p := .idle) (p' := .idle) (h.pc i) t rfl u, upd_asking h.own t trivial, h.reqs, R ++ [(k, F)], ?_, ?_, fun i => ?_⟩
  · intro x hx
    rcases List.mem_append.1 hx with hx | hx
    · exact e1 x hx
    · obtain rfl := List.mem_singleton.1 hx
      exact ⟨h1, h2⟩
  · show σ.replies ++ [(k, r)] = _
    rw [List.map_append, e2, hr]
    rfl
  · show (σ' i).replies ++ [(k, r' i)] = _
    rw [List.map_append, e3 i, hr' i]
    rfl

theorem Fam.reply_same (h : Fam env rs j name q T Q σ σ') (t k : Nat) (r : Reply) (hk : k ≠ j) :
    Fam env rs j name q T Q (σ.reply t k r) fun i => (σ' i).reply t k r :=
  h.reply t k (fun _ => r) rfl (fun _ => rfl) (fun e => absurd e hk) fun _ _ _ => rfl

theorem Fam.enter (h : Fam env rs j name q T Q σ σ') (t s : Nat) (st : StoreConc.State) (st' : ι → StoreConc.State) (o : Nat × Nat) {p : PC} {p' : ι → PC}
    (hm : ∀ i, (st' i).m = st.m) (hc : ∀ i, (st' i).calls.length = st.calls.length) (hp : Asking j q p) (hp' : ∀ i, p' i = swapQuery j (Q i) p) :
    Fam env rs j name q T Q (σ.enter t s st o p) fun i => (σ' i).enter t s (st' i) o (p' i) := by
  refine ⟨fun i u => ?_, fun i u => ?_, fun i u => upd_swap (h.pc i) t (hp' i) u, upd_asking h.own t hp, h.reqs, h.replies⟩
  · show (upd (σ' i).stores s (st' i) u).m = (upd σ.stores s st u).m
    unfold upd
    split
    · exact hm i
    · exact h.mem i u
  · show (upd (σ' i).stores s (st' i) u).calls.length = (upd σ.stores s st u).calls.length
    unfold upd
    split
    · exact hc i
    · exact h.calls i u

/-- what the server does with a query of this collation -/
theorem task_asked (env : Env) (confs : List Conf) (name : Bytes) (hn : GoodName name) :
    (∀ text q, Query.roughParse env.ord text = .ok q → task env confs (askFor name text) = .answer (.refused 404)) ∨
    ∃ s, ∀ text q, Query.roughParse env.ord text = .ok q → task env confs (askFor name text) = .query s q := by
  have key : ∀ text, task env confs (askFor name text) = ServerConc.lookup env confs name (askFor name text) := by
    intro text
    unfold task
    have h1 : (askFor name text).path = asc "/collation/" ++ name := rfl
    rw [if_neg (by simp [askFor]), if_neg]
    · have h2 : (askFor name text).path ≠ asc "/obs" := by
        rw [h1]
        intro e
        have := congrArg List.length e
        rw [List.length_append, show (asc "/collation/").length = 11 by decide +kernel, show (asc "/obs").length = 4 by decide +kernel] at this
        omega
      rw [if_neg h2, if_pos (by rw [h1]; exact List.prefix_append _ _)]
      simp only
      rw [h1, List.drop_left, if_neg hn.ne, if_neg hn.noslash, if_neg (by rintro ⟨_, h⟩; exact h rfl)]
    · rintro ⟨h2, _⟩
      exact h2 (by rw [h1]; exact clean_collation name hn.noslash hn.nodot hn.nodots)
  have form : ∀ text, (askFor name text).form (asc "q") = text := by intro text; simp [askFor]
  cases hf : confs.findIdx? fun c => decide (c.coll.name = name) with
  | none =>
    refine .inl fun text q hq => ?_
    rw [key]
    unfold ServerConc.lookup
    rw [form, hq]
    simp only
    rw [hf]
  | some s =>
    refine .inr ⟨s, fun text q hq => ?_⟩
    rw [key]
    unfold ServerConc.lookup
    rw [form, hq]
    simp only
    rw [hf]

theorem queryReply_out (env : Env) (q : Query) (out : Out (List FMV × Option Err)) : queryReply env q out = outReply env q.criteria out := by
  rcases out with ⟨r, _ | e⟩ | _ <;> rfl

/-- one step of the server can be taken by all the others -/
theorem step_fam (env : Env) (confs : List Conf) (hn : GoodName name) (text : Bytes) (hq : Query.roughParse env.ord text = .ok q)
    (hQ : ∀ i, Query.roughParse env.ord (T i) = .ok (Q i)) (hcrit : ∀ i, (Q i).criteria = q.criteria) (hj : rs[j]? = some (askFor name text))
    {τ : ServerConc.State} (hl : Fam env rs j name q T Q σ σ') (hst : ServerConc.Step env confs σ τ) (hreq : τ.reqs <+: rs) :
    ∃ τ' : ι → ServerConc.State, (∀ i, ServerConc.Step env confs (σ' i) (τ' i)) ∧ Fam env rs j name q T Q τ τ' := by
  have hreq0 : σ.reqs <+: rs := (ext_steps (.tail (.refl _) hst)).reqs.trans hreq
  have rlen : ∀ i, (σ' i).reqs.length = σ.reqs.length := by
    intro i
    have := hreq0.length_le
    rw [hl.reqs i, List.length_take, List.length_set]
    omega
  have may : ∀ {k : Nat}, σ.MayCancel k → ∀ i, (σ' i).MayCancel k := by
    rintro k ⟨req, h1, h2⟩ i
    have hlt : k < σ.reqs.length := (List.getElem?_eq_some_iff.1 h1).1
    have h3 : rs[k]? = some req := by
      obtain ⟨more, hm⟩ := hreq0
      rw [← hm, List.getElem?_append_left hlt]
      exact h1
    have hne : j ≠ k := by
      rintro rfl
      rw [hj] at h3
      obtain rfl := Option.some.inj h3
      exact h2 rfl
    refine ⟨req, ?_, h2⟩
    rw [hl.reqs i, List.getElem?_take_of_lt hlt, List.getElem?_set_ne hne]
    exact h3
  have crit : ∀ (k : Nat) (q₀ : Query) (i : ι), (k = j → q₀ = q) → (if k = j then Q i else q₀).criteria = q₀.criteria := by
    intro k q₀ i h
    by_cases e : k = j
    · rw [if_pos e, hcrit i, h e]
    · rw [if_neg e]
  have empty : ∀ (k : Nat) (q₀ : Query), (k = j → q₀ = q) → k = j → ReplyForm env q.criteria fun x => queryReply env (if k = j then x else q₀) (.val ([], none)) := by
    intro k q₀ _ e
    refine .inr (.inl fun x hx => ?_)
    simp only
    rw [if_pos e, queryReply_out, hx]
    rfl
  have back : ∀ (k : Nat) (q₀ : Query), (k = j → q₀ = q) → (if k = j then q else q₀) = q₀ := by
    intro k q₀ h
    split
    · next e => exact (h e).symm
    · rfl
  cases hst with
  | receive t req hp =>
    have hp' : ∀ i, (σ' i).pc t = .idle := by intro i; rw [hl.pc i t, hp]; rfl
    have hr : (σ.receive env confs t req).reqs = σ.reqs ++ [req] := by
      unfold State.receive
      simp only
      split <;> rfl
    rw [hr] at hreq
    have hk : rs[σ.reqs.length]? = some req := by
      obtain ⟨more, hm⟩ := hreq
      rw [← hm, List.append_assoc, List.getElem?_append_right (Nat.le_refl _), Nat.sub_self]
      rfl
    have hlt : σ.reqs.length < rs.length := (List.getElem?_eq_some_iff.1 hk).1
    by_cases e : σ.reqs.length = j
    · refine ⟨fun i => (σ' i).receive env confs t (askFor name (T i)), fun i => .receive _ t _ (hp' i), ?_⟩
      rw [e] at hk
      rw [hj] at hk
      obtain rfl := Option.some.inj hk
      have base : Fam env rs j name q T Q { σ with reqs := σ.reqs ++ [askFor name text] } fun i => { σ' i with reqs := (σ' i).reqs ++ [askFor name (T i)] } := by
        refine ⟨hl.mem, hl.calls, hl.pc, hl.own, fun i => ?_, hl.replies⟩
        show (σ' i).reqs ++ [askFor name (T i)] = (rs.set j (askFor name (T i))).take (σ.reqs ++ [askFor name text]).length
        rw [hl.reqs i, List.length_append, List.length_singleton, List.take_add_one, e, List.getElem?_set_self (by omega)]
        rfl
      unfold State.receive
      simp only [rlen]
      rcases task_asked env confs name hn with h1 | ⟨s, h1⟩
      · simp only [h1 _ _ hq, h1 _ _ (hQ _)]
        exact base.reply t _ (fun _ => .refused 404) rfl (fun _ => rfl) (fun _ => .inl ⟨_, by simp, fun _ => rfl⟩) fun _ _ _ => rfl
      · simp only [h1 _ _ hq, h1 _ _ (hQ _)]
        exact base.goto t (fun _ => rfl) fun i => by rw [swapQuery, if_pos e]
    · refine ⟨fun i => (σ' i).receive env confs t req, fun i => .receive _ t _ (hp' i), ?_⟩
      have base : Fam env rs j name q T Q { σ with reqs := σ.reqs ++ [req] } fun i => { σ' i with reqs := (σ' i).reqs ++ [req] } := by
        refine ⟨hl.mem, hl.calls, hl.pc, hl.own, fun i => ?_, hl.replies⟩
        show (σ' i).reqs ++ [req] = (rs.set j (askFor name (T i))).take (σ.reqs ++ [req]).length
        rw [hl.reqs i, List.length_append, List.length_singleton, List.take_add_one, List.getElem?_set_ne (fun h => e h.symm), hk]
        rfl
      unfold State.receive
      simp only [rlen]
      cases ht : task env confs req with
      | answer r => exact base.reply_same t _ r e
      | observe L e' => exact base.goto t e fun i => rfl
      | query s q₀ => exact base.goto t (fun h => absurd h e) fun i => by rw [swapQuery, if_neg e]
  | finish t k p e hp =>
    have hne : k ≠ j := by have := hl.own t; rwa [hp] at this
    exact ⟨_, fun i => .finish (σ' i) t k p e (by rw [hl.pc i t, hp]; rfl), hl.reply_same _ _ _ hne⟩
  | cancelLine t k p line ls e hp hca =>
    have hne : k ≠ j := by have := hl.own t; rwa [hp] at this
    exact ⟨_, fun i => .cancelLine (σ' i) t k p line ls e (by rw [hl.pc i t, hp]; rfl) (may hca i), hl.reply_same _ _ _ hne⟩
  | parse t k p line ls e hp =>
    have hne : k ≠ j := by have := hl.own t; rwa [hp] at this
    refine ⟨_, fun i => .parse (σ' i) t k p line ls e (by rw [hl.pc i t, hp]; rfl), ?_⟩
    unfold State.parse
    cases parseRow line with
    | panic => exact hl.reply_same _ _ _ hne
    | val x =>
      cases x with
      | error x => exact hl.reply_same _ _ _ hne
      | ok r => exact hl.goto _ hne fun _ => rfl
  | stored t k p ls e r hp =>
    have hne : k ≠ j := by have := hl.own t; rwa [hp] at this
    exact ⟨_, fun i => .stored (σ' i) t k p ls e r (by rw [hl.pc i t, hp]; rfl), hl.goto _ hne fun _ => rfl⟩
  | skip t k p ls e r s c hp hs hk =>
    have hne : k ≠ j := by have := hl.own t; rwa [hp] at this
    exact ⟨_, fun i => .skip (σ' i) t k p ls e r s c (by rw [hl.pc i t, hp]; rfl) hs hk, hl.goto _ hne fun _ => rfl⟩
  | cancelWrite t k p ls e r s c k' hp hs hk hca =>
    have hne : k ≠ j := by have := hl.own t; rwa [hp] at this
    exact ⟨_, fun i => .cancelWrite (σ' i) t k p ls e r s c k' (by rw [hl.pc i t, hp]; rfl) hs hk (may hca i), hl.reply_same _ _ _ hne⟩
  | write t k p ls e r s c k' fn hp hs hi hk hf =>
    have hne : k ≠ j := by have := hl.own t; rwa [hp] at this
    refine ⟨_, fun i => .write (σ' i) t k p ls e r s c k' fn (by rw [hl.pc i t, hp]; rfl) hs (by rw [hl.mem]; exact hi) hk hf, ?_⟩
    refine hl.enter t s _ _ _ (fun i => ?_) (fun i => ?_) hne fun i => ?_
    · simp only [hl.mem]
    · simp only [List.length_append, hl.calls, List.length_singleton]
    · simp only [hl.calls]; rfl
  | wrote t k p ls e r s i₀ ret err hp hr he =>
    have hne : k ≠ j := by have := hl.own t; rwa [hp] at this
    refine ⟨_, fun i => .wrote (σ' i) t k p ls e r s i₀ ret err (by rw [hl.pc i t, hp]; rfl) (by rw [hl.mem]; exact hr) he, ?_⟩
    by_cases h3 : err = none
    · simp only [if_pos h3]
      exact hl.goto _ hne fun _ => rfl
    · simp only [if_neg h3]
      exact hl.reply_same _ _ _ hne
  | noKey t k q₀ s c hp hs hk =>
    have hown : k = j → q₀ = q := by have := hl.own t; rwa [hp] at this
    refine ⟨_, fun i => .noKey (σ' i) t k (if k = j then Q i else q₀) s c (by rw [hl.pc i t, hp]; rfl) hs (by rw [crit k q₀ i hown]; exact hk), ?_⟩
    refine hl.reply t k (fun x => queryReply env (if k = j then x else q₀) (.val ([], none))) ?_ (fun _ => rfl) (empty k q₀ hown) ?_
    · rw [back k q₀ hown]
    · intro e a b
      rw [if_neg e, if_neg e]
  | noBuffer t k q₀ s c k' hp hs hk hn' =>
    have hown : k = j → q₀ = q := by have := hl.own t; rwa [hp] at this
    exact ⟨_, fun i => .noBuffer (σ' i) t k (if k = j then Q i else q₀) s c k' (by rw [hl.pc i t, hp]; rfl) hs (by rw [crit k q₀ i hown]; exact hk) hn',
      hl.reply t k (fun _ => .panic) rfl (fun _ => rfl) (fun _ => .inl ⟨_, by simp, fun _ => rfl⟩) fun _ _ _ => rfl⟩
  | read t k q₀ s c k' hp hs hi hk hn' =>
    have hown : k = j → q₀ = q := by have := hl.own t; rwa [hp] at this
    refine ⟨_, fun i => .read (σ' i) t k (if k = j then Q i else q₀) s c k' (by rw [hl.pc i t, hp]; rfl) hs (by rw [hl.mem]; exact hi)
      (by rw [crit k q₀ i hown]; exact hk) hn', ?_⟩
    refine hl.enter t s _ _ _ (fun i => ?_) (fun i => ?_) hown fun i => ?_
    · simp only [hl.mem]
    · simp only [List.length_append, hl.calls, List.length_singleton]
    · simp only [hl.calls]; rfl
  | answer t k q₀ s i₀ c ret out hp hs hr ho =>
    have hown : k = j → q₀ = q := by have := hl.own t; rwa [hp] at this
    cases ret with
    | ran e => simp [StoreConc.readReply] at ho
    | invalidKey => simp [StoreConc.readReply] at ho
    | outOfSlots => simp [StoreConc.readReply] at ho
    | got fnd buf d =>
      cases fnd with
      | false =>
        obtain rfl := (Option.some.inj ho).symm
        refine ⟨_, fun i => .answer (σ' i) t k (if k = j then Q i else q₀) s i₀ c (.got false buf d) _ (by rw [hl.pc i t, hp]; rfl) hs (by rw [hl.mem]; exact hr) rfl, ?_⟩
        refine hl.reply t k (fun x => queryReply env (if k = j then x else q₀) (.val ([], none))) ?_ (fun _ => rfl) (empty k q₀ hown) ?_
        · rw [back k q₀ hown]
        · intro e a b
          rw [if_neg e, if_neg e]
      | true =>
        obtain rfl := (Option.some.inj ho).symm
        refine ⟨_, fun i => .answer (σ' i) t k (if k = j then Q i else q₀) s i₀ c (.got true buf d) _ (by rw [hl.pc i t, hp]; rfl) hs (by rw [hl.mem]; exact hr) rfl, ?_⟩
        refine hl.reply t k (fun x => queryReply env (if k = j then x else q₀) (Collation.read env.lib c.coll (if k = j then x else q₀).fieldMeasures buf)) ?_ (fun _ => rfl) ?_ ?_
        · rw [back k q₀ hown]
        · intro e
          refine .inr (.inr ⟨c.coll, buf, fun x hx => ?_⟩)
          simp only
          rw [if_pos e, queryReply_out, hx]
        · intro e a b
          rw [if_neg e, if_neg e]
  | inside t s c m' hs hm =>
    refine ⟨_, fun i => .inside (σ' i) t s c m' hs (by rw [hl.mem]; exact hm), ?_, ?_, hl.pc, hl.own, hl.reqs, hl.replies⟩
    · intro i u
      show (upd (σ' i).stores s _ u).m = (upd σ.stores s _ u).m
      unfold upd
      split
      · rfl
      · exact hl.mem i u
    · intro i u
      show (upd (σ' i).stores s _ u).calls.length = (upd σ.stores s _ u).calls.length
      unfold upd
      split
      · exact hl.calls i s
      · exact hl.calls i u

end

/-- what the answers to the single measures make, for each way a reply can depend on what is asked for -/
theorem form_together (env : Env) (crit : List FV) {F : Query → Reply} (h : ReplyForm env crit F) (fml : List FM) (hne : pairs fml ≠ []) :
    PutTogether (render env crit []) (pairs fml) (fun p => F (single p crit)) (F ⟨fml, crit⟩) := by
  rcases h with ⟨r, hr, h⟩ | h | ⟨c, buf, h⟩
  · simp only [h]
    exact putTogether_const hne hr
  · have h1 : ∀ fml, F ⟨fml, crit⟩ = .ok (render env crit []) := fun fml => h ⟨fml, crit⟩ rfl
    unfold single
    simp only [h1]
    exact putTogether_empty _
  · have h1 : ∀ fml, F ⟨fml, crit⟩ = outReply env crit (Collation.read env.lib c fml buf) := fun fml => h ⟨fml, crit⟩ rfl
    unfold single
    simp only [h1]
    have := together_reply env crit (fun p => ask env.lib c buf p.1 p.2) (pairs fml) []
    rw [← C27_read, show lines env [] = [] from rfl] at this
    exact this

/-- **C92** under concurrent requests: take any run of the server, with any number of requests in progress in any interleaving, in which a query for several measures (request `j`) has been
answered. For each of the measures there is a run in which request `j` asks for that measure alone, under the same criteria, and which differs in nothing but the answer to it: the other
requests, the other replies, the order of the replies and the bytes in every store are the same. The answer in the given run is the answers in those runs put together, as in C92_together. -/
theorem C92_concurrent (env : Env) (confs : List Conf) (σ : ServerConc.State) (hr : ServerConc.Steps env confs ServerConc.init σ) (name : Bytes) (hn : GoodName name)
    (text : Bytes) (q : Query) (hq : Query.roughParse env.ord text = .ok q) (hne : pairs q.fieldMeasures ≠ []) (one : Bytes × Bytes → Bytes)
    (hone : ∀ p ∈ pairs q.fieldMeasures, Query.roughParse env.ord (one p) = .ok (single p q.criteria)) (j : Nat) (hj : σ.reqs[j]? = some (askFor name text)) (all : Reply)
    (hall : (j, all) ∈ σ.replies) :
    ∃ r : Bytes × Bytes → Reply, PutTogether (echo q.criteria) (pairs q.fieldMeasures) r all ∧ ∀ p ∈ pairs q.fieldMeasures,
      ∃ σ', ServerConc.Steps env confs ServerConc.init σ' ∧ σ'.reqs = σ.reqs.set j (askFor name (one p)) ∧ (∀ s, (σ'.stores s).m = (σ.stores s).m) ∧
        σ'.replies = σ.replies.map fun x => if x.1 = j then (j, r p) else x := by
  obtain ⟨ι, hι⟩ : ∃ ι : Type, ι = { p : Bytes × Bytes // p ∈ pairs q.fieldMeasures } := ⟨_, rfl⟩
  subst hι
  obtain ⟨T, hT⟩ : ∃ T : { p : Bytes × Bytes // p ∈ pairs q.fieldMeasures } → Bytes, T = fun p => one p.1 := ⟨_, rfl⟩
  obtain ⟨Q, hQ⟩ : ∃ Q : { p : Bytes × Bytes // p ∈ pairs q.fieldMeasures } → Query, Q = fun p => single p.1 q.criteria := ⟨_, rfl⟩
  have key : ∀ σ₀ τ, ServerConc.Steps env confs σ₀ τ → σ₀ = ServerConc.init → τ.reqs <+: σ.reqs →
      ∃ τ', (∀ i, ServerConc.Steps env confs ServerConc.init (τ' i)) ∧ Fam env σ.reqs j name q T Q τ τ' := by
    intro σ₀ τ hτ
    induction hτ with
    | refl =>
      rintro rfl -
      exact ⟨fun _ => ServerConc.init, fun _ => .refl _, fun _ _ => rfl, fun _ _ => rfl, fun _ _ => rfl, fun _ => trivial, fun _ => rfl, [], by simp, rfl, fun _ => rfl⟩
    | @tail τ τ₁ h1 h2 ih =>
      intro h0 hreq
      obtain ⟨τ', g1, g2⟩ := ih h0 ((ext_steps (.tail (.refl _) h2)).reqs.trans hreq)
      obtain ⟨τ'', k1, k2⟩ := step_fam env confs hn text hq (by rw [hT, hQ]; exact fun i => hone i.1 i.2) (by rw [hQ]; exact fun _ => rfl) hj g2 h2 hreq
      exact ⟨τ'', fun i => .tail (g1 i) (k1 i), k2⟩
  obtain ⟨σ', h1, h2⟩ := key _ σ hr rfl (List.prefix_refl _)
  obtain ⟨R, e1, e2, e3⟩ := h2.replies
  have honce : (R.map Prod.fst).Nodup := by
    have := (C78_once env confs σ hr).1
    rw [e2, List.map_map] at this
    exact this
  have hF : ∃ F, (j, F) ∈ R ∧ F q = all := by
    rw [e2] at hall
    obtain ⟨⟨k, F⟩, hx, e⟩ := List.mem_map.1 hall
    obtain ⟨e', e⟩ := Prod.mk.inj e
    exact ⟨F, e' ▸ hx, e⟩
  obtain ⟨F, hF1, hF2⟩ := hF
  have he : echo q.criteria = render env q.criteria [] := by
    unfold echo render
    rw [List.flatMap_nil, List.append_nil]
    rfl
  refine ⟨fun p => F (single p q.criteria), ?_, fun p hp => ⟨σ' ⟨p, hp⟩, h1 _, ?_, fun s => h2.mem _ s, ?_⟩⟩
  · rw [he, ← hF2]
    exact form_together env q.criteria ((e1 _ hF1).1 rfl) q.fieldMeasures hne
  · rw [h2.reqs, List.take_of_length_le (by simp), hT]
  · rw [e3, e2, List.map_map]
    refine List.map_congr_left fun x hx => ?_
    simp only [Function.comp_apply]
    by_cases e : x.1 = j
    · rw [if_pos e]
      have : x = (j, F) := List.inj_on_of_nodup_map honce hx hF1 e
      rw [this, hQ]
    · rw [if_neg e, (e1 x hx).2 e (Q ⟨p, hp⟩) q]

end Starbow.Props
