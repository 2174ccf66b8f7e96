import Verif.Props.PackagingDemo
import Verif.Props.OrderDemo
/-
Property theorems C90: what the other collations of a server do to one.
-/
namespace Starbow.Props
open Starbow.Collation Starbow.Spec Starbow.Storage Starbow.Server

/-! ### the laws -/

/-- **C90**, acceptance: a history of posts of correctly written observations and any other requests is accepted by a server if and only if each of its collations, as the only one of a
server, would accept it. -/
theorem C90_accepted (env : Env) (sts : List Store) (steps : List Step) (hc : ∀ s ∈ steps, s.Correct) :
    List.Forall₂ Step.Accepted steps (serveAll env sts (steps.map Step.request)).2 ↔
      ∀ st ∈ sts, List.Forall₂ Step.Accepted steps (serveAll env [st] (steps.map Step.request)).2 := by
  rw [(steps_allTake env steps hc sts).1]
  constructor
  · intro h st hst
    rw [(steps_allTake env steps hc [st]).1]
    intro st' hst'
    rw [List.mem_singleton.1 hst']
    exact h st hst
  · intro h st hst
    exact (steps_allTake env steps hc [st]).1.1 (h st hst) st (by simp)

/-- the answer of a server to any text depends only on the first store of that name -/
theorem ask_any (env : Env) (a b a' b' : List Store) (st : Store) (name text : Bytes) (hn : GoodName name) (ha : ∀ s ∈ a, s.coll.name ≠ name)
    (ha' : ∀ s ∈ a', s.coll.name ≠ name) (hst : st.coll.name = name) :
    (Server.serve env (a ++ st :: b) (askFor name text)).2 = (Server.serve env (a' ++ st :: b') (askFor name text)).2 := by
  cases hq : Query.roughParse env.ord text with
  | ok q =>
    rw [ask_serve env a b st name text hn ha hst q hq, ask_serve env a' b' st name text hn ha' hst q hq, queryStores, queryStores, if_pos hst, if_pos hst]
  | error e =>
    have key : ∀ sts : List Store, (Server.serve env sts (askFor name text)).2 = .refused 400 := by
      intro sts
      rw [serve_collation env _ (askFor name text) rfl name rfl
        (.inl (clean_collation name hn.noslash hn.nodot hn.nodots)), if_neg hn.ne, if_neg hn.noslash,
        if_neg (by rintro ⟨_, h⟩; exact h rfl)]
      unfold queryCollation
      rw [show (askFor name text).form (asc "q") = text by simp [askFor], hq]
    rw [key, key]

/-- **C90**, answers, partial: two servers have the same collation (with the same contents), whatever their others are, and serve the same history of correctly written observations
and any other requests. If both accept it, every query of that collation is answered alike by both afterwards. Missing: histories of which something is refused, see C90_refuted. -/
theorem C90_answers_partial (env : Env) (st : Store) (hn : GoodName st.coll.name) (a b a' b' : List Store) (ha : ∀ s ∈ a, s.coll.name ≠ st.coll.name)
    (ha' : ∀ s ∈ a', s.coll.name ≠ st.coll.name) (steps : List Step) (hc : ∀ s ∈ steps, s.Correct)
    (hacc : List.Forall₂ Step.Accepted steps (serveAll env (a ++ st :: b) (steps.map Step.request)).2)
    (hacc' : List.Forall₂ Step.Accepted steps (serveAll env (a' ++ st :: b') (steps.map Step.request)).2) (text : Bytes) :
    (Server.serve env (serveAll env (a ++ st :: b) (steps.map Step.request)).1 (askFor st.coll.name text)).2 =
      (Server.serve env (serveAll env (a' ++ st :: b') (steps.map Step.request)).1 (askFor st.coll.name text)).2 := by
  obtain ⟨h1, h2⟩ := steps_allTake env steps hc (a ++ st :: b)
  obtain ⟨h1', h2'⟩ := steps_allTake env steps hc (a' ++ st :: b')
  rw [h2 (h1.1 hacc), h2' (h1'.1 hacc')]
  unfold fedWith
  rw [List.map_append, List.map_append, List.map_cons, List.map_cons]
  have hname : ∀ l : List Store, (∀ s ∈ l, s.coll.name ≠ st.coll.name) →
      ∀ s ∈ l.map (fun st => (writes env.lib st ((observations steps).map obsOf)).1), s.coll.name ≠ st.coll.name := by
    intro l hl s hs
    obtain ⟨x, hx, rfl⟩ := List.mem_map.1 hs
    rw [writes_coll]
    exact hl x hx
  exact ask_any env _ _ _ _ _ _ text hn (hname a ha) (hname a' ha') (by rw [writes_coll])

/-! ### collations declared later -/

theorem writeStores_later (lib : Lib) (row : Row) (b : List Store) : ∀ (a : List Store) (ctx : Ctx),
    ∃ b', (writeStores lib row ctx (a ++ b)).1 = (writeStores lib row ctx a).1 ++ b'
  | [], ctx => ⟨_, rfl⟩
  | st :: a, ctx => by
    obtain ⟨b', h⟩ := writeStores_later lib row b a ctx.next
    rw [List.cons_append, writeStores, writeStores]
    cases hw : (write lib st ctx.done row).2 with
    | ret e =>
      cases e with
      | none => exact ⟨b', by simp only [h, List.cons_append]⟩
      | some e => exact ⟨b, rfl⟩
    | panic => exact ⟨b, rfl⟩
    | hang => exact ⟨b, rfl⟩

theorem writeStores_named (lib : Lib) (row : Row) : ∀ (a : List Store) (ctx : Ctx),
    (writeStores lib row ctx a).1.map (fun s => s.coll) = a.map fun s => s.coll
  | [], ctx => rfl
  | st :: a, ctx => by
    rw [writeStores]
    have hc := write_coll lib st ctx.done row
    cases hw : (write lib st ctx.done row).2 with
    | ret e =>
      cases e with
      | none => simp only [List.map_cons, writeStores_named lib row a ctx.next, hc]
      | some e => simp only [List.map_cons, hc]
    | panic => simp only [List.map_cons, hc]
    | hang => simp only [List.map_cons, hc]

/-- the request posts a single observation (any bytes), or is not a post to /obs -/
def SinglePost (r : Request) : Prop := (∃ l, LineOk l ∧ r = post (l ++ [0x0a])) ∨ ¬ (r.path = asc "/obs" ∧ r.method = asc "POST")

theorem serve_later (env : Env) (a b : List Store) (r : Request) (hr : SinglePost r) :
    (∃ b', (Server.serve env (a ++ b) r).1 = (Server.serve env a r).1 ++ b') ∧
      (Server.serve env a r).1.map (fun s => s.coll) = a.map fun s => s.coll := by
  rcases hr with ⟨l, hl, rfl⟩ | hr
  · rw [serve_line env _ hl, serve_line env _ hl, recvLoop, recvLoop, if_neg (by decide), if_neg (by decide)]
    cases hp : parseRow (noCR l) with
    | panic => exact ⟨⟨b, rfl⟩, rfl⟩
    | val x =>
      cases x with
      | error e => exact ⟨⟨b, rfl⟩, rfl⟩
      | ok row =>
        obtain ⟨b', h⟩ := writeStores_later env.lib row b a (Ctx.next none)
        have hn := writeStores_named env.lib row a (Ctx.next none)
        simp only
        generalize writeStores env.lib row (Ctx.next none) (a ++ b) = x at h ⊢
        generalize writeStores env.lib row (Ctx.next none) a = y at h hn ⊢
        obtain ⟨x1, x2, x3⟩ := x
        obtain ⟨y1, y2, y3⟩ := y
        simp only at h hn
        cases x2 <;> cases y2 <;> simp only [recvLoop] <;> exact ⟨⟨b', h⟩, hn⟩
  · have hun : ∀ sts, (Server.serve env sts r).1 = sts := by
      intro sts
      by_contra hne
      obtain ⟨e1, e2, _⟩ := C44_unchanged env _ r hne
      exact hr ⟨e1, e2⟩
    rw [hun, hun]
    exact ⟨⟨b, rfl⟩, rfl⟩

theorem serveAll_later (env : Env) : ∀ (rs : List Request) (a b : List Store), (∀ r ∈ rs, SinglePost r) →
    (∃ b', (serveAll env (a ++ b) rs).1 = (serveAll env a rs).1 ++ b') ∧
      (serveAll env a rs).1.map (fun s => s.coll) = a.map fun s => s.coll
  | [], a, b, _ => ⟨⟨b, rfl⟩, rfl⟩
  | r :: rs, a, b, h => by
    obtain ⟨⟨b1, h1⟩, h2⟩ := serve_later env a b r (h r (by simp))
    obtain ⟨⟨b2, h3⟩, h4⟩ := serveAll_later env rs (Server.serve env a r).1 b1 fun r' hr' => h r' (by simp [hr'])
    simp only [serveAll]
    rw [h1]
    exact ⟨⟨b2, h3⟩, h4.trans h2⟩

/-- **C90**, collations declared later, partial: they do not affect those before them at all, even if they refuse observations, as long as every post contains one observation. The
observations may be any bytes, and nothing need be accepted by anyone. Missing: posts of several observations, where a refusal keeps the rest from every collation (C43_batch). -/
theorem C90_later_partial (env : Env) (a b : List Store) (rs : List Request) (hr : ∀ r ∈ rs, SinglePost r) (name : Bytes) (hn : GoodName name)
    (hname : ∃ s ∈ a, s.coll.name = name) (text : Bytes) :
    (Server.serve env (serveAll env (a ++ b) rs).1 (askFor name text)).2 = (Server.serve env (serveAll env a rs).1 (askFor name text)).2 := by
  obtain ⟨⟨b', h1⟩, h2⟩ := serveAll_later env rs a b hr
  rw [h1]
  have hex : ∃ s ∈ (serveAll env a rs).1, s.coll.name = name := by
    obtain ⟨s, hs, e⟩ := hname
    have : s.coll ∈ (serveAll env a rs).1.map fun s => s.coll := by rw [h2]; exact List.mem_map.2 ⟨s, hs, rfl⟩
    obtain ⟨s', hs', e'⟩ := List.mem_map.1 this
    exact ⟨s', hs', by rw [e', e]⟩
  generalize (serveAll env a rs).1 = c at hex ⊢
  have : ∃ x st y, c = x ++ st :: y ∧ st.coll.name = name ∧ ∀ s ∈ x, s.coll.name ≠ name := by
    clear h1 h2 hr hname
    induction c with
    | nil => obtain ⟨s, hs, _⟩ := hex; simp at hs
    | cons st c ih =>
      by_cases hst : st.coll.name = name
      · exact ⟨[], st, c, rfl, hst, by simp⟩
      · obtain ⟨s, hs, e⟩ := hex
        rcases List.mem_cons.1 hs with rfl | hs
        · exact absurd e hst
        · obtain ⟨x, st', y, rfl, h1, h2⟩ := ih ⟨s, hs, e⟩
          exact ⟨st :: x, st', y, rfl, h1, by
            intro s hs
            rcases List.mem_cons.1 hs with rfl | hs
            · exact hst
            · exact h2 s hs⟩
  obtain ⟨x, st, y, rfl, hst, hx⟩ := this
  rw [List.append_assoc, List.cons_append]
  exact ask_any env x (y ++ b') x y st name text hn hx hx hst

/-! ### the program -/

/-- `country=FR;height=x;tz=Europe/Paris` -/
def parisBad : List FV := [⟨asc "country", asc "FR"⟩, ⟨asc "height", asc "x"⟩, ⟨asc "tz", asc "Europe/Paris"⟩]
def parisCrit : List FV := [⟨asc "tz", asc "Europe/Paris"⟩]
def parisText : Bytes := asc "select count(*) where tz='Europe/Paris'"

theorem paris_parse (ord : List FM → List FM) (hord : ∀ l, (ord l).Perm l) : Query.roughParse ord parisText = .ok (countQuery parisCrit) := by
  rw [roughParse_ord ord (q := countQuery parisCrit) (by decide +kernel)]
  unfold countQuery
  simp only
  rw [List.perm_singleton.1 (hord _)]

theorem paris_key : keyValue parisCrit Demo.tz.keys = some 14228350075699257265 ∧ keyValue parisBad Demo.tz.keys = some 14228350075699257265 ∧
    AgreeOn Demo.tz.keys parisBad parisCrit ∧ Plainly parisBad := by decide +kernel

theorem tz_good : GoodName Demo.tz.name := ⟨by decide +kernel, by decide +kernel, by decide +kernel, by decide +kernel⟩

theorem tz_bytes : (compile Demo.tz).size = 416 := by decide +kernel

theorem serveAll_single (env : Env) (sts : List Store) (r : Request) : serveAll env sts [r] = ((Server.serve env sts r).1, [(Server.serve env sts r).2]) := rfl
theorem serveAll_zero (env : Env) (sts : List Store) : serveAll env sts [] = (sts, []) := rfl

/-- what a server answers to the query for Europe/Paris, after accepting `steps`, if its collation tz was fresh -/
theorem paris_answer (env : Env) (hord : ∀ l, (env.ord l).Perm l) (a b : List Store) (ha : ∀ s ∈ a, s.coll.name ≠ Demo.tz.name) (obs : List (List FV))
    (hobs : ∀ fs ∈ obs, fs = parisBad)
    (hacc : List.Forall₂ Step.Accepted (oneByOne obs) (serveAll env (a ++ newStore Demo.tz Demo.slots :: b) ((oneByOne obs).map Step.request)).2) :
    (Server.serve env (serveAll env (a ++ newStore Demo.tz Demo.slots :: b) ((oneByOne obs).map Step.request)).1 (askFor (asc "tz") parisText)).2 =
      .ok (echo parisCrit ++ if obs = [] then [] else countLine env obs.length) := by
  obtain ⟨k1, k2, k3, k4⟩ := paris_key
  have hfil : ((observations (oneByOne obs)).filter fun fs => AgreeOn Demo.tz.keys fs parisCrit) = obs := by
    rw [oneByOne_obs, List.filter_eq_self]
    intro fs hfs
    rw [hobs fs hfs]
    exact decide_eq_true k3
  have hall : ∀ x ∈ parisCrit :: observations (oneByOne obs), AgreeOn Demo.tz.keys x parisCrit := by
    intro x hx
    rcases List.mem_cons.1 hx with rfl | hx
    · intro _ _; rfl
    · rw [oneByOne_obs] at hx
      rw [hobs x hx]
      exact k3
  have := C48_server_partial env Demo.tz tz_valid (by decide) tz_good Demo.slots (by decide) a b ha (oneByOne obs)
    (oneByOne_correct fun fs hfs => by rw [hobs fs hfs]; exact k4) hacc parisText parisCrit (paris_parse env.ord hord) (by
      intro x hx y hy kx ky _ _ _ key hkey
      rw [hall x hx key hkey, hall y hy key hkey]) 14228350075699257265 k1 (by decide) (by decide) (by rw [tz_bytes]; decide)
  rw [hfil] at this
  exact this

/-- the line -/
def parisLine : Bytes := asc "0;country=FR;height=x;tz=Europe/Paris"

theorem paris_request : (Step.posted [⟨asc "0", 0x3b, parisBad⟩]).request = post (parisLine ++ [0x0a]) := by
  have e : unlines [(⟨asc "0", 0x3b, parisBad⟩ : Line).text] = parisLine ++ [0x0a] := by decide +kernel
  rw [← e]
  rfl

theorem paris_row : parseRow (noCR parisLine) = .val (.ok ⟨0, parisBad⟩) ∧ LineOk parisLine := ⟨by decide +kernel, by decide +kernel, by decide +kernel⟩

theorem paris_tz (env : Env) : (Server.serve env [newStore Demo.tz Demo.slots] (post (parisLine ++ [0x0a]))).2 = .ok [] := by
  rw [C43_line env [newStore Demo.tz Demo.slots] parisLine paris_row.2 ⟨0, parisBad⟩ paris_row.1 (by
    intro st hst
    rw [List.mem_singleton.1 hst]
    refine (write_first env.lib tz_valid (by decide) ⟨0, parisBad⟩ paris_key.2.1 (by decide) ?_).1
    intro fv _ m hd hm
    rcases tz_declares hd with ⟨_, rfl⟩ | ⟨_, rfl⟩ <;> simp [Measure.continuousInput] at hm)]

theorem paris_all (env : Env) (hx : env.lib.parseFloat (asc "x") = none) : Server.serve env Demo.stores (post (parisLine ++ [0x0a])) =
    ([(writes env.lib (newStore Demo.country Demo.slots) [⟨⟨0, frRow.data⟩, false⟩]).1, newStore Demo.tz Demo.slots], .refused 500) :=
  bad_post env parisLine paris_row.2 frRow.data [⟨asc "tz", asc "Europe/Paris"⟩]
    12582602682680778473 paris_row.1 hx frRow_key (by decide +kernel) (frRow_write env.lib)

theorem ask_one (env : Env) (sts : List Store) (fs : List FV) (r q : Request) (ans : Reply) (e : (Step.posted [⟨asc "0", 0x3b, fs⟩]).request = r)
    (h : (Server.serve env sts r).2 = .ok [])
    (k : List.Forall₂ Step.Accepted (oneByOne [fs]) (serveAll env sts ((oneByOne [fs]).map Step.request)).2 →
      (Server.serve env (serveAll env sts ((oneByOne [fs]).map Step.request)).1 q).2 = ans) :
    (Server.serve env (Server.serve env sts r).1 q).2 = ans := by
  subst e
  exact k (.cons h .nil)

theorem paris_one (env : Env) (hord : ∀ l, (env.ord l).Perm l) :
    (Server.serve env (Server.serve env [newStore Demo.tz Demo.slots] (post (parisLine ++ [0x0a]))).1 (askFor (asc "tz") parisText)).2 =
      .ok (echo parisCrit ++ countLine env 1) := by
  have := paris_answer env hord [] [] (by simp) [parisBad] (by simp)
  rw [List.nil_append, if_neg (List.cons_ne_nil _ _), List.length_singleton] at this
  exact ask_one env _ parisBad _ _ _ paris_request (paris_tz env) this

theorem paris_zero (env : Env) (hord : ∀ l, (env.ord l).Perm l) (st : Store) (hst : st.coll.name ≠ Demo.tz.name) :
    (Server.serve env [st, newStore Demo.tz Demo.slots] (askFor (asc "tz") parisText)).2 = .ok (echo parisCrit) := by
  have := paris_answer env hord [st] [] (by
      intro s hs
      rw [List.mem_singleton.1 hs]
      exact hst) [] (by simp)
  rw [show (oneByOne []).map Step.request = [] from rfl, serveAll_zero, List.singleton_append] at this
  have := this .nil
  rw [if_pos rfl, List.append_nil] at this
  exact this

/-- **C90** fails, in the program: the observation `0;country=FR;height=x;tz=Europe/Paris` is accepted by a server that has the program's collation tz alone and counted there; the
program, which has the collation country before it, refuses it because the height is no number, and the collation tz has not seen it. -/
theorem C90_refuted (env : Env) (hord : ∀ l, (env.ord l).Perm l) (hx : env.lib.parseFloat (asc "x") = none) :
    (Server.serve env [newStore Demo.tz Demo.slots] (post (parisLine ++ [0x0a]))).2 = .ok [] ∧
    (Server.serve env (Server.serve env [newStore Demo.tz Demo.slots] (post (parisLine ++ [0x0a]))).1 (askFor (asc "tz") parisText)).2 =
      .ok (echo parisCrit ++ countLine env 1) ∧
    (Server.serve env Demo.stores (post (parisLine ++ [0x0a]))).2 = .refused 500 ∧
    (Server.serve env (Server.serve env Demo.stores (post (parisLine ++ [0x0a]))).1 (askFor (asc "tz") parisText)).2 = .ok (echo parisCrit) := by
  refine ⟨paris_tz env, paris_one env hord, by rw [paris_all env hx], ?_⟩
  rw [paris_all env hx]
  refine paris_zero env hord _ ?_
  rw [writes_coll, show (newStore Demo.country Demo.slots).coll.name = Demo.country.name from compile_name _]
  decide +kernel

/-- instance of C90_later_partial: after the line above (refused) the program answers every query of country like a server without tz -/
example (env : Env) (text : Bytes) :
    (Server.serve env (serveAll env ([newStore Demo.country Demo.slots] ++ [newStore Demo.tz Demo.slots]) [post (parisLine ++ [0x0a])]).1 (askFor Demo.country.name text)).2 =
      (Server.serve env (serveAll env [newStore Demo.country Demo.slots] [post (parisLine ++ [0x0a])]).1 (askFor Demo.country.name text)).2 :=
  C90_later_partial env _ _ _ (by
    intro r hr
    rw [List.mem_singleton.1 hr]
    exact .inl ⟨_, paris_row.2, rfl⟩) _ country_name ⟨_, List.mem_singleton.2 rfl, compile_name _⟩ text

theorem alone_alike (env : Env) (st st' : Store) (hn : GoodName st.coll.name) (steps : List Step) (hc : ∀ s ∈ steps, s.Correct)
    (hacc : List.Forall₂ Step.Accepted steps (serveAll env [st, st'] (steps.map Step.request)).2) (text : Bytes) :
    (Server.serve env (serveAll env [st, st'] (steps.map Step.request)).1 (askFor st.coll.name text)).2 =
      (Server.serve env (serveAll env [st] (steps.map Step.request)).1 (askFor st.coll.name text)).2 :=
  C90_answers_partial env st hn [] [st'] [] [] (by simp) (by simp) steps hc hacc ((C90_accepted env _ _ hc).1 hacc st (by simp)) text

/-- instance of C90_answers_partial: two heights of FR, which the program accepts; a server with the collation country alone answers every query of country alike -/
example (env : Env) (h5 : env.lib.parseFloat (asc "5") = some (F64.ofNat 5)) (h3 : env.lib.parseFloat (asc "3") = some (F64.ofNat 3)) (text : Bytes) :
    (Server.serve env (serveAll env Demo.stores ((oneByOne [frHeight (asc "5"), frHeight (asc "3")]).map Step.request)).1 (askFor Demo.country.name text)).2 =
      (Server.serve env (serveAll env [newStore Demo.country Demo.slots] ((oneByOne [frHeight (asc "5"), frHeight (asc "3")]).map Step.request)).1 (askFor Demo.country.name text)).2 := by
  obtain ⟨_, _, a3, _⟩ := two_ok
  have hacc := (two_accepted env h5 h3).1
  unfold AllAccepted at hacc
  have hname : (newStore Demo.country Demo.slots).coll.name = Demo.country.name := compile_name _
  unfold Demo.stores at hacc ⊢
  have := alone_alike env (newStore Demo.country Demo.slots) (newStore Demo.tz Demo.slots) (by rw [hname]; exact country_name) _ (oneByOne_correct a3) hacc text
  rw [hname] at this
  exact this

end Starbow.Props
