import Verif.Proof.ServerConc
import Verif.Spec.ServerConc
import Verif.Props.StoreStats
import Verif.Props.EndToEnd
/-
Property C68: the whole server under concurrent requests.
`ServerConc.Steps env confs ServerConc.init σ`: σ is reachable, under some interleaving of the handlers of any requests, from a server with fresh
stores.
-/
namespace Starbow.Props
open Starbow.Collation Starbow.Spec Starbow.Storage Starbow.Server Starbow.ServerConc Starbow.BufmapConc Starbow.Cell

/-! ### what requests ask for -/

theorem task_obs (env : Env) (confs : List Conf) (req : Request) (h1 : req.path = asc "/obs") (h2 : req.method = asc "POST")
    (h3 : req.star = false) : task env confs req = observation env req := by
  unfold task
  rw [h3, h1, h2, if_neg (by simp), if_neg, if_pos rfl, if_pos rfl]
  rintro ⟨h, _⟩
  exact h (by decide +kernel)

theorem task_post (env : Env) (confs : List Conf) (ls : List Line) (hc : ∀ l ∈ ls, l.Correct) :
    task env confs (Step.posted ls).request = .observe (ls.map Line.text) none := by
  rw [task_obs env confs _ rfl rfl rfl]
  unfold observation contentType
  rw [if_pos (show (Step.posted ls).request.contentType = [] from rfl)]
  simp only
  rw [if_neg (by decide +kernel), if_pos (by decide +kernel)]
  unfold observeBody Step.request post
  simp only
  have hs := scan_unlines none false [] (ls.map Line.text) (by
    intro x hx
    obtain ⟨l, hl, rfl⟩ := List.mem_map.1 hx
    exact ⟨(hc l hl).no_newline, (hc l hl).fits⟩)
  rw [List.append_nil, scan_last none (l := []) ⟨by simp, by simp⟩, if_pos rfl, List.append_nil] at hs
  rw [hs]
  simp only
  congr 1
  rw [List.map_map]
  apply List.map_congr_left
  intro l hl
  simp only [Function.comp_apply]
  unfold noCR
  rw [if_neg (hc l hl).no_cr]

theorem task_observe {env : Env} {confs : List Conf} {req : Request} {ls : List Bytes} {e : Option Err} (h : task env confs req = .observe ls e) :
    req.path = asc "/obs" ∧ req.method = asc "POST" := by
  unfold task at h
  split at h
  · simp at h
  split at h
  · simp at h
  split at h
  · next hp =>
    split at h
    · next hm => exact ⟨hp, hm⟩
    · simp at h
  exfalso
  split at h
  · simp only at h
    split at h
    · simp at h
    split at h
    · simp at h
    split at h
    · simp at h
    unfold lookup at h
    split at h
    · simp at h
    · split at h <;> simp at h
  · split at h <;> simp at h

theorem task_ask (env : Env) (confs : List Conf) (name text : Bytes) (hn : GoodName name) (q : Query) (hq : Query.roughParse env.ord text = .ok q)
    (s : Nat) (c : Conf) (hs : confs[s]? = some c) (hc : c.coll.name = name) (hfirst : ∀ s' c', s' < s → confs[s']? = some c' → c'.coll.name ≠ name) :
    task env confs (askFor name text) = .query s q := by
  unfold task
  have h1 : (askFor name text).path = asc "/collation/" ++ name := rfl
  rw [if_neg (by simp [askFor]), if_neg]
  · have h2 : (askFor name text).path ≠ asc "/obs" := by
      rw [h1]
      intro h
      have := congrArg (fun l => l.drop 1 |>.head?) h
      revert this
      rw [show asc "/collation/" = 0x2f :: 0x63 :: asc "ollation/" by decide +kernel, show asc "/obs" = 0x2f :: 0x6f :: asc "bs" by decide +kernel]
      simp only [List.cons_append, List.drop_succ_cons, List.drop_zero, List.head?_cons, Option.some.injEq]
      decide
    rw [if_neg h2, if_pos (by rw [h1]; exact List.prefix_append _ _)]
    simp only
    rw [h1, List.drop_left, if_neg hn.ne, if_neg hn.noslash, if_neg (by rintro ⟨_, h⟩; exact h rfl)]
    unfold lookup
    rw [show (askFor name text).form (asc "q") = text by simp [askFor], hq]
    simp only
    have : confs.findIdx? (fun c => decide (c.coll.name = name)) = some s := by
      rw [List.findIdx?_eq_some_iff_getElem]
      obtain ⟨hlt, he⟩ := List.getElem?_eq_some_iff.1 hs
      refine ⟨hlt, by rw [he]; simpa using hc, ?_⟩
      intro j hj
      have := hfirst j _ hj (List.getElem?_eq_getElem (by omega))
      simpa using this
    rw [this]
  · rintro ⟨h2, _⟩
    exact h2 (by rw [h1]; exact clean_collation name hn.noslash hn.nodot hn.nodots)

/-- what a line of a correct post is -/
theorem lineIs_post {env : Env} {confs : List Conf} {σ : ServerConc.State} {j p : Nat} {ls : List Line} {r : Row} (hc : ∀ l ∈ ls, l.Correct)
    (hj : σ.reqs[j]? = some (Step.posted ls).request) (h : LineIs env confs σ j p r) : (ls.map Line.fs)[p]? = some r.data := by
  obtain ⟨req, all, e, line, h1, h2, h3, h4⟩ := h
  rw [hj] at h1
  obtain rfl := Option.some.inj h1
  rw [task_post env confs ls hc] at h2
  injection h2 with h2 _
  subst h2
  rw [List.getElem?_map, Option.map_eq_some_iff] at h3
  obtain ⟨l, h3, rfl⟩ := h3
  have hl := hc l (List.mem_of_getElem? h3)
  have hp := line_parse hl
  rw [show noCR l.text = l.text by unfold noCR; rw [if_neg hl.no_cr], h4] at hp
  simp only [Out.val.injEq, Except.ok.injEq] at hp
  rw [List.getElem?_map, h3, hp]
  rfl

/-! ### counting -/

/-- where the observations with key `k` are: request number and line number -/
def places (keys : List Bytes) (k : U64) (L : List (Step × Nat)) : List (Nat × Nat) :=
  L.flatMap fun x => (x.1.posts.zipIdx.filter fun y => keyValue y.1 keys = some k).map fun y => (x.2, y.2)

theorem places_length (keys : List Bytes) (k : U64) (L : List (Step × Nat)) :
    (places keys k L).length = ((L.flatMap fun x => x.1.posts).filter fun fs => keyValue fs keys = some k).length := by
  induction L with
  | nil => rfl
  | cons x L ih =>
    unfold places at ih ⊢
    rw [List.flatMap_cons, List.flatMap_cons, List.filter_append, List.length_append, List.length_append, ih, List.length_map]
    congr 1
    have : x.1.posts.filter (fun fs => keyValue fs keys = some k) =
        (x.1.posts.zipIdx.filter fun y => keyValue y.1 keys = some k).map Prod.fst := by
      conv_lhs => rw [← List.zipIdx_map_fst 0 x.1.posts]
      rw [List.filter_map]
      rfl
    rw [this, List.length_map]

theorem zipIdx_snd_nodup {α : Type} (l : List α) : (l.zipIdx.map Prod.snd).Nodup := by
  rw [List.zipIdx_map_snd]; exact List.nodup_range'

theorem places_nodup (keys : List Bytes) (k : U64) (L : List (Step × Nat)) (h : (L.map Prod.snd).Nodup) : (places keys k L).Nodup := by
  unfold places
  rw [List.nodup_flatMap]
  constructor
  · intro x _
    apply List.Nodup.map_on
    · intro a ha b hb e
      simp only [Prod.mk.injEq, true_and] at e
      have ha := (List.mem_filter.1 ha).1
      have hb := (List.mem_filter.1 hb).1
      rw [List.mem_zipIdx_iff_getElem?] at ha hb
      rw [e, hb] at ha
      exact Prod.ext (Option.some.inj ha).symm e
    · exact (List.Nodup.of_map _ (zipIdx_snd_nodup _)).filter _
  · rw [List.Nodup, List.pairwise_map] at h
    refine h.imp ?_
    intro a b hab y h1 h2
    obtain ⟨_, _, rfl⟩ := List.mem_map.1 h1
    obtain ⟨_, _, e⟩ := List.mem_map.1 h2
    simp only [Prod.mk.injEq] at e
    exact hab e.1.symm

theorem mem_places {keys : List Bytes} {k : U64} {steps : List Step} {P : Step × Nat → Bool} {j p : Nat} :
    (j, p) ∈ places keys k (steps.zipIdx.filter P) ↔
      ∃ st fs, steps[j]? = some st ∧ P (st, j) = true ∧ st.posts[p]? = some fs ∧ keyValue fs keys = some k := by
  unfold places
  rw [List.mem_flatMap]
  constructor
  · rintro ⟨⟨st, j'⟩, h1, h2⟩
    obtain ⟨h1, h3⟩ := List.mem_filter.1 h1
    rw [List.mem_zipIdx_iff_getElem?] at h1
    obtain ⟨⟨fs, p'⟩, h4, h5⟩ := List.mem_map.1 h2
    obtain ⟨h4, h6⟩ := List.mem_filter.1 h4
    rw [List.mem_zipIdx_iff_getElem?] at h4
    simp only [Prod.mk.injEq] at h5
    obtain ⟨rfl, rfl⟩ := h5
    exact ⟨st, fs, h1, h3, h4, by simpa using h6⟩
  · rintro ⟨st, fs, h1, h2, h3, h4⟩
    refine ⟨(st, j), List.mem_filter.2 ⟨List.mem_zipIdx_iff_getElem?.2 h1, h2⟩, List.mem_map.2 ⟨(fs, p), ?_, rfl⟩⟩
    exact List.mem_filter.2 ⟨List.mem_zipIdx_iff_getElem?.2 h3, by simpa using h4⟩

theorem observations_flatMap (steps : List Step) : observations steps = steps.zipIdx.flatMap fun x => x.1.posts := by
  have : ∀ n, observations steps = (steps.zipIdx n).flatMap fun x => x.1.posts := by
    induction steps with
    | nil => intro n; rfl
    | cons s steps ih =>
      intro n
      rw [List.zipIdx_cons, List.flatMap_cons, ← ih (n + 1)]
      cases s <;> rfl
  exact this 0

section
variable {env : Env} {confs : List Conf} {s : Nat} {c : Conf}

theorem acked_done {σ : ServerConc.State} (hr : ServerConc.Steps env confs ServerConc.init σ) (hs : confs[s]? = some c) (steps : List Step)
    (hreq : σ.reqs <+: steps.map Step.request) (hc : ∀ ls, Step.posted ls ∈ steps → ∀ l ∈ ls, l.Correct) (k : U64) :
    ((acknowledged steps σ).filter fun fs => keyValue fs c.coll.keys = some k).length ≤ (doneWrites c.coll.keys k (σ.stores s)).length := by
  have h := ServerConc.inv_reach hr
  unfold acknowledged
  rw [← places_length]
  have hnd := places_nodup c.coll.keys k (steps.zipIdx.filter fun x => Acked σ x.2)
    ((List.filter_sublist.map _).nodup (zipIdx_snd_nodup steps))
  have hsub : (places c.coll.keys k (steps.zipIdx.filter fun x => Acked σ x.2)).map some ⊆
      (doneWrites c.coll.keys k (σ.stores s)).map fun i => (σ.origin s)[i]? := by
    intro o ho
    obtain ⟨⟨j, p⟩, ho', rfl⟩ := List.mem_map.1 ho
    obtain ⟨st, fs, h1, h2, h3, h4⟩ := mem_places.1 ho'
    have hack : (j, Reply.ok []) ∈ σ.replies := of_decide_eq_true h2
    cases st with
    | other req => simp [Step.posts] at h3
    | posted ls =>
      have hls := hc ls (List.mem_of_getElem? h1)
      have hrep := h.replies j _ hack
      obtain ⟨req, hj⟩ := hrep.req
      have hj' : σ.reqs[j]? = some (Step.posted ls).request := by
        have := prefix_get hreq hj
        rw [List.getElem?_map, h1] at this
        rw [hj]; exact this.symm
      have hp : p < ls.length := by
        have := (List.getElem?_eq_some_iff.1 h3).1
        simpa [Step.posts] using this
      obtain ⟨_, hd⟩ := hrep.obs _ _ _ [] hj' (task_post env confs ls hls) rfl rfl
      obtain ⟨r, c', hline, hs', hk⟩ := hd p (by simpa using hp) s (List.getElem?_eq_some_iff.1 hs).1
      rw [hs] at hs'
      obtain rfl := Option.some.inj hs'
      have hfs := lineIs_post hls hj' hline
      rw [show (ls.map Line.fs)[p]? = some fs from h3] at hfs
      have hfs := Option.some.inj hfs
      subst hfs
      rw [h4] at hk
      rcases hk with hk | ⟨i, hm, hran⟩
      · simp at hk
      · exact List.mem_map.2 ⟨i, StoreConc.mem_done.2 ⟨r, none, ⟨hm.2, h4⟩, hran⟩, hm.1⟩
  have := ((hnd.map (Option.some_injective _)).subperm hsub).length_le
  simpa using this

theorem started_received {σ : ServerConc.State} (hr : ServerConc.Steps env confs ServerConc.init σ) (hs : confs[s]? = some c)
    (steps : List Step) (hreq : σ.reqs = steps.map Step.request) (hc : ∀ st ∈ steps, st.Correct) (k : U64) :
    (startedWrites c.coll.keys k (σ.stores s)).length ≤ ((observations steps).filter fun fs => keyValue fs c.coll.keys = some k).length := by
  have h := ServerConc.inv_reach hr
  rw [observations_flatMap, show steps.zipIdx = steps.zipIdx.filter (fun _ => true) from (List.filter_eq_self.2 (by simp)).symm, ← places_length]
  have hnd : ((startedWrites c.coll.keys k (σ.stores s)).map fun i => (σ.origin s)[i]?).Nodup := by
    apply List.Nodup.map_on _ (StoreConc.started_nodup _ _ _)
    intro i hi i' hi' e
    obtain ⟨r, h1, _⟩ := StoreConc.mem_started.1 hi
    obtain ⟨r', h1', _⟩ := StoreConc.mem_started.1 hi'
    obtain ⟨j, p, ho, _⟩ := h.made s i r h1
    exact h.once s i i' j p r r' ⟨ho, h1⟩ ⟨by rw [← e]; exact ho, h1'⟩
  have hsub : ((startedWrites c.coll.keys k (σ.stores s)).map fun i => (σ.origin s)[i]?) ⊆
      (places c.coll.keys k (steps.zipIdx.filter fun _ => true)).map some := by
    intro o ho
    obtain ⟨i, hi, rfl⟩ := List.mem_map.1 ho
    obtain ⟨r, h1, hk⟩ := StoreConc.mem_started.1 hi
    obtain ⟨j, p, ho, hline⟩ := h.made s i r h1
    refine List.mem_map.2 ⟨(j, p), ?_, ho.symm⟩
    have hline' := hline
    obtain ⟨req, all, e, line, l1, l2, _⟩ := hline'
    have l1' := l1
    rw [hreq, List.getElem?_map, Option.map_eq_some_iff] at l1'
    obtain ⟨st, hst, rfl⟩ := l1'
    have hcor := hc st (List.mem_of_getElem? hst)
    cases st with
    | other req => exact absurd (task_observe l2) hcor
    | posted ls => exact mem_places.2 ⟨_, r.data, hst, rfl, lineIs_post hcor l1 hline, hk⟩
  have := (hnd.subperm hsub).length_le
  simpa using this

end

/-! ### when a Read returned -/

theorem store_returned {lib : Lib} {c : Collator} {l : Nat} {a b : StoreConc.State} (hs : StoreConc.Steps lib c l a b) {i : Nat} {f : Bool}
    {buf : Bytes} {d : Nat} (hb : (i, Ret.got f buf d) ∈ b.m.rets) (ha : (i, Ret.got f buf d) ∉ a.m.rets) :
    ∃ τ τ', StoreConc.Steps lib c l a τ ∧ StoreConc.Step lib c l τ τ' ∧ τ'.m.rets = τ.m.rets ++ [(i, .got f buf d)] ∧
      τ'.calls = τ.calls ∧ StoreConc.Steps lib c l τ' b := by
  induction hs with
  | refl => exact absurd hb ha
  | @tail x y h0 h1 ih =>
    by_cases hx : (i, Ret.got f buf d) ∈ x.m.rets
    · obtain ⟨τ, τ', e1, e2, e3, e4, e5⟩ := ih hx
      exact ⟨τ, τ', e1, e2, e3, e4, .tail e5 h1⟩
    · refine ⟨x, y, h0, h1, ?_, ?_, .refl _⟩
      · cases h1 with
        | write t r k fn hi hk hf =>
          exfalso
          unfold BufmapConc.call at hb
          simp only at hb
          split at hb
          · simp only [List.mem_append, List.mem_singleton, Prod.mk.injEq] at hb
            rcases hb with hb | ⟨_, hb⟩
            · exact hx hb
            · simp at hb
          · exact hx hb
        | read t q k hi hk => exact absurd hb hx
        | step t m' h =>
          rcases StoreConc.step_rets h with e | ⟨r', e⟩
          · simp only at hb; rw [e] at hb; exact absurd hb hx
          · simp only at hb ⊢
            rw [e] at hb ⊢
            rw [List.mem_append, List.mem_singleton] at hb
            rw [hb.resolve_left hx]
      · cases h1 with
        | write t r k fn hi hk hf =>
          exfalso
          unfold BufmapConc.call at hb
          simp only at hb
          split at hb
          · simp only [List.mem_append, List.mem_singleton, Prod.mk.injEq] at hb
            rcases hb with hb | ⟨_, hb⟩
            · exact hx hb
            · simp at hb
          · exact hx hb
        | read t q k hi hk => exact absurd hb hx
        | step t m' h => rfl

theorem done_grow {lib : Lib} {c : Collator} {l : Nat} (hl : 0 < l) {a b : StoreConc.State} (ha : StoreConc.Steps lib c l StoreConc.init a)
    (hs : StoreConc.Steps lib c l a b) (keys : List Bytes) (k : U64) : doneWrites keys k a ⊆ doneWrites keys k b := by
  intro i hi
  obtain ⟨r, e, h1, h2⟩ := StoreConc.mem_done.1 hi
  obtain ⟨_, _, _, ⟨more, hm⟩⟩ := BufmapConc.steps_mono hl (BufmapConc.inv_reach hl (StoreConc.steps_m ha)) (StoreConc.steps_m hs)
  exact StoreConc.mem_done.2 ⟨r, e, StoreConc.WriteOf.later hs h1, by rw [hm]; exact List.mem_append_left _ h2⟩

theorem started_grow {lib : Lib} {c : Collator} {l : Nat} {a b : StoreConc.State}
    (hs : StoreConc.Steps lib c l a b) (keys : List Bytes) (k : U64) : startedWrites keys k a ⊆ startedWrites keys k b := by
  intro i hi
  obtain ⟨r, h1⟩ := StoreConc.mem_started.1 hi
  exact StoreConc.mem_started.2 ⟨r, StoreConc.WriteOf.later hs h1⟩

/-- **C68**: the whole server under concurrent requests, partial. Let clients post correctly written observations and make any other
requests, handled by any number of goroutines in any interleaving. Let a query for count(*) with some criteria be received after the moment
`σ₀` and be answered by the moment `σ`. Then it is answered with the criteria and a count (or the criteria alone, if there is no
record yet, and then nothing that agrees with the criteria was acknowledged at `σ₀`). The count is at least the number of observations that agree with the
criteria on the key fields and were acknowledged (status 200) at `σ₀`; and if there were no other posts and no two key values collide, it is at most the number
of those received by `σ`. So nothing acknowledged is lost and nothing is counted twice. Missing: keys in the first slots (see C30_truncated). -/
theorem C68_count_partial (env : Env) (confs : List Conf) (s : Nat) (sch : Schema) (l : Nat) (hs : confs[s]? = some ⟨compile sch, l⟩)
    (hv : ValidSchema sch) (hd : sch.recordMeasures ≠ []) (hn : GoodName sch.name) (hl : 0 < l)
    (hfirst : ∀ s' c', s' < s → confs[s']? = some c' → c'.coll.name ≠ sch.name)
    (σ₀ σ : ServerConc.State) (hr : ServerConc.Steps env confs ServerConc.init σ₀) (hsteps : ServerConc.Steps env confs σ₀ σ)
    (hun : Unwrapped σ) (steps : List Step) (hreq : σ.reqs = steps.map Step.request)
    (hcorr : ∀ ls, Step.posted ls ∈ steps → ∀ l ∈ ls, l.Correct) (j : Nat) (hj : σ₀.reqs.length ≤ j) (text : Bytes)
    (hask : steps[j]? = some (.other (askFor sch.name text))) (crit : List FV) (hq : Query.roughParse env.ord text = .ok (countQuery crit))
    (k : U64) (hk : keyValue crit sch.keys = some k) (h0 : k ≠ 0)
    (hlow : ∀ x, x < l → (σ.stores s).m.keys x = k → 8 * sch.recordMeasures.length ≤ x) (rep : Reply) (hrep : (j, rep) ∈ σ.replies) :
    (rep = .ok (echo crit) ∧ ((acknowledged steps σ₀).filter fun fs => AgreeOn sch.keys fs crit) = []) ∨
    ∃ n, rep = .ok (echo crit ++ countLine env n) ∧ ((acknowledged steps σ₀).filter fun fs => AgreeOn sch.keys fs crit).length ≤ n ∧
      ((∀ st ∈ steps, st.Correct) → (∀ fs ∈ observations steps, keyValue fs sch.keys = some k → AgreeOn sch.keys fs crit) →
        ((observations steps).filter fun fs => AgreeOn sch.keys fs crit) ≠ [] ∧
        n ≤ ((observations steps).filter fun fs => AgreeOn sch.keys fs crit).length) := by
  have hkeys : (compile sch).keys = sch.keys := compile_keys sch
  have hI₀ := ServerConc.inv_reach hr
  have hI := ServerConc.inv_reach (hr.trans hsteps)
  have hx := ext_steps hsteps
  have hst₀ := steps_store hr hs
  have hst := steps_store hsteps hs
  have htask := task_ask env confs sch.name text hn _ hq s _ hs (compile_name sch) hfirst
  have hreqj : σ.reqs[j]? = some (askFor sch.name text) := by rw [hreq, List.getElem?_map, hask]; rfl
  obtain ⟨c, hs', hcases⟩ := (hI.replies j rep hrep).ask _ s _ hreqj htask
  rw [hs] at hs'
  obtain rfl := Option.some.inj hs'
  have hagree : ∀ L : List (List FV), (L.filter fun fs => AgreeOn sch.keys fs crit).length ≤
      (L.filter fun fs => keyValue fs (compile sch).keys = some k).length := by
    intro L
    apply List.Sublist.length_le
    apply List.monotone_filter_right
    intro fs hfs
    rw [hkeys]
    have := C28_key sch.keys fs crit (by simpa using hfs)
    rw [hk] at this
    simpa using this
  have hlow₀ := (hagree (acknowledged steps σ₀)).trans
    (acked_done (c := ⟨compile sch, l⟩) hr hs steps (by rw [← hreq]; exact hx.reqs) hcorr k)
  have h0' : ∀ (i : Nat) ret, (σ.origin s)[i]? = some (j, 0) → (i, ret) ∉ (σ₀.stores s).m.rets := by
    intro i ret ho hm
    have hlt := (BufmapConc.inv_reach hl (StoreConc.steps_m hst₀)).ids.dlt i (List.mem_map.2 ⟨_, hm, rfl⟩)
    rw [← (StoreConc.callsOk_steps (StoreConc.callsOk_init env.lib (compile sch)) hst₀).len, ← hI₀.len] at hlt
    obtain ⟨o, ho'⟩ : ∃ o, (σ₀.origin s)[i]? = some o := ⟨_, List.getElem?_eq_getElem hlt⟩
    have e := prefix_get (hx.origin s) ho'
    rw [ho] at e
    obtain rfl := Option.some.inj e
    have := hI₀.olt s _ (List.mem_of_getElem? ho')
    simp only at this
    omega
  rcases hcases with ⟨hnk, _⟩ | ⟨hneg, _⟩ | ⟨i, ret, out, ho, hcall, hret, hout, rfl⟩
  · rw [show (compile sch).keys = sch.keys from hkeys] at hnk
    rw [show (countQuery crit).criteria = crit from rfl, hk] at hnk
    simp at hnk
  · obtain ⟨L, D, pos, h, _⟩ := laid_compile sch hv
    have h1 := h.size
    have h2 := h.pos
    simp only at hneg h1 h2
    omega
  · cases ret with
    | ran _ => simp [StoreConc.readReply] at hout
    | invalidKey => simp [StoreConc.readReply] at hout
    | outOfSlots => simp [StoreConc.readReply] at hout
    | got f buf d =>
      cases f with
      | false =>
        left
        have hout := Option.some.inj hout
        subst hout
        refine ⟨?_, ?_⟩
        · show queryReply env (countQuery crit) (.val ([], none)) = _
          unfold queryReply
          exact congrArg Reply.ok (render_none env crit)
        · by_contra hne
          have hpos : 0 < (doneWrites (compile sch).keys k (σ₀.stores s)).length := by
            have := List.length_pos_iff.2 hne
            simp only at hlow₀
            omega
          have hlate : (σ₀.stores s).calls.length ≤ i := by
            by_contra hlt
            rw [Nat.not_le, ← hI₀.len] at hlt
            obtain ⟨o, ho'⟩ : ∃ o, (σ₀.origin s)[i]? = some o := ⟨_, List.getElem?_eq_getElem hlt⟩
            have e := prefix_get (hx.origin s) ho'
            rw [ho] at e
            obtain rfl := Option.some.inj e
            have := hI₀.olt s _ (List.mem_of_getElem? ho')
            simp only at this
            omega
          obtain ⟨buf', d', e⟩ := C64_found env.lib (compile sch) l hl (σ₀.stores s) (σ.stores s) hst₀ hst k h0 (List.length_pos_iff.1 hpos) i hlate _ hcall
            (by rw [hkeys]; exact hk) _ hret
          simp at e
      | true =>
        right
        obtain ⟨τ, τ', e1, e2, e3, e4, e5⟩ := store_returned hst hret (h0' i _ ho)
        have hrτ := hst₀.trans e1
        have hτσ := (StoreConc.Steps.tail (.refl τ) e2).trans e5
        have hiτ : i < τ.calls.length := by
          have hr' : StoreConc.Steps env.lib (compile sch) l StoreConc.init τ' := .tail hrτ e2
          have := (BufmapConc.inv_reach hl (StoreConc.steps_m hr')).ids.dlt i (List.mem_map.2 ⟨(i, .got true buf d), by rw [e3]; simp, rfl⟩)
          rw [← (StoreConc.callsOk_steps (StoreConc.callsOk_init env.lib (compile sch)) hr').len, e4] at this
          exact this
        have hqτ : τ.calls[i]? = some (.read (countQuery crit)) := by
          obtain ⟨more, hm⟩ := StoreConc.calls_grow hτσ
          rw [hm, List.getElem?_append_left hiτ] at hcall
          exact hcall
        obtain ⟨n, hread, hlo, hhi⟩ := C64_count_partial env.lib sch hv hd l hl τ τ' hrτ e2 i crit hqτ k hk h0
          (by
            intro x hx' hkx
            apply hlow x hx'
            rw [(BufmapConc.steps_mono hl (BufmapConc.inv_reach hl (StoreConc.steps_m hrτ)) (StoreConc.steps_m hτσ)).1 x (by rw [hkx]; exact h0)]
            exact hkx)
          buf d (hun s i buf d hret) e3
        have hout' : some out = some _ := hout.symm.trans hread
        have hout' := Option.some.inj hout'
        subst hout'
        refine ⟨n, ?_, ?_, ?_⟩
        · show queryReply env (countQuery crit) (.val (_, none)) = _
          unfold queryReply
          exact congrArg Reply.ok (render_count env crit n)
        · refine hlow₀.trans ?_
          rw [hkeys]
          exact (((StoreConc.done_nodup _ _ _).subperm (done_grow hl hst₀ e1 sch.keys k)).length_le).trans hlo
        · intro hall happ
          have hrec : (startedWrites sch.keys k τ).length ≤ ((observations steps).filter fun fs => AgreeOn sch.keys fs crit).length := by
            refine (((StoreConc.started_nodup _ _ _).subperm (started_grow hτσ sch.keys k)).length_le).trans ?_
            have := started_received (c := ⟨compile sch, l⟩) (hr.trans hsteps) hs steps hreq hall k
            simp only [hkeys] at this
            refine this.trans (le_of_eq ?_)
            congr 1
            apply List.filter_congr
            intro fs hfs
            rw [decide_eq_decide]
            exact ⟨happ fs hfs, fun h2 => by rw [C28_key sch.keys fs crit h2, hk]⟩
          refine ⟨?_, hhi.trans hrec⟩
          have hcτ := StoreConc.callsOk_steps (StoreConc.callsOk_init env.lib (compile sch)) hrτ
          obtain ⟨i', fn, hup⟩ := C40_bufmap_conc_partial l _ hl τ.m τ'.m (StoreConc.steps_m hrτ) (StoreConc.step_m e2) i k h0 _ buf d
            (hcτ.read hqτ (by rw [hkeys]; exact hk)) e3
          obtain ⟨r, hw1, hw2, _⟩ := hcτ.ok i' _ hup
          rw [hkeys] at hw2
          have hpos := List.length_pos_iff.2 (List.ne_nil_of_mem (StoreConc.mem_started.2 ⟨r, hw1, hw2⟩))
          exact List.length_pos_iff.1 (by omega)

theorem acked_all {steps : List Step} {σ : ServerConc.State} (h : ∀ j ls, steps[j]? = some (.posted ls) → Acked σ j) :
    acknowledged steps σ = observations steps := by
  rw [observations_flatMap]
  unfold acknowledged
  have key : ∀ L : List (Step × Nat), (∀ x ∈ L, Acked σ x.2 ∨ x.1.posts = []) →
      (L.filter fun x => Acked σ x.2).flatMap (fun x => x.1.posts) = L.flatMap fun x => x.1.posts := by
    intro L
    induction L with
    | nil => intro _; rfl
    | cons x L ih =>
      intro hL
      rw [List.flatMap_cons, ← ih fun y hy => hL y (by simp [hy]), List.filter_cons]
      split
      · rw [List.flatMap_cons]
      · next hx => rw [(hL x (by simp)).resolve_left (by simpa using hx), List.nil_append]
  apply key
  rintro ⟨st, j⟩ hx
  rw [List.mem_zipIdx_iff_getElem?] at hx
  cases st with
  | posted ls => exact .inl (h j ls hx)
  | other req => exact .inr rfl

/-- **C68**, exact when nothing is in progress: if all posts received by `σ` had been acknowledged by the moment `σ₀` before the query was
received, the answer is that of the sequential server (C48_server_partial): the exact number, or no line if there is none. -/
theorem C68_exact_partial (env : Env) (confs : List Conf) (s : Nat) (sch : Schema) (l : Nat) (hs : confs[s]? = some ⟨compile sch, l⟩)
    (hv : ValidSchema sch) (hd : sch.recordMeasures ≠ []) (hn : GoodName sch.name) (hl : 0 < l)
    (hfirst : ∀ s' c', s' < s → confs[s']? = some c' → c'.coll.name ≠ sch.name)
    (σ₀ σ : ServerConc.State) (hr : ServerConc.Steps env confs ServerConc.init σ₀) (hsteps : ServerConc.Steps env confs σ₀ σ)
    (hun : Unwrapped σ) (steps : List Step) (hreq : σ.reqs = steps.map Step.request) (hcorr : ∀ st ∈ steps, st.Correct)
    (hall : ∀ j ls, steps[j]? = some (.posted ls) → Acked σ₀ j) (j : Nat) (hj : σ₀.reqs.length ≤ j) (text : Bytes)
    (hask : steps[j]? = some (.other (askFor sch.name text))) (crit : List FV) (hq : Query.roughParse env.ord text = .ok (countQuery crit))
    (k : U64) (hk : keyValue crit sch.keys = some k) (h0 : k ≠ 0)
    (happ : ∀ fs ∈ observations steps, keyValue fs sch.keys = some k → AgreeOn sch.keys fs crit)
    (hlow : ∀ x, x < l → (σ.stores s).m.keys x = k → 8 * sch.recordMeasures.length ≤ x) (rep : Reply) (hrep : (j, rep) ∈ σ.replies) :
    rep = .ok (echo crit ++ if ((observations steps).filter fun fs => AgreeOn sch.keys fs crit) = [] then []
      else countLine env ((observations steps).filter fun fs => AgreeOn sch.keys fs crit).length) := by
  have := C68_count_partial env confs s sch l hs hv hd hn hl hfirst σ₀ σ hr hsteps hun steps hreq (fun ls hls => hcorr _ hls) j hj text hask crit hq
    k hk h0 hlow rep hrep
  rw [acked_all hall] at this
  rcases this with ⟨h1, h2⟩ | ⟨n, h1, h2, h3⟩
  · rw [if_pos h2, List.append_nil]; exact h1
  · obtain ⟨h4, h5⟩ := h3 hcorr happ
    rw [if_neg h4, Nat.le_antisymm h2 h5]; exact h1

end Starbow.Props
