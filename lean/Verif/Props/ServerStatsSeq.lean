import Verif.Props.ServerStats
import Verif.Props.ServerAlone
/-
C59 for the whole server, requests one at a time; and an instance of C73.
-/
namespace Starbow.Props
open Starbow.Collation Starbow.Spec Starbow.Storage Starbow.Server Starbow.ServerConc Starbow.BufmapConc Starbow.Cell

theorem numbersOf_data (lib : Lib) (f : Bytes) (rows : List Row) : numbersOf lib f rows = numbersIn lib f (rows.map Row.data) := by
  unfold numbersOf numbersIn valuesOf
  rw [List.filterMap_filterMap, ← List.flatMap_def]
  congr 1
  funext fv
  split <;> rfl

/-- what a server says when the collation has answered with a result -/
def resultReply (env : Env) (crit : List FV) : Out (List FMV × Option Err) → Reply
  | .panic => .panic
  | .val (_, some _) => .refused 500
  | .val (res, none) => .ok (render env crit res)

/-- **C59**, the whole server, partial: start with any stores, one of them a fresh store for the collation. After any history of accepted
posts of correctly written observations and any other requests, any query about a key value that has been observed is answered from the
record of the observations that agree with it on the key fields, in order, each once (what that record says is C25). Provisos as in C48_server_partial and C59_home_partial. -/
theorem C59_server_partial (env : Env) (sch : Schema) (hv : ValidSchema sch) (hn : GoodName sch.name)
    (l : Nat) (hl : 0 < l) (a b : List Store) (ha : ∀ s ∈ a, s.coll.name ≠ sch.name)
    (steps : List Step) (hc : ∀ s ∈ steps, s.Correct)
    (hacc : List.Forall₂ Step.Accepted steps (serveAll env (a ++ newStore sch l :: b) (steps.map Step.request)).2)
    (crit : List FV)
    (happ : ∀ x ∈ crit :: observations steps, ∀ y ∈ crit :: observations steps, ∀ kx ky, keyValue x sch.keys = some kx →
      keyValue y sch.keys = some ky → kx.toNat % l = ky.toNat % l → AgreeOn sch.keys x y)
    (k : U64) (hk : keyValue crit sch.keys = some k) (h0 : k ≠ 0) (hlow : (compile sch).size.toNat ≤ k.toNat % l)
    (hhigh : k.toNat % l * ((compile sch).size.toNat + 1) ≤ l * (compile sch).size.toNat)
    (hsome : ((observations steps).filter fun fs => AgreeOn sch.keys fs crit) ≠ []) :
    ∃ rows buf, rows.map Row.data = ((observations steps).filter fun fs => AgreeOn sch.keys fs crit) ∧ RecordOf env.lib (compile sch) rows buf ∧
      ∀ text sel, Query.roughParse env.ord text = .ok ⟨sel, crit⟩ →
        (Server.serve env (serveAll env (a ++ newStore sch l :: b) (steps.map Step.request)).1 (askFor sch.name text)).2 =
          resultReply env crit (Collation.read env.lib (compile sch) sel buf) := by
  obtain ⟨a', os, b', e, hcoll, hobs, hall⟩ := steps_made env steps a (newStore sch l) b hc hacc
  have hmem : ∀ o ∈ os, o.row.data ∈ observations steps := by
    intro o ho
    rw [← hobs]
    exact List.mem_map.2 ⟨o, ho, rfl⟩
  have hapart : HomesApart sch.keys l os := by
    intro o ho o' ho' k1 k2 h1 h2 h3
    have := C28_key sch.keys _ _ (happ _ (by simp [hmem o ho]) _ (by simp [hmem o' ho']) k1 k2 h1 h2 h3)
    rw [h1, h2] at this
    exact Option.some.inj this
  have hrows : (rowsWith sch.keys k os).map Row.data = ((observations steps).filter fun fs => AgreeOn sch.keys fs crit) := by
    unfold rowsWith
    have h1 : ((os.map Obs.row).filter fun r => decide (keyValue r.data sch.keys = some k)).map Row.data =
        ((observations steps).filter fun fs => decide (keyValue fs sch.keys = some k)) := by
      rw [← hobs]
      simp only [List.filter_map, List.map_map]
      rfl
    rw [h1]
    apply List.filter_congr
    intro fs hfs
    rw [decide_eq_decide]
    constructor
    · intro h2
      exact happ fs (by simp [hfs]) crit (by simp) k k h2 hk rfl
    · intro h2
      rw [C28_key sch.keys fs crit h2, hk]
  have hne : rowsWith sch.keys k os ≠ [] := by
    intro h
    rw [h] at hrows
    exact hsome hrows.symm
  obtain ⟨buf, hrec, hread⟩ := C59_home_partial env.lib sch hv l hl os hall hapart k h0 hne hlow hhigh
  refine ⟨_, buf, hrows, hrec, ?_⟩
  intro text sel hq
  rw [e, ask_serve env a' b' _ sch.name text hn (names_of_colls hcoll ha) (by rw [writes_coll]; exact compile_name sch) _ hq, queryStores,
    if_pos (by rw [writes_coll]; exact compile_name sch), hread _ hk]
  simp only
  unfold answer resultReply
  generalize Collation.read env.lib (compile sch) sel buf = o
  cases o with
  | panic => rfl
  | val r => obtain ⟨res, e⟩ := r; cases e <;> rfl

/-- **C59**, the whole server, partial, with the values: sum, mean and var are those of the numbers in the observations that agree with the
criteria, in the order in which they were posted. -/
theorem C59_server_values_partial (env : Env) (sch : Schema) (hv : ValidSchema sch) (hn : GoodName sch.name)
    (l : Nat) (hl : 0 < l) (a b : List Store) (ha : ∀ s ∈ a, s.coll.name ≠ sch.name)
    (steps : List Step) (hc : ∀ s ∈ steps, s.Correct)
    (hacc : List.Forall₂ Step.Accepted steps (serveAll env (a ++ newStore sch l :: b) (steps.map Step.request)).2)
    (crit : List FV)
    (happ : ∀ x ∈ crit :: observations steps, ∀ y ∈ crit :: observations steps, ∀ kx ky, keyValue x sch.keys = some kx →
      keyValue y sch.keys = some ky → kx.toNat % l = ky.toNat % l → AgreeOn sch.keys x y)
    (k : U64) (hk : keyValue crit sch.keys = some k) (h0 : k ≠ 0) (hlow : (compile sch).size.toNat ≤ k.toNat % l)
    (hhigh : k.toNat % l * ((compile sch).size.toNat + 1) ≤ l * (compile sch).size.toNat)
    (hsome : ((observations steps).filter fun fs => AgreeOn sch.keys fs crit) ≠ [])
    (f : Bytes) (m : Measure) (hm : m = .sum ∨ m = .mean ∨ m = .variance) (hd : Declares sch f m)
    (text : Bytes) (hq : Query.roughParse env.ord text = .ok ⟨[⟨f, [m.name]⟩], crit⟩) :
    (Server.serve env (serveAll env (a ++ newStore sch l :: b) (steps.map Step.request)).1 (askFor sch.name text)).2 =
      .ok (echo crit ++ measureLine env m.name f
        (statOf m (numbersIn env.lib f ((observations steps).filter fun fs => AgreeOn sch.keys fs crit)))) := by
  obtain ⟨rows, buf, hrows, hrec, hans⟩ := C59_server_partial env sch hv hn l hl a b ha steps hc hacc crit happ k hk h0 hlow hhigh hsome
  rw [hans text _ hq, ← hrows, ← numbersOf_data]
  cases rows with
  | nil => exact absurd hrows.symm hsome
  | cons r rows =>
    have key : Collation.read env.lib (compile sch) [⟨f, [m.name]⟩] buf =
        .val ([⟨f, m.name, statOf m (numbersOf env.lib f (r :: rows))⟩], none) := by
      rcases hm with rfl | rfl | rfl
      · exact C25_sum env.lib sch hv f hd r rows buf hrec
      · exact C25_mean env.lib sch hv f hd r rows buf hrec
      · exact C25_var env.lib sch hv f hd r rows buf hrec
    rw [key]
    exact congrArg Reply.ok (render_one env crit f m.name _)

/-! ### an instance -/

/-- the observation `0;country=FR;height=180` -/
def frLine : Line := ⟨asc "0", 0x3b, [⟨asc "country", asc "FR"⟩, ⟨asc "height", asc "180"⟩]⟩

/-- the query for sum(height) -/
def frText : Bytes := asc "select sum(height) where country='FR'"

def frSteps : List Step := [.posted [frLine], .other (askFor (asc "country") frText)]

theorem frLine_correct : frLine.Correct where
  ts_ne := by decide +kernel
  ts_digits := by decide +kernel
  ts_short := by decide +kernel
  ts_small := by decide +kernel
  d_nodigit := by decide +kernel
  d_noeq := by decide +kernel
  fields := by decide +kernel
  no_newline := by decide +kernel
  no_cr := by decide +kernel
  fits := by decide +kernel

theorem roughParse_ord (ord : List FM → List FM) {s : Bytes} {q : Query} (h : Query.roughParse id s = .ok q) :
    Query.roughParse ord s = .ok ⟨ord q.fieldMeasures, q.criteria⟩ := by
  unfold Query.roughParse at h ⊢
  split at h
  · next sel wh heq =>
    split at h
    · simp at h
    · next fields hf =>
      split at h
      · simp at h
      · next crit hc =>
        simp only [Except.ok.injEq] at h
        subst h
        rfl
  · simp at h

theorem frText_parse (ord : List FM → List FM) (hord : ∀ l, (ord l).Perm l) :
    Query.roughParse ord frText = .ok ⟨[⟨asc "height", [asc "sum"]⟩], [⟨asc "country", asc "FR"⟩]⟩ := by
  rw [roughParse_ord ord (q := ⟨[⟨asc "height", [asc "sum"]⟩], [⟨asc "country", asc "FR"⟩]⟩) (by decide +kernel),
    List.perm_singleton.1 (hord _)]

theorem writes_one (lib : Lib) (s : Store) (c : Obs) : (writes lib s [c]).1 = (write lib s c.canceled c.row).1 := rfl

/-- the post is accepted -/
theorem fr_post (env : Env) {x : F64} (hx : env.lib.parseFloat (asc "180") = some x) :
    Server.serve env Demo.stores (Step.posted [frLine]).request =
      ([(writes env.lib (newStore Demo.country Demo.slots) [seenHeight (asc "FR") (asc "180")]).1, newStore Demo.tz Demo.slots], .ok []) := by
  have hcor := frLine_correct
  have hp := line_parse hcor
  rw [show (⟨(decimalValue frLine.ts : Int) * 1000, frLine.fs⟩ : Row) = (seenHeight (asc "FR") (asc "180")).row by decide +kernel] at hp
  obtain ⟨L, D, pos, h, hD⟩ := laid_compile Demo.country country_valid
  have hw := write_plain env.lib h hD (good_new (l := Demo.slots) h (by decide)) (seenHeight (asc "FR") (asc "180")).row
    (k := 12582602682680778473) (by decide +kernel) (by decide) (.inr (room_new (by decide) _)) (height_all_plain (by rw [hx]; simp) _)
  have htz : keyValue (seenHeight (asc "FR") (asc "180")).row.data (newStore Demo.tz Demo.slots).coll.keys = none := by
    rw [show (newStore Demo.tz Demo.slots).coll.keys = [asc "tz"] by unfold newStore; rw [compile_keys]; rfl]
    decide +kernel
  have htw : write env.lib (newStore Demo.tz Demo.slots) false (seenHeight (asc "FR") (asc "180")).row = (newStore Demo.tz Demo.slots, .ret none) := by
    unfold write
    rw [htz]
  have := C43_line env Demo.stores frLine.text ⟨hcor.no_newline, hcor.fits⟩ (seenHeight (asc "FR") (asc "180")).row hp (by
    intro st hst
    rw [show Demo.stores = [newStore Demo.country Demo.slots, newStore Demo.tz Demo.slots] from rfl] at hst
    simp only [List.mem_cons, List.not_mem_nil, or_false] at hst
    rcases hst with rfl | rfl
    · exact hw
    · rw [htw])
  rw [show (Step.posted [frLine]).request = post (frLine.text ++ [0x0a]) by simp [Step.request, unlines], this]
  rw [show Demo.stores = [newStore Demo.country Demo.slots, newStore Demo.tz Demo.slots] from rfl, List.map_cons, List.map_cons, List.map_nil, htw,
    writes_one env.lib _ (seenHeight (asc "FR") (asc "180")), show (seenHeight (asc "FR") (asc "180")).canceled = false from rfl]

theorem fr_accepted (env : Env) {x : F64} (hx : env.lib.parseFloat (asc "180") = some x) :
    List.Forall₂ Step.Accepted [Step.posted [frLine]] (serveAll env ([] ++ newStore Demo.country Demo.slots :: [newStore Demo.tz Demo.slots])
      ([Step.posted [frLine]].map Step.request)).2 := by
  have := fr_post env hx
  refine .cons ?_ .nil
  show (Server.serve env Demo.stores (Step.posted [frLine]).request).2 = .ok []
  rw [this]

theorem fr_key : keyValue [⟨asc "country", asc "FR"⟩] Demo.country.keys = some 12582602682680778473 := by decide +kernel

theorem fr_declares : Declares Demo.country (asc "height") .sum := .inr ⟨by simp, _, List.mem_cons_self .., by simp⟩

theorem fr_agrees : AgreeOn Demo.country.keys [⟨asc "country", asc "FR"⟩, ⟨asc "height", asc "180"⟩] [⟨asc "country", asc "FR"⟩] := by
  decide +kernel

/-- instance of C59_server_values_partial: in the program, after the post of `0;country=FR;height=180` the query for sum(height) is answered
with the sum of that one number -/
theorem fr_answer (env : Env) (hord : ∀ l, (env.ord l).Perm l) {x : F64} (hx : env.lib.parseFloat (asc "180") = some x) :
    (Server.serve env (serveAll env Demo.stores [(Step.posted [frLine]).request]).1 (askFor (asc "country") frText)).2 =
      .ok (echo [⟨asc "country", asc "FR"⟩] ++ measureLine env (asc "sum") (asc "height") (F64.add (.fin false 0) x)) := by
  have hflt : ((observations [Step.posted [frLine]]).filter fun fs => AgreeOn Demo.country.keys fs [⟨asc "country", asc "FR"⟩]) =
      [[⟨asc "country", asc "FR"⟩, ⟨asc "height", asc "180"⟩]] := by decide +kernel
  have := C59_server_values_partial env Demo.country country_valid country_name Demo.slots (by decide) [] [newStore Demo.tz Demo.slots] (by simp)
    [Step.posted [frLine]] (by
      intro st hst
      obtain rfl := List.mem_singleton.1 hst
      intro l hl
      obtain rfl := List.mem_singleton.1 hl
      exact frLine_correct) (fr_accepted env hx) [⟨asc "country", asc "FR"⟩] (by
      intro a ha b hb kx ky _ _ _
      have : ∀ c ∈ [⟨asc "country", asc "FR"⟩] :: observations [Step.posted [frLine]], ∀ key ∈ Demo.country.keys, valueOf c key = some (asc "FR") := by
        decide +kernel
      intro key hkey
      rw [this a ha key hkey, this b hb key hkey])
    12582602682680778473 fr_key (by decide) (by rw [country_size]; decide) (by rw [country_size]; decide) (by rw [hflt]; simp)
    (asc "height") .sum (.inl rfl) fr_declares frText (frText_parse env.ord hord)
  rw [hflt] at this
  refine this.trans ?_
  congr 4
  show statOf .sum (numbersIn env.lib (asc "height") [[⟨asc "country", asc "FR"⟩, ⟨asc "height", asc "180"⟩]]) = _
  unfold numbersIn
  simp only [List.flatten_cons, List.flatten_nil, List.append_nil, List.filterMap_cons, List.filterMap_nil]
  rw [if_neg (by decide +kernel), if_pos (by decide +kernel), hx]
  rfl

theorem serveAll_one (env : Env) (S : List Store) (r : Request) : (serveAll env S [r]).1 = (Server.serve env S r).1 := rfl

/-- a query leaves the stores as they are -/
theorem asked_same (env : Env) (S : List Store) (name text : Bytes) (hn : GoodName name) :
    (Server.serve env S (askFor name text)).1 = S := by
  rw [serve_collation env _ (askFor name text) rfl name rfl
        (.inl (clean_collation name hn.noslash hn.nodot hn.nodots))]
  split
  · rfl
  split
  · rfl
  split <;> rfl

/-- the query leaves the stores as they are -/
theorem fr_asked (env : Env) (hord : ∀ l, (env.ord l).Perm l) {x : F64} (hx : env.lib.parseFloat (asc "180") = some x) :
    Server.serve env [(writes env.lib (newStore Demo.country Demo.slots) [seenHeight (asc "FR") (asc "180")]).1, newStore Demo.tz Demo.slots]
      (askFor (asc "country") frText) =
      ([(writes env.lib (newStore Demo.country Demo.slots) [seenHeight (asc "FR") (asc "180")]).1, newStore Demo.tz Demo.slots],
        .ok (echo [⟨asc "country", asc "FR"⟩] ++ measureLine env (asc "sum") (asc "height") (F64.add (.fin false 0) x))) := by
  refine Prod.ext (asked_same env _ _ frText country_name) ?_
  have hans := fr_answer env hord hx
  rw [serveAll_one, fr_post env hx] at hans
  exact hans

theorem fr_room (env : Env) {y : Nat} (hs : Spec.slotOf (writes env.lib (newStore Demo.country Demo.slots) [seenHeight (asc "FR") (asc "180")]).1.backend 12582602682680778473 = some y) :
    (compile Demo.country).size.toNat ≤ y := by
  obtain ⟨L, D, pos, h, hD⟩ := laid_compile Demo.country country_valid
  have := home_run env.lib h (l := Demo.slots) (by decide) [seenHeight (asc "FR") (asc "180")] (apart_one _ _ _)
      (k := 12582602682680778473) (by decide) (x := y) hs
  rw [this, country_size]
  decide

/-- instance of C73_partial, C73_exact_partial and C73_integers_partial: there is a run of the demo program in which goroutine 0 has
answered that post with 200 and then goroutine 1 has answered the query; the hypotheses hold there. -/
example (env : Env) (hord : ∀ l, (env.ord l).Perm l) {x : F64} (hx : env.lib.parseFloat (asc "180") = some x) :
    ∃ σ₀ σ rep, ServerConc.Steps env demoConfs ServerConc.init σ₀ ∧ ServerConc.Steps env demoConfs σ₀ σ ∧ Unwrapped σ ∧
    σ.reqs = frSteps.map Step.request ∧ (∀ j ls, frSteps[j]? = some (.posted ls) → Acked σ₀ j) ∧ σ₀.reqs.length ≤ 1 ∧
    (∀ y, y < Demo.slots → (σ.stores 0).m.keys y = 12582602682680778473 → (compile Demo.country).size.toNat ≤ y) ∧
    ((observations frSteps).filter fun fs => AgreeOn Demo.country.keys fs [⟨asc "country", asc "FR"⟩]) ≠ [] ∧
    (1, rep) ∈ σ.replies := by
  have hpos : ∀ c ∈ demoConfs, 0 < c.slots := by
    intro c hc
    simp only [demoConfs, List.mem_cons, List.not_mem_nil, or_false] at hc
    rcases hc with rfl | rfl <;> (show 0 < Demo.slots; decide)
  obtain ⟨σ₀, a1, a2, a3, a4, a5, a6, a7⟩ := C68_alone env demoConfs hpos ServerConc.init (.refl _) 0 rfl (fun _ => rfl) _ demo_agrees
    (Step.posted [frLine]).request _ _ (fr_post env hx) (by simp) (by simp)
  have hsame := fr_asked env hord hx
  obtain ⟨σ, b1, b2, b3, b4, b5, b6, b7⟩ := C68_alone env demoConfs hpos σ₀ a1 1 (by rw [a5]; rfl) (fun s => by rw [a6]; rfl) _ a2 _ _ _ hsame
    (by simp) (by simp)
  refine ⟨σ₀, σ, .ok (echo [⟨asc "country", asc "FR"⟩] ++ measureLine env (asc "sum") (asc "height") (F64.add (.fin false 0) x)), a1, b1, ?_, ?_, ?_, ?_, ?_, ?_, ?_⟩
  · intro s i buf d hm
    rcases b7 s i true buf d hm with h | rfl
    · rcases a7 s i true buf d h with h | rfl
      · simp [ServerConc.init, StoreConc.init, BufmapConc.init] at h
      · decide
    · decide
  · rw [b3, a3]; simp [frSteps, Step.request, ServerConc.init]
  · intro j ls hj
    unfold frSteps at hj
    match j with
    | 0 => unfold Acked; rw [a4]; simp [ServerConc.init]
    | 1 => simp at hj
    | j + 2 => simp at hj
  · rw [a3]; simp [ServerConc.init]
  · intro y hy hky
    obtain ⟨L, D, pos, h, hD⟩ := laid_compile Demo.country country_valid
    have hg := good_writes (l := Demo.slots) env.lib h [seenHeight (asc "FR") (asc "180")] (good_new h (by decide))
    have hsl := (b2.store 0 _ _ rfl rfl).2
    rw [hsl.keyAt hy] at hky
    have hs := (Bufmap.slotOf_eq hg.wf (by decide)).2 ⟨hy, hky⟩
    exact fr_room env hs
  · decide +kernel
  · rw [b4, a3]
    exact List.mem_append_right _ (List.mem_singleton.2 rfl)

end Starbow.Props
