import Verif.Props.Together
/-
Property theorems C93: what the criteria of a query do.
-/
namespace Starbow.Props
open Starbow.Collation Starbow.Spec Starbow.Storage Starbow.Server

/-- the observation has the value every criterion asks for -/
def Satisfies (fs : List FV) (crit : List FV) : Prop := ∀ c ∈ crit, valueOf fs c.f = some c.v

instance (fs crit : List FV) : Decidable (Satisfies fs crit) := inferInstanceAs (Decidable (∀ c ∈ crit, _))

theorem askFor_reply (env : Env) (sts : List Store) (name : Bytes) (hn : GoodName name) (text : Bytes) (q : Query) (hq : Query.roughParse env.ord text = .ok q) :
    (Server.serve env sts (askFor name text)).2 = queryStores env name q sts := by
  rw [serve_collation env _ (askFor name text) rfl name rfl
    (.inl (clean_collation name hn.noslash hn.nodot hn.nodots)), if_neg hn.ne, if_neg hn.noslash,
    if_neg (by rintro ⟨_, h⟩; exact h rfl)]
  unfold queryCollation
  rw [show (askFor name text).form (asc "q") = text by simp [askFor], hq]

/-- **C93**, the law: criteria on fields that are not keys of the collation, and a second criterion for the same field, are repeated in the answer and otherwise ignored. Two queries for
the same measures whose (first) criteria for the key fields are the same get the same results, or are refused alike. For every server in every state. -/
theorem C93_law (env : Env) (sts : List Store) (name : Bytes) (hn : GoodName name) (text text' : Bytes) (q q' : Query)
    (hq : Query.roughParse env.ord text = .ok q) (hq' : Query.roughParse env.ord text' = .ok q') (hm : q.fieldMeasures = q'.fieldMeasures)
    (hk : ∀ st ∈ sts, st.coll.name = name → AgreeOn st.coll.keys q.criteria q'.criteria) :
    (∃ results, (Server.serve env sts (askFor name text)).2 = .ok (echo q.criteria ++ results) ∧
      (Server.serve env sts (askFor name text')).2 = .ok (echo q'.criteria ++ results)) ∨
    ((Server.serve env sts (askFor name text)).2 = (Server.serve env sts (askFor name text')).2 ∧
      ∀ body, (Server.serve env sts (askFor name text)).2 ≠ .ok body) := by
  rw [askFor_reply env sts name hn text q hq, askFor_reply env sts name hn text' q' hq']
  induction sts with
  | nil => exact .inr ⟨rfl, by intro body h; cases h⟩
  | cons st sts ih =>
    by_cases hst : st.coll.name = name
    · simp only [queryStores, if_pos hst]
      rw [C28_query env.lib st q q' (hk st (by simp) hst) hm]
      cases Storage.read env.lib st q' with
      | panic => exact .inr ⟨rfl, by intro body h; cases h⟩
      | hang => exact .inr ⟨rfl, by intro body h; cases h⟩
      | ret x =>
        obtain ⟨res, e⟩ := x
        cases e with
        | some e => exact .inr ⟨rfl, by intro body h; cases h⟩
        | none =>
          refine .inl ⟨lines env res, ?_, ?_⟩
          · rw [← render_none env q.criteria, ← render_eq]
          · rw [← render_none env q'.criteria, ← render_eq]
    · simp only [queryStores, if_neg hst]
      exact ih fun st hst => hk st (by simp [hst])

theorem valueOf_nodup {crit : List FV} (hnd : (crit.map FV.f).Nodup) {c : FV} (hc : c ∈ crit) : valueOf crit c.f = some c.v := by
  induction crit with
  | nil => simp at hc
  | cons d crit ih =>
    rw [List.map_cons, List.nodup_cons] at hnd
    unfold valueOf
    rw [List.find?_cons]
    rcases List.mem_cons.1 hc with rfl | hc
    · simp
    · have hne : d.f ≠ c.f := fun e => hnd.1 (e ▸ List.mem_map.2 ⟨c, hc, rfl⟩)
      have := ih hnd.2 hc
      unfold valueOf at this
      simp only [hne, decide_false]
      exact this

theorem agree_satisfies {keys : List Bytes} {crit : List FV} (hkeys : ∀ c ∈ crit, c.f ∈ keys) (hnd : (crit.map FV.f).Nodup)
    (hall : ∀ key ∈ keys, ∃ c ∈ crit, c.f = key) (fs : List FV) : AgreeOn keys fs crit ↔ Satisfies fs crit := by
  constructor
  · intro h c hc
    rw [h c.f (hkeys c hc), valueOf_nodup hnd hc]
  · intro h key hkey
    obtain ⟨c, hc, rfl⟩ := hall key hkey
    rw [h c hc, valueOf_nodup hnd hc]

/-- **C93**, partial: if every criterion is for a key field, with one criterion for each key field, count(*) is the number of observations posted that satisfy all criteria. Under the provisos
of C48_server_partial (different key values have different home slots, and the one asked for is neither among the first nor among the last). Missing: other criteria, see C93_law and C93_refuted. -/
theorem C93_keys_partial (env : Env) (sch : Schema) (hv : ValidSchema sch) (hd : sch.recordMeasures ≠ []) (hn : GoodName sch.name)
    (l : Nat) (hl : 0 < l) (a b : List Store) (ha : ∀ s ∈ a, s.coll.name ≠ sch.name)
    (steps : List Step) (hc : ∀ s ∈ steps, s.Correct)
    (hacc : List.Forall₂ Step.Accepted steps (serveAll env (a ++ newStore sch l :: b) (steps.map Step.request)).2)
    (text : Bytes) (crit : List FV) (hq : Query.roughParse env.ord text = .ok (countQuery crit))
    (hkeys : ∀ c ∈ crit, c.f ∈ sch.keys) (hnd : (crit.map FV.f).Nodup) (hevery : ∀ key ∈ sch.keys, ∃ c ∈ crit, c.f = key)
    (happ : ∀ x ∈ crit :: observations steps, ∀ y ∈ crit :: observations steps, ∀ kx ky, keyValue x sch.keys = some kx →
      keyValue y sch.keys = some ky → kx.toNat % l = ky.toNat % l → AgreeOn sch.keys x y)
    (k : U64) (hk : keyValue crit sch.keys = some k) (h0 : k ≠ 0) (hlow : 8 * sch.recordMeasures.length ≤ k.toNat % l)
    (hhigh : k.toNat % l * ((compile sch).size.toNat + 1) ≤ l * (compile sch).size.toNat) :
    (Server.serve env (serveAll env (a ++ newStore sch l :: b) (steps.map Step.request)).1 (askFor sch.name text)).2 =
      .ok (echo crit ++ if ((observations steps).filter fun fs => Satisfies fs crit) = [] then []
        else countLine env ((observations steps).filter fun fs => Satisfies fs crit).length) := by
  have e : ((observations steps).filter fun fs => decide (Satisfies fs crit)) = (observations steps).filter fun fs => decide (AgreeOn sch.keys fs crit) := by
    apply List.filter_congr
    intro fs _
    rw [decide_eq_decide]
    exact (agree_satisfies hkeys hnd hevery fs).symm
  rw [e]
  exact C48_server_partial env sch hv hd hn l hl a b ha steps hc hacc text crit hq happ k hk h0 hlow hhigh

/-! ### the program -/

/-- `country=FR;tz=Europe/Paris` -/
def frParis : List FV := [⟨asc "country", asc "FR"⟩, ⟨asc "tz", asc "Europe/Paris"⟩]
/-- `0;country=FR;tz=Europe/Paris` -/
def frParisLine : Bytes := asc "0;country=FR;tz=Europe/Paris"

def frCrit : List FV := [⟨asc "country", asc "FR"⟩]
def tokyoCrit : List FV := [⟨asc "country", asc "FR"⟩, ⟨asc "tz", asc "Asia/Tokyo"⟩]
def bothCrit : List FV := [⟨asc "country", asc "FR"⟩, ⟨asc "country", asc "DE"⟩]
def tokyoText : Bytes := asc "select count(*) where country='FR' and tz='Asia/Tokyo'"
def bothText : Bytes := asc "select count(*) where country='FR' and country='DE'"

theorem count_parse (ord : List FM → List FM) (hord : ∀ l, (ord l).Perm l) (text : Bytes) (crit : List FV) (h : Query.roughParse id text = .ok (countQuery crit)) :
    Query.roughParse ord text = .ok (countQuery crit) := by
  rw [roughParse_ord ord (q := countQuery crit) h]
  unfold countQuery
  simp only
  rw [List.perm_singleton.1 (hord _)]

theorem frParis_key : keyValue frCrit Demo.country.keys = some 12582602682680778473 ∧ keyValue frParis Demo.country.keys = some 12582602682680778473 ∧
    keyValue frParis Demo.tz.keys = some 14228350075699257265 ∧ AgreeOn Demo.country.keys frParis frCrit ∧ AgreeOn Demo.country.keys frCrit tokyoCrit ∧
    AgreeOn Demo.country.keys frCrit bothCrit ∧ Plainly frParis ∧ ¬ Satisfies frParis tokyoCrit ∧ ¬ Satisfies frParis bothCrit := by decide +kernel

theorem frParis_request : (Step.posted [⟨asc "0", 0x3b, frParis⟩]).request = post (frParisLine ++ [0x0a]) := by
  have e : unlines [(⟨asc "0", 0x3b, frParis⟩ : Line).text] = frParisLine ++ [0x0a] := by decide +kernel
  rw [← e]
  rfl

theorem frParis_row : parseRow (noCR frParisLine) = .val (.ok ⟨0, frParis⟩) ∧ LineOk frParisLine := ⟨by decide +kernel, by decide +kernel, by decide +kernel⟩

theorem frParis_ok (env : Env) : (Server.serve env [newStore Demo.country Demo.slots, newStore Demo.tz Demo.slots] (post (frParisLine ++ [0x0a]))).2 = .ok [] := by
  obtain ⟨_, h1, h2, _⟩ := frParis_key
  rw [C43_line env _ frParisLine frParis_row.2 ⟨0, frParis⟩ frParis_row.1 (by
    intro st hst
    rcases List.mem_cons.1 hst with rfl | hst
    · exact (write_first env.lib country_valid (by decide) ⟨0, frParis⟩ h1 (by decide) (no_numbers env.lib _ (by decide +kernel))).1
    · rw [List.mem_singleton.1 hst]
      refine (write_first env.lib tz_valid (by decide) ⟨0, frParis⟩ h2 (by decide) ?_).1
      intro fv _ m hd hm
      rcases tz_declares hd with ⟨_, rfl⟩ | ⟨_, rfl⟩ <;> simp [Measure.continuousInput] at hm)]

theorem fr_bytes : (compile Demo.country).size = 900 := by decide +kernel

/-- France alone: one observation -/
theorem frParis_one (env : Env) (hord : ∀ l, (env.ord l).Perm l) :
    (Server.serve env (Server.serve env [newStore Demo.country Demo.slots, newStore Demo.tz Demo.slots] (post (frParisLine ++ [0x0a]))).1
      (askFor Demo.country.name (asc "select count(*) where country='FR'"))).2 = .ok (echo frCrit ++ countLine env 1) := by
  obtain ⟨k1, k2, k3, k4, _, _, k5, _⟩ := frParis_key
  refine ask_one env _ frParis _ _ _ frParis_request (frParis_ok env) ?_
  intro hacc
  have hfil : ((observations (oneByOne [frParis])).filter fun fs => AgreeOn Demo.country.keys fs frCrit) = [frParis] := by
    rw [oneByOne_obs, List.filter_eq_self]
    intro fs hfs
    rw [List.mem_singleton.1 hfs]
    exact decide_eq_true k4
  have hall : ∀ x ∈ frCrit :: observations (oneByOne [frParis]), AgreeOn Demo.country.keys x frCrit := by
    intro x hx
    rcases List.mem_cons.1 hx with rfl | hx
    · intro _ _; rfl
    · rw [oneByOne_obs] at hx
      rw [List.mem_singleton.1 hx]
      exact k4
  have := C48_server_partial env Demo.country country_valid (by decide) country_name Demo.slots (by decide) [] [newStore Demo.tz Demo.slots] (by simp) (oneByOne [frParis])
    (oneByOne_correct fun fs hfs => by rw [List.mem_singleton.1 hfs]; exact k5) hacc (asc "select count(*) where country='FR'") frCrit
    (count_parse env.ord hord _ _ (by decide +kernel)) (by
      intro x hx y hy kx ky _ _ _ key hkey
      rw [hall x hx key hkey, hall y hy key hkey]) 12582602682680778473 k1 (by decide) (by decide) (by rw [fr_bytes]; decide)
  rw [hfil, if_neg (List.cons_ne_nil _ _), List.length_singleton, List.nil_append] at this
  exact this

theorem ask_like (env : Env) (sts : List Store) (name : Bytes) (hn : GoodName name) (text text' : Bytes) (crit crit' : List FV)
    (hq : Query.roughParse env.ord text = .ok (countQuery crit)) (hq' : Query.roughParse env.ord text' = .ok (countQuery crit'))
    (hk : ∀ st ∈ sts, st.coll.name = name → AgreeOn st.coll.keys crit crit') (res : Bytes) (h : (Server.serve env sts (askFor name text)).2 = .ok (echo crit ++ res)) :
    (Server.serve env sts (askFor name text')).2 = .ok (echo crit' ++ res) := by
  rcases C93_law env sts name hn text text' _ _ hq hq' rfl hk with ⟨r, h1, h2⟩ | ⟨_, h2⟩
  · rw [h, Reply.ok.injEq] at h1
    have h1' := List.append_cancel_left (as := echo crit) h1
    rw [h2, ← h1']
    rfl
  · exact absurd h (h2 _)

theorem country_colls (env : Env) (r : Request) (hr : SinglePost r) :
    ∀ st ∈ (Server.serve env [newStore Demo.country Demo.slots, newStore Demo.tz Demo.slots] r).1, st.coll.name = Demo.country.name → st.coll.keys = Demo.country.keys := by
  intro st hst hname
  have := (serve_later env [newStore Demo.country Demo.slots, newStore Demo.tz Demo.slots] [] r hr).2
  have hm : st.coll ∈ [newStore Demo.country Demo.slots, newStore Demo.tz Demo.slots].map fun s => s.coll := by
    rw [← this]; exact List.mem_map.2 ⟨st, hst, rfl⟩
  rw [List.map_cons, List.map_cons, List.map_nil] at hm
  rcases List.mem_cons.1 hm with e | e
  · rw [e]; exact compile_keys _
  · rw [List.mem_singleton] at e
    rw [e] at hname
    have : (newStore Demo.tz Demo.slots).coll.name = Demo.tz.name := compile_name _
    rw [this] at hname
    exact absurd hname (by decide +kernel)

/-- **C93** fails, in the program: after the one observation `0;country=FR;tz=Europe/Paris` the queries for the airports of France in the time zone of Tokyo, and for those that are in France
and in Germany, are both answered with a count of 1, although no observation satisfies the criteria, which the answers repeat. -/
theorem C93_refuted (env : Env) (hord : ∀ l, (env.ord l).Perm l) :
    (Server.serve env Demo.stores (post (frParisLine ++ [0x0a]))).2 = .ok [] ∧ ¬ Satisfies frParis tokyoCrit ∧ ¬ Satisfies frParis bothCrit ∧
    (Server.serve env (Server.serve env Demo.stores (post (frParisLine ++ [0x0a]))).1 (askFor Demo.country.name tokyoText)).2 = .ok (echo tokyoCrit ++ countLine env 1) ∧
    (Server.serve env (Server.serve env Demo.stores (post (frParisLine ++ [0x0a]))).1 (askFor Demo.country.name bothText)).2 = .ok (echo bothCrit ++ countLine env 1) := by
  obtain ⟨_, _, _, _, k4, k5, _, k6, k7⟩ := frParis_key
  have hone := frParis_one env hord
  have hcolls := country_colls env (post (frParisLine ++ [0x0a])) (.inl ⟨_, frParis_row.2, rfl⟩)
  have hok := frParis_ok env
  unfold Demo.stores Demo.store
  unfold newStore at hone hcolls hok
  generalize hs : Server.serve env _ (post (frParisLine ++ [0x0a])) = x at hone hcolls hok ⊢
  refine ⟨hok, k6, k7, ?_, ?_⟩
  · exact ask_like env x.1 Demo.country.name country_name _ _ frCrit tokyoCrit (count_parse env.ord hord _ _ (by decide +kernel)) (count_parse env.ord hord _ _ (by decide +kernel))
      (by intro st hst h; rw [hcolls st hst h]; exact k4) _ hone
  · exact ask_like env x.1 Demo.country.name country_name _ _ frCrit bothCrit (count_parse env.ord hord _ _ (by decide +kernel)) (count_parse env.ord hord _ _ (by decide +kernel))
      (by intro st hst h; rw [hcolls st hst h]; exact k5) _ hone

/-- instance of C93_keys_partial: the query for France, and what frParis_one says about it (the other hypotheses are those used there) -/
example : (∀ c ∈ frCrit, c.f ∈ Demo.country.keys) ∧ (frCrit.map FV.f).Nodup ∧ (∀ key ∈ Demo.country.keys, ∃ c ∈ frCrit, c.f = key) ∧ Satisfies frParis frCrit ∧
    ¬ Satisfies [⟨asc "country", asc "DE"⟩] frCrit := by decide +kernel

end Starbow.Props
