import Verif.Proof.EndToEnd
import Mathlib.Data.List.Forall2
import Mathlib.Data.List.Induction
/-
Property theorems C48 and C49 for the whole server: requests in, answers out.
-/
namespace Starbow.Props
open Starbow.Collation Starbow.Spec Starbow.Storage Starbow.Server

instance (keys : List Bytes) (a b : List FV) : Decidable (AgreeOn keys a b) := by unfold AgreeOn; infer_instance

/-- a name a collation can be queried by: a single path element -/
structure GoodName (n : Bytes) : Prop where
  ne : n ≠ []
  noslash : 0x2f ∉ n
  nodot : n ≠ asc "."
  nodots : n ≠ asc ".."

theorem compile_name (s : Schema) : (compile s).name = s.name := by
  have hm : ∀ f (ms : List Measure) (a : Building × Shared), (ms.foldl (compileMeasure f) a).1.coll.name = a.1.coll.name := by
    intro f ms
    induction ms with
    | nil => intro a; rfl
    | cons m ms ih =>
      intro a
      rw [List.foldl_cons, ih]
      unfold compileMeasure compileDisc compileCont addCont
      split <;> split <;> rfl
  have hs : ∀ (specs : List (Bytes × List Measure)) (b : Building), (specs.foldl compileSpec b).coll.name = b.coll.name := by
    intro specs
    induction specs with
    | nil => intro b; rfl
    | cons p specs ih => intro b; rw [List.foldl_cons, ih]; unfold compileSpec; rw [hm]
  have hr : ∀ (rms : List RowMeasure) (b : Building), (rms.foldl compileRow b).coll.name = b.coll.name := by
    intro rms
    induction rms with
    | nil => intro b; rfl
    | cons rm rms ih => intro b; rw [List.foldl_cons, ih]; rfl
  unfold compile
  rw [hs, hr]
  rfl

theorem ask_serve (env : Env) (a b : List Store) (st : Store) (name text : Bytes) (hn : GoodName name) (ha : ∀ s ∈ a, s.coll.name ≠ name)
    (hst : st.coll.name = name) (q : Query) (hq : Query.roughParse env.ord text = .ok q) :
    (Server.serve env (a ++ st :: b) (askFor name text)).2 = queryStores env name q (st :: b) := by
  rw [serve_collation env _ (askFor name text) rfl name rfl
    (.inl (clean_collation name hn.noslash hn.nodot hn.nodots)), if_neg hn.ne, if_neg hn.noslash,
    if_neg (by rintro ⟨_, h⟩; exact h rfl)]
  unfold queryCollation
  rw [show (askFor name text).form (asc "q") = text by simp [askFor], hq]
  simp only
  clear hq
  induction a with
  | nil => rfl
  | cons s a ih =>
    rw [List.cons_append, queryStores, if_neg (ha s (by simp))]
    exact ih fun s h => ha s (by simp [h])

theorem names_of_colls {a a' : List Store} (h : a'.map Store.coll = a.map Store.coll) {name : Bytes} (ha : ∀ s ∈ a, s.coll.name ≠ name) :
    ∀ s ∈ a', s.coll.name ≠ name := by
  intro s hs
  have : s.coll ∈ a.map Store.coll := by rw [← h]; exact List.mem_map.2 ⟨s, hs, rfl⟩
  obtain ⟨s', hs', e⟩ := List.mem_map.1 this
  rw [← e]
  exact ha s' hs'

/-! ### C48 -/

theorem line_parse {l : Line} (h : l.Correct) : parseRow (noCR l.text) = .val (.ok ⟨decimalValue l.ts * 1000, l.fs⟩) := by
  have : noCR l.text = l.text := by
    unfold noCR
    rw [if_neg h.no_cr]
  rw [this]
  exact C41_parse_partial l.ts l.d l.fs h.ts_ne h.ts_digits h.ts_short h.ts_small h.d_nodigit h.d_noeq h.fields

/-- an accepted post of correct observations gives each store exactly these observations, with success -/
theorem posted_accepted (env : Env) (sts : List Store) (ls : List Line) (hc : ∀ l ∈ ls, l.Correct)
    (h : (Server.serve env sts (Step.posted ls).request).2 = .ok []) :
    ∃ os : List Obs, os.map (fun o => o.row.data) = ls.map Line.fs ∧
      (Server.serve env sts (Step.posted ls).request).1 = sts.map (fun st => (writes env.lib st os).1) ∧
      ∀ st ∈ sts, ∀ p ∈ (writes env.lib st os).2, p.2 = .ret none := by
  unfold Step.request at h ⊢
  rw [serve_post] at h ⊢
  have hs := scan_unlines none false [] (ls.map Line.text) (by
    intro x hx
    obtain ⟨l, hl, rfl⟩ := List.mem_map.1 hx
    exact ⟨(hc l hl).no_newline, (hc l hl).fits⟩)
  rw [List.append_nil, scan_last none (l := []) ⟨by simp, by simp⟩, if_pos rfl, List.append_nil] at hs
  rw [hs] at h ⊢
  simp only at h ⊢
  have hr : recvLoop env.lib none none ((ls.map Line.text).map noCR) sts =
      ((recvLoop env.lib none none ((ls.map Line.text).map noCR) sts).1, .ok []) := by rw [← h]
  obtain ⟨_, rows, e1, e2, e3⟩ := recvLoop_ok env.lib none _ sts _ [] hr
  refine ⟨rows.map fun r => ⟨r, false⟩, ?_, e2, e3⟩
  have hrows : rows = ls.map fun l => ⟨decimalValue l.ts * 1000, l.fs⟩ := by
    clear e2 e3 hr h hs
    induction ls generalizing rows with
    | nil =>
      cases rows with
      | nil => rfl
      | cons r rows => simp at e1
    | cons l ls ih =>
      cases rows with
      | nil => simp at e1
      | cons r rows =>
        simp only [List.map_cons, List.cons.injEq] at e1
        rw [line_parse (hc l (by simp))] at e1
        obtain ⟨e0, e1⟩ := e1
        simp only [Out.val.injEq, Except.ok.injEq] at e0
        rw [ih (fun x hx => hc x (by simp [hx])) rows e1, List.map_cons, e0]
  rw [hrows]
  simp

/-- an accepted history gives each store exactly the observations posted, with success -/
theorem steps_made (env : Env) : ∀ (steps : List Step) (a : List Store) (st : Store) (b : List Store), (∀ s ∈ steps, s.Correct) →
    List.Forall₂ Step.Accepted steps (serveAll env (a ++ st :: b) (steps.map Step.request)).2 →
    ∃ a' os b', (serveAll env (a ++ st :: b) (steps.map Step.request)).1 = a' ++ (writes env.lib st os).1 :: b' ∧
      a'.map Store.coll = a.map Store.coll ∧ os.map (fun o => o.row.data) = observations steps ∧ ∀ p ∈ (writes env.lib st os).2, p.2 = .ret none
  | [], a, st, b, _, _ => ⟨a, [], b, rfl, rfl, rfl, by simp [writes]⟩
  | s :: steps, a, st, b, hc, hacc => by
    rw [List.map_cons, serveAll] at hacc ⊢
    simp only at hacc ⊢
    rw [List.forall₂_cons] at hacc
    obtain ⟨h1, h2⟩ := hacc
    cases s with
    | other req =>
      have hun : (Server.serve env (a ++ st :: b) req).1 = a ++ st :: b := by
        by_contra hne
        obtain ⟨e1, e2, _⟩ := C44_unchanged env _ req hne
        exact hc (.other req) (by simp) ⟨e1, e2⟩
      rw [show (Step.other req).request = req from rfl, hun] at h2 ⊢
      exact steps_made env steps a st b (fun s h => hc s (by simp [h])) h2
    | posted ls =>
      obtain ⟨os, e1, e2, e3⟩ := posted_accepted env (a ++ st :: b) ls (hc (.posted ls) (by simp)) h1
      rw [e2, List.map_append, List.map_cons] at h2 ⊢
      obtain ⟨a', os', b', e1', e2', e3', e4'⟩ := steps_made env steps _ _ _ (fun s h => hc s (by simp [h])) h2
      refine ⟨a', os ++ os', b', ?_, ?_, ?_, ?_⟩
      · rw [e1', (writes_append env.lib os os' st).1]
      · rw [e2', List.map_map]
        apply List.map_congr_left
        intro s _
        exact writes_coll env.lib os s
      · rw [List.map_append, e1, e3']
        rfl
      · intro p hp
        rw [(writes_append env.lib os os' st).2] at hp
        rcases List.mem_append.1 hp with hp | hp
        · exact e3 st (by simp) p hp
        · exact e4' p hp

/-- the lines that repeat the criteria in an answer -/
def echo (crit : List FV) : Bytes := crit.flatMap fun c => c.f ++ asc "=" ++ c.v ++ asc "\n"

/-- the line `count(*)=n` -/
def countLine (env : Env) (n : Nat) : Bytes := asc "count(*)=" ++ env.fmtFloat (F64.ofU64 (BitVec.ofNat 64 n)) ++ asc "\n"

theorem render_count (env : Env) (crit : List FV) (n : Nat) :
    render env crit [⟨asc "*", asc "count", F64.ofU64 (BitVec.ofNat 64 n)⟩] = echo crit ++ countLine env n := by
  unfold render echo countLine fmvString
  rw [show asc "=" = [0x3d] by decide +kernel, show asc "\n" = [0x0a] by decide +kernel,
    show asc "count(*)=" = asc "count" ++ asc "(" ++ asc "*" ++ asc ")=" by decide +kernel]
  simp

theorem render_none (env : Env) (crit : List FV) : render env crit [] = echo crit := by
  unfold render echo
  rw [show asc "=" = [0x3d] by decide +kernel, show asc "\n" = [0x0a] by decide +kernel]
  simp

/-- **C48**, the whole server, partial. Start with any stores, one of them a fresh store for the collation. After any history of accepted
posts of correctly written observations and any other requests, asking the collation for count(*) with some criteria (in any text that
parses to this) is answered by the criteria and the number of observations posted that agree with them on the key fields (no line at all if
there are none), provided no two different key values of the history (and the query) share a home slot, and the home slot of the one asked
for is neither among the first (8 per record measure) nor among the last. Missing: those slots and colliding keys, where it fails. -/
theorem C48_server_partial (env : Env) (sch : Schema) (hv : ValidSchema sch) (hd : sch.recordMeasures ≠ []) (hn : GoodName sch.name)
    (l : Nat) (hl : 0 < l) (a b : List Store) (ha : ∀ s ∈ a, s.coll.name ≠ sch.name)
    (steps : List Step) (hc : ∀ s ∈ steps, s.Correct)
    (hacc : List.Forall₂ Step.Accepted steps (serveAll env (a ++ newStore sch l :: b) (steps.map Step.request)).2)
    (text : Bytes) (crit : List FV) (hq : Query.roughParse env.ord text = .ok (countQuery crit))
    (happ : ∀ x ∈ crit :: observations steps, ∀ y ∈ crit :: observations steps, ∀ kx ky, keyValue x sch.keys = some kx →
      keyValue y sch.keys = some ky → kx.toNat % l = ky.toNat % l → AgreeOn sch.keys x y)
    (k : U64) (hk : keyValue crit sch.keys = some k) (h0 : k ≠ 0) (hlow : 8 * sch.recordMeasures.length ≤ k.toNat % l)
    (hhigh : k.toNat % l * ((compile sch).size.toNat + 1) ≤ l * (compile sch).size.toNat) :
    (Server.serve env (serveAll env (a ++ newStore sch l :: b) (steps.map Step.request)).1 (askFor sch.name text)).2 =
      .ok (echo crit ++ if ((observations steps).filter fun fs => AgreeOn sch.keys fs crit) = [] then []
        else countLine env ((observations steps).filter fun fs => AgreeOn sch.keys fs crit).length) := by
  obtain ⟨a', os, b', e, hcoll, hobs, hall⟩ := steps_made env steps a (newStore sch l) b hc hacc
  have hmem : ∀ o ∈ os, o.row.data ∈ observations steps := by
    intro o ho
    rw [← hobs]
    exact List.mem_map.2 ⟨o, ho, rfl⟩
  have hapart : HomesApart sch.keys l os := by
    intro o ho o' ho' k1 k2 h1 h2 h3
    have := C28_key sch.keys _ _ (happ _ (by simp [hmem o ho]) _ (by simp [hmem o' ho']) k1 k2 h1 h2 h3)
    rw [h1, h2] at this
    exact Option.some.inj this
  have hread := C48_read_partial env.lib sch hv hd l hl os hall hapart crit k hk h0 hlow hhigh
  have hrows : (rowsWith sch.keys k os).length = ((observations steps).filter fun fs => AgreeOn sch.keys fs crit).length := by
    unfold rowsWith
    have h1 : ((os.map Obs.row).filter fun r => decide (keyValue r.data sch.keys = some k)).length =
        ((observations steps).filter fun fs => decide (keyValue fs sch.keys = some k)).length := by
      rw [← hobs]
      simp only [List.filter_map, List.length_map]
      rfl
    rw [h1]
    congr 1
    apply List.filter_congr
    intro fs hfs
    rw [decide_eq_decide]
    constructor
    · intro h2
      exact happ fs (by simp [hfs]) crit (by simp) k k h2 hk rfl
    · intro h2
      rw [C28_key sch.keys fs crit h2, hk]
  rw [e, ask_serve env a' b' _ sch.name text hn (names_of_colls hcoll ha) (by rw [writes_coll]; exact compile_name sch) _ hq, queryStores,
    if_pos (by rw [writes_coll]; exact compile_name sch), hread]
  by_cases hz : rowsWith sch.keys k os = []
  · have hz' : ((observations steps).filter fun fs => AgreeOn sch.keys fs crit) = [] := by
      apply List.length_eq_zero_iff.1
      rw [← hrows, hz]; rfl
    rw [if_pos hz, if_pos hz']
    unfold noRecord
    simp only
    rw [List.append_nil]
    exact congrArg Reply.ok (render_none env crit)
  · have hz' : ((observations steps).filter fun fs => AgreeOn sch.keys fs crit) ≠ [] := by
      intro h
      apply hz
      apply List.length_eq_zero_iff.1
      rw [hrows, h]; rfl
    rw [if_neg hz, if_neg hz', hrows]
    unfold countIs
    simp only
    exact congrArg Reply.ok (render_count env crit _)

/-! ### C49 -/

/-- **C49**, the whole server, partial. Start with any stores, one of them a fresh store for the collation. After any requests whatever, one
more request of any kind does not change the answer to any query about a key value with (non-zero) key `k`, unless one of its lines has
that key in the collation. So an observation for another key value, or one that lacks a key field of the collation, changes nothing. Missing: two key
values may have the same key (`C49_server_refuted`). -/
theorem C49_server_partial (env : Env) (sch : Schema) (hv : ValidSchema sch) (hn : GoodName sch.name) (l : Nat) (hl : 0 < l)
    (a b : List Store) (ha : ∀ s ∈ a, s.coll.name ≠ sch.name) (reqs : List Request) (req : Request)
    (text : Bytes) (q : Query) (hq : Query.roughParse env.ord text = .ok q) (k : U64) (hk : keyValue q.criteria sch.keys = some k) (h0 : k ≠ 0)
    (hreq : ∀ line, LineOf req.body.bytes line ∨ LineOf (req.form (asc "data")) line → ∀ row, parseRow (noCR line) = .val (.ok row) →
      keyValue row.data sch.keys ≠ some k) :
    (Server.serve env (serveAll env (a ++ newStore sch l :: b) (reqs ++ [req])).1 (askFor sch.name text)).2 =
    (Server.serve env (serveAll env (a ++ newStore sch l :: b) reqs).1 (askFor sch.name text)).2 := by
  obtain ⟨a1, os, b1, e1, c1, _, _⟩ := serveAll_made env reqs a (newStore sch l) b
  rw [serveAll_append, e1]
  obtain ⟨a2, os2, b2, e2, c2, _, h2⟩ := serve_made env a1 (writes env.lib (newStore sch l) os).1 b1 req
  rw [e2]
  have ha1 := names_of_colls c1 ha
  have ha2 := names_of_colls c2 ha1
  have hcoll : ∀ os, (writes env.lib (newStore sch l) os).1.coll.name = sch.name := fun os => by rw [writes_coll]; exact compile_name sch
  rw [ask_serve env a1 b1 _ sch.name text hn ha1 (hcoll os) q hq, ask_serve env a2 b2 _ sch.name text hn ha2
    (by rw [← (writes_append env.lib os os2 _).1]; exact hcoll _) q hq, queryStores, queryStores, if_pos (hcoll os),
    if_pos (by rw [← (writes_append env.lib os os2 _).1]; exact hcoll _)]
  have hread : Storage.read env.lib (writes env.lib (writes env.lib (newStore sch l) os).1 os2).1 q =
      Storage.read env.lib (writes env.lib (newStore sch l) os).1 q := by
    clear e2
    rw [← (writes_append env.lib os os2 _).1]
    clear e1
    have h2 : ∀ o ∈ os2, keyValue o.row.data sch.keys ≠ some k := by
      intro o ho
      obtain ⟨line, hl1, hl2⟩ := h2 o ho
      exact hreq line hl1 _ hl2
    generalize os2 = os2 at h2
    induction os2 using List.reverseRecOn with
    | nil => rw [List.append_nil]
    | append_singleton os2 o ih =>
      rw [← List.append_assoc, C49_other_keys_partial env.lib sch hv l hl (os ++ os2) o q k hk h0 (h2 o (by simp))]
      exact ih fun o ho => h2 o (by simp [ho])
  rw [hread]

/-! ### the program: two stores -/

/-- an observation of nothing but a country, with time 0 -/
def countryLine (c : Bytes) : Line := ⟨asc "0", 0x3b, [⟨asc "country", c⟩]⟩

/-- a country that can be written in such a line -/
structure Writable (c : Bytes) : Prop where
  nosemi : 0x3b ∉ c
  nonl : 0x0a ∉ c
  nocr : (0x0d ∉ c)
  short : c.length ≤ 1000

theorem countryLine_text (c : Bytes) : (countryLine c).text = asc "0;country=" ++ c := by
  unfold Line.text countryLine obsLine fieldText
  rw [List.flatMap_cons, List.flatMap_nil, List.append_nil, show asc "0;country=" = asc "0" ++ (0x3b :: (asc "country" ++ asc "=")) by decide +kernel]
  simp

theorem countryLine_correct {c : Bytes} (h : Writable c) : (countryLine c).Correct where
  ts_ne := show asc "0" ≠ [] by decide +kernel
  ts_digits := show ∀ b ∈ asc "0", Digit b by decide +kernel
  ts_short := show (asc "0").length ≤ 20 by decide +kernel
  ts_small := show decimalValue (asc "0") * 1000 < 2 ^ 63 by decide +kernel
  d_nodigit := show ¬ Digit 0x3b by decide
  d_noeq := show (0x3b : Byte) ≠ 0x3d by decide
  fields := by
    intro f hf
    simp only [countryLine, List.mem_singleton] at hf
    subst hf
    exact ⟨show (0x3b : Byte) ∉ asc "country" by decide +kernel, show (0x3d : Byte) ∉ asc "country" by decide +kernel, h.nosemi⟩
  no_newline := by
    rw [countryLine_text]
    intro hm
    rcases List.mem_append.1 hm with hm | hm
    · exact absurd hm (by decide +kernel)
    · exact h.nonl hm
  no_cr := by
    rw [countryLine_text]
    intro hm
    rcases List.mem_append.1 (List.mem_of_getLast? hm) with hm | hm
    · exact absurd hm (by decide +kernel)
    · exact h.nocr hm
  fits := by
    rw [countryLine_text, List.length_append, show (asc "0;country=").length = 10 by decide +kernel]
    have := h.short
    omega

/-- posting it to the program: accepted, and the country store has it -/
theorem demo_post (env : Env) {c : Bytes} (h : Writable c) {k : U64} (hk : keyValue [⟨asc "country", c⟩] Demo.country.keys = some k) (h0 : k ≠ 0) :
    Server.serve env Demo.stores (post (unlines [(countryLine c).text])) =
      ([(writes env.lib (newStore Demo.country Demo.slots) [seenCountry c]).1, newStore Demo.tz Demo.slots], .ok []) := by
  have hcor := countryLine_correct h
  have hp := line_parse hcor
  rw [show (⟨(decimalValue (countryLine c).ts : Int) * 1000, (countryLine c).fs⟩ : Row) = (seenCountry c).row by
    unfold seenCountry
    simp only [Row.mk.injEq]
    exact ⟨show (decimalValue (asc "0") : Int) * 1000 = 0 by decide +kernel, rfl⟩] at hp
  have h1 := seen_first env.lib c k hk h0
  have hw : (writes env.lib (newStore Demo.country Demo.slots) [seenCountry c]).2 =
    [(seenCountry c, (write env.lib (newStore Demo.country Demo.slots) false (seenCountry c).row).2)] := rfl
  rw [h1] at hw
  simp only [List.cons.injEq, Prod.mk.injEq, true_and, and_true] at hw
  have htz : keyValue (seenCountry c).row.data (newStore Demo.tz Demo.slots).coll.keys = none := by
    rw [show (newStore Demo.tz Demo.slots).coll.keys = [asc "tz"] by unfold newStore; rw [compile_keys]; rfl, keyValue_eq]
    unfold keyBytes
    simp only [List.foldr_cons, List.foldr_nil]
    rw [show valueOf (seenCountry c).row.data (asc "tz") = none by
      unfold valueOf seenCountry
      simp only [List.find?_cons, List.find?_nil]
      rw [show (decide (asc "country" = asc "tz")) = false by decide +kernel]
      rfl]
    rfl
  have htw : write env.lib (newStore Demo.tz Demo.slots) false (seenCountry c).row = (newStore Demo.tz Demo.slots, .ret none) := by
    unfold write
    rw [htz]
  have := C43_line env Demo.stores (countryLine c).text ⟨hcor.no_newline, hcor.fits⟩ (seenCountry c).row hp (by
    intro st hst
    rw [show Demo.stores = [newStore Demo.country Demo.slots, newStore Demo.tz Demo.slots] from rfl] at hst
    simp only [List.mem_cons, List.not_mem_nil, or_false] at hst
    rcases hst with rfl | rfl
    · exact hw.symm
    · rw [htw])
  rw [show unlines [(countryLine c).text] = (countryLine c).text ++ [0x0a] by simp [unlines], this]
  rw [show Demo.stores = [newStore Demo.country Demo.slots, newStore Demo.tz Demo.slots] from rfl, List.map_cons, List.map_cons, List.map_nil, htw]
  rfl

/-- `select count(*) where country='…'`, over two lines -/
def countryQuery (c : Bytes) : Bytes := listing ⟨asc "country", c⟩ []

theorem countryQuery_parse (ord : List FM → List FM) (hord : ∀ l, (ord l).Perm l) {c : Bytes} (h1 : c ≠ []) (h2 : 0x27 ∉ c) (h3 : 0x0a ∉ c) :
    Query.roughParse ord (countryQuery c) = .ok (countQuery [⟨asc "country", c⟩]) :=
  C46_queryable_partial ord hord _ _ (by
    intro c' hc'
    simp only [List.mem_singleton] at hc'
    subst hc'
    exact ⟨show asc "country" ≠ [] by decide +kernel, show ∀ b ∈ asc "country", ¬ Space b by decide +kernel, h1, h2, h3⟩)

theorem country_name : GoodName Demo.country.name := ⟨by decide +kernel, by decide +kernel, by decide +kernel, by decide +kernel⟩

/-- the answer to the query after the post, in terms of the store -/
theorem demo_ask (env : Env) (hord : ∀ l, (env.ord l).Perm l) {c c' : Bytes} (h : Writable c) {k : U64}
    (hk : keyValue [⟨asc "country", c⟩] Demo.country.keys = some k) (h0 : k ≠ 0) (h1 : c' ≠ []) (h2 : 0x27 ∉ c') (h3 : 0x0a ∉ c') :
    (Server.serve env (Server.serve env Demo.stores (post (unlines [(countryLine c).text]))).1 (askFor (asc "country") (countryQuery c'))).2 =
      queryStores env (asc "country") (countQuery [⟨asc "country", c'⟩])
        [(writes env.lib (newStore Demo.country Demo.slots) [seenCountry c]).1, newStore Demo.tz Demo.slots] := by
  rw [demo_post env h hk h0]
  exact ask_serve env [] [newStore Demo.tz Demo.slots] _ (asc "country") _ country_name (by simp)
    (by rw [writes_coll]; exact compile_name Demo.country) _ (countryQuery_parse env.ord hord h1 h2 h3)

theorem country_answers (env : Env) (os : List Obs) (b : List Store) (q : Query) :
    queryStores env (asc "country") q ((writes env.lib (newStore Demo.country Demo.slots) os).1 :: b) =
      match Storage.read env.lib (writes env.lib (newStore Demo.country Demo.slots) os).1 q with
      | .panic => .panic
      | .hang => .hang
      | .ret (_, some _) => .refused 500
      | .ret (res, none) => .ok (render env q.criteria res) := by
  rw [queryStores, if_pos (by rw [writes_coll]; exact compile_name Demo.country)]
  cases Storage.read env.lib (writes env.lib (newStore Demo.country Demo.slots) os).1 q with
  | panic => rfl
  | hang => rfl
  | ret r =>
    obtain ⟨r, e⟩ := r
    cases e <;> rfl

/-- **C48 fails** in the program, over HTTP: post `0;country=IOO`, answered with 200; then ask for count(*) of country IOO: the answer is
`count(*)=0` … -/
theorem C48_server_ioo_refuted (env : Env) (hord : ∀ l, (env.ord l).Perm l) :
    (Server.serve env Demo.stores (post (asc "0;country=IOO\n"))).2 = .ok [] ∧
    (Server.serve env (Server.serve env Demo.stores (post (asc "0;country=IOO\n"))).1 (askFor (asc "country") (countryQuery (asc "IOO")))).2 =
      .ok (echo [⟨asc "country", asc "IOO"⟩] ++ countLine env 0) := by
  have hw : Writable (asc "IOO") := ⟨by decide +kernel, by decide +kernel, by decide +kernel, by decide +kernel⟩
  have hk : keyValue [⟨asc "country", asc "IOO"⟩] Demo.country.keys = some 14390734045735915000 := by decide +kernel
  rw [show asc "0;country=IOO\n" = unlines [(countryLine (asc "IOO")).text] by decide +kernel]
  refine ⟨by rw [demo_post env hw hk (by decide)], ?_⟩
  rw [demo_ask env hord hw hk (by decide) (by decide +kernel) (by decide +kernel) (by decide +kernel), country_answers,
    (C48_ioo_refuted env.lib).2]
  unfold countIs
  simp only
  exact congrArg Reply.ok (render_count env _ 0)

/-- … and the same with CET: the query panics. -/
theorem C48_server_cet_refuted (env : Env) (hord : ∀ l, (env.ord l).Perm l) :
    (Server.serve env Demo.stores (post (asc "0;country=CET\n"))).2 = .ok [] ∧
    (Server.serve env (Server.serve env Demo.stores (post (asc "0;country=CET\n"))).1 (askFor (asc "country") (countryQuery (asc "CET")))).2 =
      .panic := by
  have hw : Writable (asc "CET") := ⟨by decide +kernel, by decide +kernel, by decide +kernel, by decide +kernel⟩
  have hk : keyValue [⟨asc "country", asc "CET"⟩] Demo.country.keys = some 14396317365782834999 := by decide +kernel
  rw [show asc "0;country=CET\n" = unlines [(countryLine (asc "CET")).text] by decide +kernel]
  refine ⟨by rw [demo_post env hw hk (by decide)], ?_⟩
  rw [demo_ask env hord hw hk (by decide) (by decide +kernel) (by decide +kernel) (by decide +kernel), country_answers,
    (C48_cet_refuted env.lib).2]

/-- **C49 fails** in the program, over HTTP: there is a country `c` other than FR such that after one post of an observation of `c` the
answer for FR is `count(*)=1`, while it has no count before. -/
theorem C49_server_refuted (env : Env) (hord : ∀ l, (env.ord l).Perm l) : ∃ c, c ≠ asc "FR" ∧ Writable c ∧
    (Server.serve env Demo.stores (askFor (asc "country") (countryQuery (asc "FR")))).2 = .ok (echo [⟨asc "country", asc "FR"⟩]) ∧
    (Server.serve env (Server.serve env Demo.stores (post (unlines [(countryLine c).text]))).1
      (askFor (asc "country") (countryQuery (asc "FR")))).2 = .ok (echo [⟨asc "country", asc "FR"⟩] ++ countLine env 1) := by
  have hk : keyValue [⟨asc "country", asc "FR"⟩] Demo.country.keys = some 12582602682680778473 := by decide +kernel
  have hk' := C29_country_collision.trans hk
  have hw : Writable [0x02, 0x10, 0x02, 0x0c, 0x17, 0x0b, 0x7f, 0x17, 0x08, 0x1a, 0x0c, 0x00, 0x01, 0x05] :=
    ⟨by decide, by decide, by decide, by decide⟩
  refine ⟨_, by decide, hw, ?_, ?_⟩
  · rw [show Demo.stores = [] ++ (newStore Demo.country Demo.slots) :: [newStore Demo.tz Demo.slots] from rfl,
      ask_serve env [] _ _ (asc "country") _ country_name (by simp) (compile_name Demo.country) _
        (countryQuery_parse env.ord hord (by decide +kernel) (by decide +kernel) (by decide +kernel))]
    have := country_answers env [] [newStore Demo.tz Demo.slots] (countQuery [⟨asc "country", asc "FR"⟩])
    rw [show (writes env.lib (newStore Demo.country Demo.slots) []).1 = newStore Demo.country Demo.slots from rfl] at this
    rw [this]
    have hread := (C48_law env.lib Demo.country country_valid (by decide) Demo.slots (by decide) [] _ _ hk (by decide)).1 rfl
    rw [show (writes env.lib (newStore Demo.country Demo.slots) []).1 = newStore Demo.country Demo.slots from rfl] at hread
    rw [hread]
    unfold noRecord
    simp only
    exact congrArg Reply.ok (render_none env _)
  · rw [demo_ask env hord hw hk' (by decide) (by decide +kernel) (by decide +kernel) (by decide +kernel), country_answers]
    have h1 := seen_first env.lib _ _ hk' (by decide)
    rw [C48_counts_partial env.lib Demo.country country_valid (by decide) Demo.slots (by decide) _ (apart_one _ _ _) _ _ hk (by decide) (by decide)
      (by rw [country_size]; decide), h1, rowsFor_seen hk', if_neg (by simp)]
    unfold countIs
    simp only
    exact congrArg Reply.ok (render_count env _ 1)

/-- **C46 fails** over HTTP: an observation of country Cote d'Ivoire (it is in the demo data) is accepted, but no query text whatever has it
as a criterion. -/
theorem C46_server_refuted (env : Env) :
    (Server.serve env Demo.stores (post (asc "0;country=Cote d'Ivoire\n"))).2 = .ok [] ∧
    ∀ text q, Query.roughParse env.ord text = .ok q → ∀ c ∈ q.criteria, c.v ≠ asc "Cote d'Ivoire" := by
  constructor
  · have hw : Writable (asc "Cote d'Ivoire") := ⟨by decide +kernel, by decide +kernel, by decide +kernel, by decide +kernel⟩
    rw [show asc "0;country=Cote d'Ivoire\n" = unlines [(countryLine (asc "Cote d'Ivoire")).text] by decide +kernel]
    obtain ⟨k, hk⟩ := key_defined [⟨asc "country", asc "Cote d'Ivoire"⟩] Demo.country.keys (by decide +kernel)
    rw [demo_post env hw hk (by rintro rfl; revert hk; decide +kernel)]
  · intro text q hq c hc hv
    have := (C46_refuted env.ord text q hq c hc).2
    rw [hv] at this
    exact this (by decide +kernel)

/-- instance of C48_server_partial: in the program, one observation of FR posted, another request in between: the answer is `count(*)=1` -/
example (env : Env) (hord : ∀ l, (env.ord l).Perm l) :
    (Server.serve env (serveAll env Demo.stores [(Step.posted [countryLine (asc "FR")]).request, askFor (asc "tz") (asc "nonsense")]).1
      (askFor (asc "country") (countryQuery (asc "FR")))).2 = .ok (echo [⟨asc "country", asc "FR"⟩] ++ countLine env 1) := by
  have hw : Writable (asc "FR") := ⟨by decide +kernel, by decide +kernel, by decide +kernel, by decide +kernel⟩
  have hk : keyValue [⟨asc "country", asc "FR"⟩] Demo.country.keys = some 12582602682680778473 := by decide +kernel
  have hpost := demo_post env hw hk (by decide)
  have := C48_server_partial env Demo.country country_valid (by decide) country_name Demo.slots (by decide) [] [newStore Demo.tz Demo.slots] (by simp)
    [.posted [countryLine (asc "FR")], .other (askFor (asc "tz") (asc "nonsense"))]
    (by
      intro s hs
      simp only [List.mem_cons, List.not_mem_nil, or_false] at hs
      rcases hs with rfl | rfl
      · intro l hl
        simp only [List.mem_singleton] at hl
        subst hl
        exact countryLine_correct hw
      · exact fun h => absurd h.2 (by decide +kernel))
    (by
      refine .cons ?_ (.cons trivial .nil)
      show (Server.serve env Demo.stores (post (unlines [(countryLine (asc "FR")).text]))).2 = .ok []
      rw [hpost])
    (countryQuery (asc "FR")) [⟨asc "country", asc "FR"⟩]
    (countryQuery_parse env.ord hord (by decide +kernel) (by decide +kernel) (by decide +kernel))
    (by
      intro x hx y hy _ _ _ _ _
      have e : ∀ z ∈ ([⟨asc "country", asc "FR"⟩] : List FV) :: observations [.posted [countryLine (asc "FR")], .other (askFor (asc "tz") (asc "nonsense"))],
          z = [⟨asc "country", asc "FR"⟩] := by
        intro z hz
        simp [observations, countryLine] at hz
        exact hz
      rw [e x hx, e y hy]
      exact fun _ _ => rfl)
    12582602682680778473 hk (by decide) (by decide) (by rw [country_size]; decide)
  exact this

end Starbow.Props
