import Verif.Props.EndToEnd
import Verif.Proof.Answer
import Verif.Proof.QueryBytes
/-
Property theorems C81 and C82: what the body of an answer tells.
-/
namespace Starbow.Props
open Starbow.Collation Starbow.Spec Starbow.Storage Starbow.Server

/-- what `fmt` prints for a double has no newline and no closing parenthesis -/
def PrintsNumbers (env : Env) : Prop := ∀ x, 0x0a ∉ env.fmtFloat x ∧ 0x29 ∉ env.fmtFloat x

/-- the line of a criterion -/
def criterionOf (c : FV) : AnswerLine := .criterion c.f c.v

/-- the line of a result -/
def resultOf (env : Env) (x : FMV) : AnswerLine := .result x.m x.f (env.fmtFloat x.v)

theorem name_plain (m : Measure) : PlainField m.name := by
  have h : ∀ n ∈ [asc "count", asc "sum", asc "mean", asc "var", asc "max", asc "min", asc "uniquecount"], PlainField n := by
    unfold PlainField; decide +kernel
  cases m <;> exact h _ (by simp [Measure.name])

theorem together_mem (one : Bytes × Bytes → Out (List FMV × Option Err)) (ps : List (Bytes × Bytes)) : ∀ res0 res,
    together one ps res0 = .val (res, none) → ∀ x ∈ res, x ∈ res0 ∨ ∃ p ∈ ps, ∃ r, one p = .val (r, none) ∧ x ∈ r := by
  induction ps with
  | nil =>
    intro res0 res h x hx
    rw [together] at h
    simp only [Out.val.injEq, Prod.mk.injEq, and_true] at h
    exact .inl (h ▸ hx)
  | cons p ps ih =>
    intro res0 res h x hx
    rw [together] at h
    rcases ho : one p with ⟨r, e | e⟩ | _
    · rw [ho] at h
      rcases ih _ _ h x hx with h1 | ⟨p', hp', h1⟩
      · rcases List.mem_append.1 h1 with h1 | h1
        · exact .inl h1
        · exact .inr ⟨p, by simp, r, ho, h1⟩
      · exact .inr ⟨p', by simp [hp'], h1⟩
    · rw [ho] at h; simp at h
    · rw [ho] at h; simp at h

/-- a value read is one that was asked for and that the schema maintains -/
theorem read_names (lib : Lib) (s : Schema) (hv : ValidSchema s) (fml : List FM) (buf : Bytes) (res : List FMV)
    (h : Collation.read lib (compile s) fml buf = .val (res, none)) : ∀ x ∈ res, (x.f, x.m) ∈ pairs fml ∧ Maintains s x.f x.m := by
  rw [C27_read] at h
  intro x hx
  rcases together_mem _ _ _ _ h x hx with h1 | ⟨⟨f, n⟩, hp, r, hr, hxr⟩
  · simp at h1
  · by_cases hm : Maintains s f n
    · obtain ⟨L, D, pos, h, hD⟩ := laid_compile s hv
      obtain ⟨c, hc⟩ := (reader_iff h hD f n).1 hm
      simp only at hr
      rw [ask_reply lib hc] at hr
      rcases hcr : c.read lib buf with (e | v) | _ <;> rw [hcr] at hr
      · simp [reply] at hr
      · simp only [reply, Out.val.injEq, Prod.mk.injEq, and_true] at hr
        subst hr
        simp only [List.mem_singleton] at hxr
        subst hxr
        exact ⟨hp, hm⟩
      · simp [reply] at hr
    · simp only at hr
      rw [C24_undeclared lib s hv f n hm] at hr
      simp only [Out.val.injEq, Prod.mk.injEq, and_true] at hr
      subst hr
      simp at hxr

theorem store_names (lib : Lib) (s : Schema) (hv : ValidSchema s) (st : Store) (hst : st.coll = compile s) (q : Query) (res : List FMV)
    (h : Storage.read lib st q = .ret (res, none)) : ∀ x ∈ res, (x.f, x.m) ∈ pairs q.fieldMeasures ∧ Maintains s x.f x.m := by
  unfold Storage.read at h
  split at h
  · simp only [Bufmap.Res.ret.injEq, Prod.mk.injEq, and_true] at h
    subst h
    simp
  · split at h
    · simp at h
    · split at h
      · simp at h
      · simp at h
      · simp only [Bufmap.Res.ret.injEq, Prod.mk.injEq, and_true] at h
        subst h
        simp
      · split at h
        · simp at h
        · next r hr =>
          simp only [Bufmap.Res.ret.injEq] at h
          subst h
          rw [hst] at hr
          exact read_names lib s hv _ _ _ hr

/-- where a successful answer comes from -/
theorem answered (env : Env) (sts : List Store) (req : Request) (hp : asc "/collation/" <+: req.path) (body : Bytes)
    (hok : (Server.serve env sts req).2 = .ok body) :
    ∃ q a st b res, Query.roughParse env.ord (req.form (asc "q")) = .ok q ∧ sts = a ++ st :: b ∧ (∀ s ∈ a, s.coll.name ≠ st.coll.name) ∧
      req.path = asc "/collation/" ++ st.coll.name ∧ Storage.read env.lib st q = .ret (res, none) ∧ body = render env q.criteria res := by
  obtain ⟨name, hname⟩ := hp
  unfold Server.serve at hok
  split at hok
  · simp at hok
  · split at hok
    · simp at hok
    · split at hok
      · next h =>
        rw [← hname] at h
        have := congrArg List.length h
        rw [List.length_append, show (asc "/collation/").length = 11 by decide +kernel, show (asc "/obs").length = 4 by decide +kernel] at this
        omega
      · rw [if_pos (by rw [← hname]; exact List.prefix_append _ _)] at hok
        simp only at hok
        rw [← hname, List.drop_left] at hok
        split at hok
        · simp at hok
        · split at hok
          · simp at hok
          · split at hok
            · simp at hok
            · simp only at hok
              unfold queryCollation at hok
              split at hok
              · simp at hok
              · next q hq =>
                have key : ∀ sts : List Store, queryStores env name q sts = .ok body → ∃ a st b res, sts = a ++ st :: b ∧
                    (∀ s ∈ a, s.coll.name ≠ st.coll.name) ∧ name = st.coll.name ∧ Storage.read env.lib st q = .ret (res, none) ∧
                    body = render env q.criteria res := by
                  intro sts
                  induction sts with
                  | nil => intro h; simp [queryStores] at h
                  | cons st sts ih =>
                    intro h
                    rw [queryStores] at h
                    split at h
                    · next hst =>
                      split at h
                      · simp at h
                      · simp at h
                      · simp at h
                      · next res hr =>
                        simp only [Reply.ok.injEq] at h
                        exact ⟨[], st, sts, res, rfl, by simp, hst.symm, hr, h.symm⟩
                    · next hst =>
                      obtain ⟨a, st', b, res, e, h1, h2, h3⟩ := ih h
                      refine ⟨st :: a, st', b, res, by rw [e]; rfl, ?_, h2, h3⟩
                      intro s hs
                      rcases List.mem_cons.1 hs with rfl | hs
                      · rw [← h2]; exact hst
                      · exact h1 s hs
                obtain ⟨a, st, b, res, e, h1, h2, h3, h4⟩ := key sts hok
                exact ⟨q, a, st, b, res, hq, e, h1, by rw [← h2, hname], h3, h4⟩

theorem render_lines (env : Env) (crit : List FV) (res : List FMV) :
    render env crit res = (crit.map criterionOf ++ res.map (resultOf env)).flatMap (fun l => l.text ++ asc "\n") := by
  unfold render
  rw [List.flatMap_append, List.flatMap_map, List.flatMap_map, show asc "\n" = [0x0a] by decide +kernel]
  have h1 : ∀ c : FV, c.f ++ [0x3d] ++ c.v ++ [0x0a] = (criterionOf c).text ++ [0x0a] := by
    intro c
    rw [criterionOf, AnswerLine.text, show asc "=" = [0x3d] by decide +kernel]
  have h2 : ∀ x : FMV, fmvString env x ++ [0x0a] = (resultOf env x).text ++ [0x0a] := fun x => rfl
  simp only [h1, h2]

theorem render_echo (env : Env) (crit : List FV) (res : List FMV) :
    render env crit res = echo crit ++ (res.map (resultOf env)).flatMap (fun l => l.text ++ asc "\n") := by
  rw [render_lines, List.flatMap_append]
  unfold echo
  rw [List.flatMap_map]
  rfl

theorem result_plain (env : Env) (hfmt : PrintsNumbers env) (hord : ∀ l, (env.ord l).Perm l) {text : Bytes} {q : Query}
    (hq : Query.roughParse env.ord text = .ok q) {s : Schema} {res : List FMV}
    (hres : ∀ x ∈ res, (x.f, x.m) ∈ pairs q.fieldMeasures ∧ Maintains s x.f x.m) : ∀ l ∈ res.map (resultOf env), l.Plain := by
  intro l hl
  obtain ⟨x, hx, rfl⟩ := List.mem_map.1 hl
  obtain ⟨h1, m, _, h2⟩ := hres x hx
  refine ⟨h2 ▸ name_plain m, ?_, (hfmt x.v).1, (hfmt x.v).2⟩
  unfold pairs at h1
  obtain ⟨fm, hfm, h1⟩ := List.mem_flatMap.1 h1
  obtain ⟨n, _, h1⟩ := List.mem_map.1 h1
  simp only [Prod.mk.injEq] at h1
  rw [← h1.1]
  exact (Query.parsed_names hord hq).1 fm hfm

/-- **C81**, knowing the query: after the repeated criteria, the rest of the body of a successful answer can be read in exactly one way as lines `m(f)=v`,
and these are the values the store returned, in order. This holds whatever the names in the query are. -/
theorem C81_results (env : Env) (hfmt : PrintsNumbers env) (hord : ∀ l, (env.ord l).Perm l) (sts : List Store)
    (hsts : ∀ st ∈ sts, ∃ s, ValidSchema s ∧ st.coll = compile s) (req : Request) (hp : asc "/collation/" <+: req.path) (body : Bytes)
    (hok : (Server.serve env sts req).2 = .ok body) :
    ∃ q a st b res, Query.roughParse env.ord (req.form (asc "q")) = .ok q ∧ sts = a ++ st :: b ∧ (∀ s ∈ a, s.coll.name ≠ st.coll.name) ∧
      req.path = asc "/collation/" ++ st.coll.name ∧ Storage.read env.lib st q = .ret (res, none) ∧
      ∃ rest, body = echo q.criteria ++ rest ∧ ∀ ls, Reads rest ls ↔ ls = res.map (resultOf env) := by
  obtain ⟨q, a, st, b, res, hq, e, h1, h2, h3, h4⟩ := answered env sts req hp body hok
  obtain ⟨s, hv, hc⟩ := hsts st (by rw [e]; simp)
  have hpl := result_plain env hfmt hord hq (store_names env.lib s hv st hc q res h3)
  refine ⟨q, a, st, b, res, hq, e, h1, h2, h3, (res.map (resultOf env)).flatMap (fun l => l.text ++ asc "\n"), ?_, fun ls => ⟨fun h => ?_, ?_⟩⟩
  · rw [h4, render_echo]
  · exact Proof.reads_unique h ⟨hpl, rfl⟩
  · rintro rfl
    exact ⟨hpl, rfl⟩

/-- **C81**, from the body alone, partial: if no criterion's name contains `=` or `(`, the body can be read in exactly one way: the criteria of the
query, in order, then the values the store returned, in order. Missing: other criterion names (`C81_forged_refuted`). -/
theorem C81_body_partial (env : Env) (hfmt : PrintsNumbers env) (hord : ∀ l, (env.ord l).Perm l) (sts : List Store)
    (hsts : ∀ st ∈ sts, ∃ s, ValidSchema s ∧ st.coll = compile s) (req : Request) (hp : asc "/collation/" <+: req.path) (body : Bytes)
    (hok : (Server.serve env sts req).2 = .ok body) (q : Query) (hq : Query.roughParse env.ord (req.form (asc "q")) = .ok q)
    (hcrit : ∀ c ∈ q.criteria, 0x3d ∉ c.f ∧ 0x28 ∉ c.f) :
    ∃ a st b res, sts = a ++ st :: b ∧ (∀ s ∈ a, s.coll.name ≠ st.coll.name) ∧ req.path = asc "/collation/" ++ st.coll.name ∧
      Storage.read env.lib st q = .ret (res, none) ∧
      ∀ ls, Reads body ls ↔ ls = q.criteria.map criterionOf ++ res.map (resultOf env) := by
  obtain ⟨q', a, st, b, res, hq', e, h1, h2, h3, h4⟩ := answered env sts req hp body hok
  rw [hq] at hq'
  obtain rfl : q = q' := by simpa using hq'
  obtain ⟨s, hv, hc⟩ := hsts st (by rw [e]; simp)
  have hpl := result_plain env hfmt hord hq (store_names env.lib s hv st hc q res h3)
  have hall : ∀ l ∈ q.criteria.map criterionOf ++ res.map (resultOf env), l.Plain := by
    intro l hl
    rcases List.mem_append.1 hl with hl | hl
    · obtain ⟨c, hc, rfl⟩ := List.mem_map.1 hl
      obtain ⟨_, h5, _, _, h6⟩ := (Query.parsed_names hord hq).2 c hc
      refine ⟨fun b hb => ⟨?_, ?_, ?_⟩, h6⟩
      · rintro rfl; exact (hcrit c hc).1 hb
      · rintro rfl; exact (hcrit c hc).2 hb
      · rintro rfl; exact h5 _ hb (by decide)
    · exact hpl l hl
  refine ⟨a, st, b, res, e, h1, h2, h3, fun ls => ⟨fun h => ?_, ?_⟩⟩
  · exact Proof.reads_unique h ⟨hall, by rw [h4, render_lines]⟩
  · rintro rfl
    exact ⟨hall, by rw [h4, render_lines]⟩

/-- **C81 fails** for the body alone: (if 1 is printed as `1`) the answer to `select count(*) where country='FR'` after one observation of FR is
the same, byte for byte, as the answer of a server that has never seen an observation to `select count(*) where country='FR'' count(*)='1'`. -/
theorem C81_forged_refuted (env : Env) (hord : ∀ l, (env.ord l).Perm l) (hfmt : env.fmtFloat (F64.ofU64 (BitVec.ofNat 64 1)) = asc "1") :
    (Server.serve env (Server.serve env Demo.stores (post (asc "0;country=FR\n"))).1
      (askFor (asc "country") (asc "select count(*)\nwhere country='FR'"))).2 = .ok (asc "country=FR\ncount(*)=1\n") ∧
    (Server.serve env Demo.stores (askFor (asc "country") (asc "select count(*)\nwhere country='FR'' count(*)='1'"))).2 =
      .ok (asc "country=FR\ncount(*)=1\n") := by
  have hk : keyValue [⟨asc "country", asc "FR"⟩] Demo.country.keys = some 12582602682680778473 := by decide +kernel
  have hk2 : keyValue [⟨asc "country", asc "FR"⟩, ⟨asc "count(*)", asc "1"⟩] Demo.country.keys = some 12582602682680778473 := by decide +kernel
  have hw : Writable (asc "FR") := ⟨by decide +kernel, by decide +kernel, by decide +kernel, by decide +kernel⟩
  constructor
  · rw [show asc "0;country=FR\n" = unlines [(countryLine (asc "FR")).text] by decide +kernel,
      show asc "select count(*)\nwhere country='FR'" = countryQuery (asc "FR") by decide +kernel,
      demo_ask env hord hw hk (by decide) (by decide +kernel) (by decide +kernel) (by decide +kernel), country_answers]
    have h1 := seen_first env.lib _ _ hk (by decide)
    rw [C48_counts_partial env.lib Demo.country country_valid (by decide) Demo.slots (by decide) _ (apart_one _ _ _) _ _ hk (by decide) (by decide)
      (by rw [country_size]; decide), h1, rowsFor_seen hk, if_neg (by simp)]
    unfold countIs
    simp only
    refine (congrArg Reply.ok (render_count env _ 1)).trans (congrArg Reply.ok ?_)
    unfold countLine
    rw [hfmt]
    decide +kernel
  · rw [show Demo.stores = [] ++ (newStore Demo.country Demo.slots) :: [newStore Demo.tz Demo.slots] from rfl,
      show asc "select count(*)\nwhere country='FR'' count(*)='1'" = listing ⟨asc "country", asc "FR"⟩ [⟨asc "count(*)", asc "1"⟩] by decide +kernel,
      ask_serve env [] _ _ (asc "country") _ country_name (by simp) (compile_name Demo.country) _
        (C46_queryable_partial env.ord hord _ _ (by decide +kernel))]
    have := country_answers env [] [newStore Demo.tz Demo.slots] (countQuery [⟨asc "country", asc "FR"⟩, ⟨asc "count(*)", asc "1"⟩])
    rw [show (writes env.lib (newStore Demo.country Demo.slots) []).1 = newStore Demo.country Demo.slots from rfl] at this
    rw [show (⟨[⟨asc "*", [asc "count"]⟩], [⟨asc "country", asc "FR"⟩, ⟨asc "count(*)", asc "1"⟩]⟩ : Query) =
      countQuery [⟨asc "country", asc "FR"⟩, ⟨asc "count(*)", asc "1"⟩] from rfl, this]
    have hread := (C48_law env.lib Demo.country country_valid (by decide) Demo.slots (by decide) [] _ _ hk2 (by decide)).1 rfl
    rw [show (writes env.lib (newStore Demo.country Demo.slots) []).1 = newStore Demo.country Demo.slots from rfl] at hread
    rw [hread]
    unfold noRecord
    simp only
    refine (congrArg Reply.ok (render_none env _)).trans (congrArg Reply.ok ?_)
    show echo [⟨asc "country", asc "FR"⟩, ⟨asc "count(*)", asc "1"⟩] = _
    decide +kernel

/-- the hypotheses can be met, and the reading is not empty: the body of the first answer above -/
example : Reads (asc "country=FR\ncount(*)=1\n") [.criterion (asc "country") (asc "FR"), .result (asc "count") (asc "*") (asc "1")] := by
  refine ⟨?_, by decide +kernel⟩
  intro l hl
  simp only [List.mem_cons, List.not_mem_nil, or_false] at hl
  rcases hl with rfl | rfl
  · exact ⟨by unfold PlainField; decide +kernel, by decide +kernel⟩
  · exact ⟨by unfold PlainField; decide +kernel, by decide +kernel, by decide +kernel, by decide +kernel⟩

/-! ### C82 -/

theorem together_ok (one : Bytes × Bytes → Out (List FMV × Option Err)) (part : Bytes × Bytes → List FMV) (ps : List (Bytes × Bytes))
    (hall : ∀ p ∈ ps, one p = .val (part p, none)) : ∀ res0, together one ps res0 = .val (res0 ++ ps.flatMap part, none) := by
  induction ps with
  | nil => intro res0; rw [together]; simp
  | cons p ps ih =>
    intro res0
    rw [together, hall p (by simp)]
    simp only
    rw [ih (fun p hp => hall p (by simp [hp]))]
    simp

theorem together_all (one : Bytes × Bytes → Out (List FMV × Option Err)) (ps : List (Bytes × Bytes)) : ∀ res0 res,
    together one ps res0 = .val (res, none) → ∀ p ∈ ps, ∃ r, one p = .val (r, none) := by
  induction ps with
  | nil => intro res0 res _ p hp; simp at hp
  | cons p ps ih =>
    intro res0 res h p' hp'
    rw [together] at h
    rcases ho : one p with ⟨r, e | e⟩ | _ <;> rw [ho] at h
    · rcases List.mem_cons.1 hp' with rfl | hp'
      · exact ⟨r, ho⟩
      · exact ih _ _ h p' hp'
    · simp at h
    · simp at h

/-- what a single request that succeeds returns -/
def partOf : Out (List FMV × Option Err) → List FMV
  | .val (r, none) => r
  | _ => []

theorem together_parts (one : Bytes × Bytes → Out (List FMV × Option Err)) (ps : List (Bytes × Bytes)) (res : List FMV)
    (h : together one ps [] = .val (res, none)) :
    (∀ p ∈ ps, one p = .val (partOf (one p), none)) ∧ res = ps.flatMap fun p => partOf (one p) := by
  have hall : ∀ p ∈ ps, one p = .val (partOf (one p), none) := by
    intro p hp
    obtain ⟨r, hr⟩ := together_all one ps _ _ h p hp
    rw [hr]; rfl
  refine ⟨hall, ?_⟩
  rw [together_ok one (fun p => partOf (one p)) ps hall] at h
  simpa using h.symm

/-- every value of a single request carries the name of the field asked for -/
theorem ask_field (lib : Lib) (c : Collator) (buf f n : Bytes) : ∀ x ∈ partOf (ask lib c buf f n), x.f = f := by
  cases hr : readerAt c f n with
  | none => rw [ask_none lib hr]; simp [partOf]
  | some r =>
    rw [ask_reply lib hr]
    rcases r.read lib buf with (e | v) | _ <;> simp [reply, partOf]

/-- reading the same fields in another order -/
theorem read_order (lib : Lib) (c : Collator) (buf : Bytes) (fms fms' : List FM) (hn : (fms.map FM.f).Nodup) (hp : fms'.Perm fms) (res : List FMV)
    (h : Collation.read lib c fms buf = .val (res, none)) :
    ∃ res', Collation.read lib c fms' buf = .val (res', none) ∧ ∀ f, res'.filter (fun x => x.f = f) = res.filter (fun x => x.f = f) := by
  rw [C27_read] at h
  obtain ⟨h1, h2⟩ := together_parts _ _ _ h
  have hpp : (pairs fms').Perm (pairs fms) := hp.flatMap_right _
  have h1' : ∀ p ∈ pairs fms', ask lib c buf p.1 p.2 = .val (partOf (ask lib c buf p.1 p.2), none) :=
    fun p hm => h1 p (hpp.mem_iff.1 hm)
  refine ⟨(pairs fms').flatMap fun p => partOf (ask lib c buf p.1 p.2), ?_, fun f => ?_⟩
  · rw [C27_read, together_ok _ (fun p => partOf (ask lib c buf p.1 p.2)) _ h1']
    simp
  · subst h2
    have key : ∀ l : List FM, ((pairs l).flatMap fun p => partOf (ask lib c buf p.1 p.2)).filter (fun x => x.f = f) =
        (l.filter fun fm => fm.f = f).flatMap fun fm => fm.m.flatMap fun n => partOf (ask lib c buf fm.f n) := by
      intro l
      induction l with
      | nil => rfl
      | cons fm l ih =>
        rw [pairs, List.flatMap_cons, List.flatMap_append, List.filter_append]
        rw [show (l.flatMap fun fm => fm.m.map fun n => (fm.f, n)) = pairs l from rfl, ih, List.flatMap_map]
        by_cases hf : fm.f = f
        · rw [List.filter_cons_of_pos (by simpa using hf), List.flatMap_cons]
          congr 1
          rw [List.filter_eq_self]
          intro x hx
          obtain ⟨n, _, hx⟩ := List.mem_flatMap.1 hx
          simpa using (ask_field lib c buf fm.f n x hx).trans hf
        · rw [List.filter_cons_of_neg (by simpa using hf)]
          rw [List.filter_eq_nil_iff.2, List.nil_append]
          intro x hx
          obtain ⟨n, _, hx⟩ := List.mem_flatMap.1 hx
          rw [ask_field lib c buf fm.f n x hx]
          simpa using hf
    rw [key, key]
    congr 1
    -- at most one entry has the name
    have hone : ∀ l : List FM, (l.map FM.f).Nodup → (l.filter fun fm => fm.f = f).length ≤ 1 := by
      intro l hl
      induction l with
      | nil => simp
      | cons fm l ih =>
        rw [List.map_cons, List.nodup_cons] at hl
        by_cases hf : fm.f = f
        · rw [List.filter_cons_of_pos (by simpa using hf), List.filter_eq_nil_iff.2]
          · simp
          · intro fm' hm
            simp only [decide_eq_true_eq]
            intro hf'
            exact hl.1 (by rw [hf, ← hf']; exact List.mem_map_of_mem hm)
        · rw [List.filter_cons_of_neg (by simpa using hf)]
          exact ih hl.2
    have hpf := hp.filter fun fm => fm.f = f
    have h0 := hone fms hn
    rcases hfs : fms.filter (fun fm => fm.f = f) with _ | ⟨a, _ | ⟨b, t⟩⟩
    · rw [hfs] at hpf; exact hpf.eq_nil.trans hfs.symm
    · rw [hfs] at hpf; exact (List.perm_singleton.1 hpf).trans hfs.symm
    · rw [hfs] at h0; simp at h0

theorem caps_sels {l : List (List Bytes)} (h : ∀ c ∈ l, ∃ m f, c = [m, f]) : ∃ ss : List Sel, l = ss.map fun s => [s.m, s.f] := by
  induction l with
  | nil => exact ⟨[], rfl⟩
  | cons c l ih =>
    obtain ⟨m, f, rfl⟩ := h c (by simp)
    obtain ⟨ss, rfl⟩ := ih fun c hc => h c (by simp [hc])
    exact ⟨⟨m, f⟩ :: ss, rfl⟩

/-- what the order of map iteration does to a query -/
theorem parse_order {ord ord' : List FM → List FM} (hord : ∀ l, (ord l).Perm l) (hord' : ∀ l, (ord' l).Perm l) (s : Bytes) :
    (Query.roughParse ord s = .error .syntaxErr ∧ Query.roughParse ord' s = .error .syntaxErr) ∨
    ∃ q q', Query.roughParse ord s = .ok q ∧ Query.roughParse ord' s = .ok q' ∧ q'.criteria = q.criteria ∧
      q'.fieldMeasures.Perm q.fieldMeasures ∧ (q.fieldMeasures.map FM.f).Nodup := by
  unfold Query.roughParse
  split
  · next sel wh hsub =>
    obtain ⟨ss, hss⟩ := caps_sels (l := Query.findAll Query.selectRe sel) fun c hc => Query.select_caps hc
    obtain ⟨fs, e, hg⟩ := Query.collect_groups ss [] [] ⟨by simp, by simp⟩
    rw [hss, e]
    simp only
    split
    · exact .inl ⟨rfl, rfl⟩
    · next crit hc =>
      exact .inr ⟨_, _, rfl, rfl, rfl, (hord' fs).trans (hord fs).symm, ((hord fs).map FM.f).nodup_iff.2 hg.1⟩
  · exact .inl ⟨rfl, rfl⟩

theorem store_order (lib : Lib) (st : Store) (q q' : Query) (hc : q'.criteria = q.criteria) (hp : q'.fieldMeasures.Perm q.fieldMeasures)
    (hn : (q.fieldMeasures.map FM.f).Nodup) :
    (∃ res res', Storage.read lib st q = .ret (res, none) ∧ Storage.read lib st q' = .ret (res', none) ∧
      ∀ f, res'.filter (fun x => x.f = f) = res.filter (fun x => x.f = f)) ∨
    (Storage.read lib st q = .hang ∧ Storage.read lib st q' = .hang) ∨
    ((Storage.read lib st q = .panic ∨ ∃ r e, Storage.read lib st q = .ret (r, some e)) ∧
      (Storage.read lib st q' = .panic ∨ ∃ r e, Storage.read lib st q' = .ret (r, some e))) := by
  have hn' : (q'.fieldMeasures.map FM.f).Nodup := (hp.map FM.f).nodup_iff.2 hn
  unfold Storage.read
  rw [hc]
  cases keyValue q.criteria st.coll.keys with
  | none => exact .inl ⟨[], [], rfl, rfl, fun _ => rfl⟩
  | some k =>
    simp only
    by_cases hs : st.coll.size < 0
    · rw [if_pos hs, if_pos hs]; exact .inr (.inr ⟨.inl rfl, .inl rfl⟩)
    · rw [if_neg hs, if_neg hs]
      rcases Bufmap.get st.backend k (List.replicate st.coll.size.toNat 0) with ⟨_ | _, buf⟩ | _ | _
      · exact .inl ⟨[], [], rfl, rfl, fun _ => rfl⟩
      · simp only
        have one : ∀ a b : List FM, (a.map FM.f).Nodup → b.Perm a → ∀ res, Collation.read lib st.coll a buf = .val (res, none) →
            ∃ res', Collation.read lib st.coll b buf = .val (res', none) ∧
              ∀ f, res'.filter (fun x => x.f = f) = res.filter (fun x => x.f = f) :=
          fun a b ha hb res h => read_order lib st.coll buf a b ha hb res h
        rcases h1 : Collation.read lib st.coll q.fieldMeasures buf with ⟨r, _ | e⟩ | _
        · obtain ⟨r', h2, h3⟩ := one _ _ hn hp r h1
          rw [h2]
          exact .inl ⟨r, r', rfl, rfl, h3⟩
        · rcases h2 : Collation.read lib st.coll q'.fieldMeasures buf with ⟨r', _ | e'⟩ | _
          · obtain ⟨r'', h3, _⟩ := one _ _ hn' hp.symm r' h2
            rw [h1] at h3; simp at h3
          · exact .inr (.inr ⟨.inr ⟨_, _, rfl⟩, .inr ⟨_, _, rfl⟩⟩)
          · exact .inr (.inr ⟨.inr ⟨_, _, rfl⟩, .inl rfl⟩)
        · rcases h2 : Collation.read lib st.coll q'.fieldMeasures buf with ⟨r', _ | e'⟩ | _
          · obtain ⟨r'', h3, _⟩ := one _ _ hn' hp.symm r' h2
            rw [h1] at h3; simp at h3
          · exact .inr (.inr ⟨.inl rfl, .inr ⟨_, _, rfl⟩⟩)
          · exact .inr (.inr ⟨.inl rfl, .inl rfl⟩)
      · exact .inr (.inr ⟨.inl rfl, .inl rfl⟩)
      · exact .inr (.inl ⟨rfl, rfl⟩)

/-- the body of an answer with these criteria and results -/
def answerBody (env : Env) (crit : List FV) (res : List FMV) : Bytes :=
  echo crit ++ res.flatMap fun x => (resultOf env x).text ++ asc "\n"

/-- **C82**: Go iterates over a map of fields in an order of its own choosing. Whatever the order is for a request, the effect on the stores is the
same, and so is the answer, except that in a successful answer to a query the lines of different fields may come in another order: for every field, the
values reported are the same and in the same order. A query that fails in one order fails in every order, though the claim leaves open that it answers
500 in one and panics in another (it occurs: `C82_status`). -/
theorem C82_order (env : Env) (ord' : List FM → List FM) (hord : ∀ l, (env.ord l).Perm l) (hord' : ∀ l, (ord' l).Perm l) (sts : List Store)
    (req : Request) :
    (Server.serve { env with ord := ord' } sts req).1 = (Server.serve env sts req).1 ∧
    ((∃ crit res res', (Server.serve env sts req).2 = .ok (answerBody env crit res) ∧
        (Server.serve { env with ord := ord' } sts req).2 = .ok (answerBody env crit res') ∧
        ∀ f, res'.filter (fun x => x.f = f) = res.filter (fun x => x.f = f)) ∨
      (Server.serve { env with ord := ord' } sts req).2 = (Server.serve env sts req).2 ∨
      (((Server.serve env sts req).2 = .refused 500 ∨ (Server.serve env sts req).2 = .panic) ∧
        ((Server.serve { env with ord := ord' } sts req).2 = .refused 500 ∨ (Server.serve { env with ord := ord' } sts req).2 = .panic))) := by
  unfold Server.serve
  split
  · exact ⟨rfl, .inr (.inl rfl)⟩
  split
  · exact ⟨rfl, .inr (.inl rfl)⟩
  split
  · split
    · exact ⟨rfl, .inr (.inl rfl)⟩
    · exact ⟨rfl, .inr (.inl rfl)⟩
  split
  · simp only
    split
    · exact ⟨rfl, .inr (.inl rfl)⟩
    split
    · exact ⟨rfl, .inr (.inl rfl)⟩
    split
    · exact ⟨rfl, .inr (.inl rfl)⟩
    refine ⟨rfl, ?_⟩
    simp only
    unfold queryCollation
    simp only
    rcases parse_order hord hord' (req.form (asc "q")) with ⟨h1, h2⟩ | ⟨q, q', h1, h2, hc, hp, hn⟩
    · rw [h1, h2]; exact .inr (.inl rfl)
    · rw [h1, h2]
      simp only
      generalize req.path.drop (asc "/collation/").length = name
      clear h1 h2
      induction sts with
      | nil => exact .inr (.inl rfl)
      | cons st sts ih =>
        rw [queryStores, queryStores]
        by_cases hname : st.coll.name = name
        · rw [if_pos hname, if_pos hname]
          simp only
          rcases store_order env.lib st q q' hc hp hn with ⟨res, res', e, e', hf⟩ | ⟨e, e'⟩ | ⟨e, e'⟩
          · rw [e, e']
            refine .inl ⟨q.criteria, res, res', ?_, ?_, hf⟩
            · show Reply.ok _ = Reply.ok _
              rw [render_echo, answerBody, List.flatMap_map]
            · show Reply.ok _ = Reply.ok _
              rw [render_echo, answerBody, List.flatMap_map, hc]
              rfl
          · rw [e, e']; exact .inr (.inl rfl)
          · refine .inr (.inr ⟨?_, ?_⟩)
            · rcases e with e | ⟨r, x, e⟩ <;> rw [e] <;> simp
            · rcases e' with e' | ⟨r, x, e'⟩ <;> rw [e'] <;> simp
        · rw [if_neg hname, if_neg hname]
          exact ih
  split
  · exact ⟨rfl, .inr (.inl rfl)⟩
  · exact ⟨rfl, .inr (.inl rfl)⟩

/-- orders do differ: the same text parsed with the map iterated one way and the other -/
example : Query.roughParse id (asc "select count(*),sum(x)\nwhere country='FR'") =
      .ok ⟨[⟨asc "*", [asc "count"]⟩, ⟨asc "x", [asc "sum"]⟩], [⟨asc "country", asc "FR"⟩]⟩ ∧
    Query.roughParse List.reverse (asc "select count(*),sum(x)\nwhere country='FR'") =
      .ok ⟨[⟨asc "x", [asc "sum"]⟩, ⟨asc "*", [asc "count"]⟩], [⟨asc "country", asc "FR"⟩]⟩ := by
  decide +kernel

/-- and both are orders of the same map -/
example : ∀ l : List FM, (id l).Perm l ∧ l.reverse.Perm l := fun l => ⟨.refl l, l.reverse_perm⟩

end Starbow.Props
