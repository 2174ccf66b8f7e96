import Verif.Props.BufmapSilent
import Verif.Props.ServerLive
import Verif.Props.ServerAlone
/-
Property C80, where it fails: a query that is never answered.
-/
namespace Starbow.ServerConc
open Starbow Starbow.Collation Starbow.Server Starbow.Cell Starbow.Probe Starbow.BufmapConc Starbow.Spec

variable {env : Env} {confs : List Conf}

theorem gone_stays {l s : Nat} {m m' : BufmapConc.State} (h : BufmapConc.Steps l s m m') {t : Nat} (hg : m.pc t = .gone) : m'.pc t = .gone := by
  induction h with
  | refl => exact hg
  | @tail m1 m2 _ h1 ih =>
    cases h1 with
    | call t' op hi =>
      have ht : t ≠ t' := by rintro rfl; rw [ih] at hi; simp at hi
      unfold BufmapConc.call
      cases op with
      | upd k fn =>
        simp only
        split
        · exact ih
        · exact (upd_other _ _ ht).trans ih
      | get k buf => exact (upd_other _ _ ht).trans ih
    | step _ t' hs =>
      have ht : t ≠ t' := by rintro rfl; rw [step_gone ih] at hs; simp at hs
      obtain ⟨p', hp, _⟩ := step_ids hs
      rw [hp, upd_other _ _ ht]; exact ih

/-- a goroutine whose Read panicked is stuck, and its request is not answered -/
theorem stuck (hpos : ∀ c ∈ confs, 0 < c.slots) {σ σ' : State} (hr : Steps env confs init σ) (hs : Steps env confs σ σ') {t j s i : Nat} {q : Query}
    {c : Conf} (hc : confs[s]? = some c) (hpc : σ.pc t = .reading j q s i) (hg : (σ.stores s).m.pc t = .gone) :
    σ'.pc t = .reading j q s i ∧ ∀ rep, (j, rep) ∉ σ'.replies := by
  have key : σ'.pc t = .reading j q s i := by
    induction hs with
    | refl => exact hpc
    | @tail σ1 σ2 h0 h1 ih =>
      have hr1 := hr.trans h0
      have hl := link_reach hpos hr1
      have hg1 : (σ1.stores s).m.pc t = .gone := gone_stays (StoreConc.steps_m (steps_store h0 hc)) hg
      have other : ∀ t' (p' : PC), t' ≠ t → upd σ1.pc t' p' t = .reading j q s i := fun t' p' e => (upd_other _ _ (fun e' => e e'.symm)).trans ih
      rcases step_move.1 h1 with ⟨t', req, ht', rfl⟩ | ⟨t', hm⟩
      · have e : t' ≠ t := by rintro rfl; rw [ih] at ht'; simp at ht'
        unfold State.receive
        simp only
        split
        · exact other t' _ e
        · exact other t' _ e
        · exact other t' _ e
      · by_cases e : t' = t
        · subst e
          exfalso
          cases hm with
          | finish j p e h => rw [ih] at h; simp at h
          | cancelLine j p line ls e h hc => rw [ih] at h; simp at h
          | parse j p line ls e h => rw [ih] at h; simp at h
          | stored j p ls e r h => rw [ih] at h; simp at h
          | skip j p ls e r s c h hs hk => rw [ih] at h; simp at h
          | cancelWrite j p ls e r s c k h hs hk hc => rw [ih] at h; simp at h
          | write j p ls e r s c k fn h hs hi hk hf => rw [ih] at h; simp at h
          | wrote j p ls e r s i ret err h hr he => rw [ih] at h; simp at h
          | noKey j q s c h hs hk => rw [ih] at h; simp at h
          | noBuffer j q s c k h hs hk hn => rw [ih] at h; simp at h
          | read j q s c k h hs hi hk hn => rw [ih] at h; simp at h
          | answer j' q' s' i' c' ret out h hs hret ho =>
            rw [ih] at h
            injection h with e1 e2 e3 e4
            subst e1 e2 e3 e4
            have := (hl.call t' s i (by rw [ih]; rfl)).returned (store_inv hpos hr1 hc) hret
            rw [hg1] at this
            simp at this
          | inside s' c' m' hs h =>
            by_cases es : s' = s
            · subst es
              rw [step_gone hg1] at h
              simp at h
            · have := hl.idle t' s' (fun i' hi' => by
                rw [ih] at hi'
                simp only [callOf, Option.some.injEq, Prod.mk.injEq] at hi'
                exact es hi'.1.symm)
              unfold BufmapConc.step at h
              rw [this] at h
              simp at h
        · rcases move_cases (inv_reach hr1) hm with ⟨s', c', m', _, _, e⟩ | ⟨⟨p', hp, _⟩, _⟩
          · rw [e]; exact ih
          · rw [hp]; exact other t' _ e
  refine ⟨key, fun rep hrep => ?_⟩
  exact (((inv2_reach (hr.trans hs)).all j rep hrep).free t) (by rw [key]; rfl)

/-- a goroutine that has a query of a key in one of the last slots never answers -/
theorem hushed (hpos : ∀ c ∈ confs, 0 < c.slots) {σ σ' : State} (hr : Steps env confs init σ) (hs : Steps env confs σ σ') {t j s : Nat} {q : Query}
    {c : Conf} (hc : confs[s]? = some c) (hsize : 0 ≤ c.coll.size) {k : U64} (hq : keyValue q.criteria c.coll.keys = some k) (hk : k ≠ 0) {x : Nat}
    (hx : x < c.slots) (hkey : (σ.stores s).m.keys x = k) (hhigh : c.slots * c.coll.size.toNat < x * (c.coll.size.toNat + 1))
    (hpc : σ.pc t = .ask j q s) : ∀ rep, (j, rep) ∉ σ'.replies := by
  have hl := hpos c (List.mem_of_getElem? hc)
  obtain ⟨i₀, hi₀, hpx, hpass⟩ := (store_inv hpos hr hc).keys x hx (by rw [hkey]; exact hk)
  rw [hkey] at hpx hpass
  have key : σ'.pc t = .ask j q s ∨ ∃ i, σ'.pc t = .reading j q s i ∧ Mute c.slots i k x i₀ (σ'.stores s).m := by
    induction hs with
    | refl => exact .inl hpc
    | @tail σ1 σ2 h0 h1 ih =>
      have hr1 := hr.trans h0
      have hlk := link_reach hpos hr1
      have hst := StoreConc.steps_m (steps_store h0 hc)
      have hI1 := store_inv hpos hr1 hc
      have hmono := Props.BufmapConc.steps_mono hl (store_inv hpos hr hc) hst
      have hkey1 : (σ1.stores s).m.keys x = k := by rw [hmono.1 x (by rw [hkey]; exact hk)]; exact hkey
      have hpass1 : Passed c.slots k (σ1.stores s).m.keys i₀ := Passed.mono hpass hmono.1
      -- the goroutine stays where it is
      have stay : σ2.pc t = σ1.pc t → σ2.pc t = .ask j q s ∨ ∃ i, σ2.pc t = .reading j q s i ∧ Mute c.slots i k x i₀ (σ2.stores s).m := by
        intro e
        rw [e]
        rcases ih with h | ⟨i, h, hm⟩
        · exact .inl h
        · exact .inr ⟨i, h, mute_steps hl hk hi₀ hpx hhigh hI1 hpass1 hm (StoreConc.steps_m (steps_store (.tail (.refl _) h1) hc))⟩
      have busy : σ1.pc t ≠ .idle := by rcases ih with h | ⟨i, h, _⟩ <;> rw [h] <;> simp
      rcases step_move.1 h1 with ⟨t', req, ht', rfl⟩ | ⟨t', hm⟩
      · have e : t ≠ t' := by rintro rfl; exact busy ht'
        refine stay ?_
        unfold State.receive
        simp only
        split
        · exact upd_other _ _ e
        · exact upd_other _ _ e
        · exact upd_other _ _ e
      · by_cases e : t' = t
        · subst e
          have no : ∀ {p : PC}, σ1.pc t' = p → p ≠ .ask j q s → (∀ i, p ≠ .reading j q s i) → False := by
            intro p e1 e2 e3
            rcases ih with h | ⟨i, h, _⟩ <;> rw [h] at e1
            · exact e2 e1.symm
            · exact e3 i e1.symm
          cases hm with
          | finish j p e h => exact (no h (by simp) (by simp)).elim
          | cancelLine j p line ls e h hc => exact (no h (by simp) (by simp)).elim
          | parse j p line ls e h => exact (no h (by simp) (by simp)).elim
          | stored j p ls e r h => exact (no h (by simp) (by simp)).elim
          | skip j p ls e r s c h hs hk => exact (no h (by simp) (by simp)).elim
          | cancelWrite j p ls e r s c k h hs hk hc => exact (no h (by simp) (by simp)).elim
          | write j p ls e r s c k fn h hs hi hk hf => exact (no h (by simp) (by simp)).elim
          | wrote j p ls e r s i ret err h hr he => exact (no h (by simp) (by simp)).elim
          | noKey j' q' s' c' h hs hk' =>
            exfalso
            rcases ih with h' | ⟨i, h', _⟩ <;> rw [h'] at h
            · injection h with e1 e2 e3
              subst e1 e2 e3
              obtain rfl := Option.some.inj (hc.symm.trans hs)
              rw [hq] at hk'; simp at hk'
            · simp at h
          | noBuffer j' q' s' c' k' h hs hk' hn =>
            exfalso
            rcases ih with h' | ⟨i, h', _⟩ <;> rw [h'] at h
            · injection h with e1 e2 e3
              subst e1 e2 e3
              obtain rfl := Option.some.inj (hc.symm.trans hs)
              omega
            · simp at h
          | read j' q' s' c' k' h hs hi hk' hn =>
            rcases ih with h' | ⟨i, h', _⟩ <;> rw [h'] at h
            · injection h with e1 e2 e3
              subst e1 e2 e3
              obtain rfl := Option.some.inj (hc.symm.trans hs)
              obtain rfl := Option.some.inj (hq.symm.trans hk')
              refine .inr ⟨(σ1.stores s).calls.length, by simp only [State.enter, upd_same], ?_⟩
              have hlen := (StoreConc.callsOk_steps (StoreConc.callsOk_init env.lib c.coll) (steps_store hr1 hc)).len
              have hst : ∀ p f, (σ1.enter t' s ⟨BufmapConc.call (σ1.stores s).m t' (.get k (List.replicate c.coll.size.toNat 0)),
                  (σ1.stores s).calls ++ [.read q]⟩ f p).stores s = ⟨BufmapConc.call (σ1.stores s).m t' (.get k (List.replicate c.coll.size.toNat 0)),
                  (σ1.stores s).calls ++ [.read q]⟩ := fun p f => upd_same _ _ _
              rw [hst, hlen]
              exact mute_call hI1 hkey1 i₀
            · simp at h
          | answer j' q' s' i' c' ret out h hs hret ho =>
            exfalso
            rcases ih with h' | ⟨i, h', hm⟩ <;> rw [h'] at h
            · simp at h
            · injection h with e1 e2 e3 e4
              subst e1 e2 e3 e4
              exact hm.none _ hret
          | inside s' c' m' hs h => exact stay rfl
        · refine stay ?_
          rcases move_cases (inv_reach hr1) hm with ⟨s', c', m', _, _, e'⟩ | ⟨⟨p', hp, _⟩, _⟩
          · rw [e']
          · rw [hp]; exact upd_other _ _ (fun e' => e e'.symm)
  intro rep hrep
  refine (((inv2_reach (hr.trans hs)).all j rep hrep).free t) ?_
  rcases key with h | ⟨i, h, _⟩ <;> rw [h] <;> rfl

end Starbow.ServerConc

namespace Starbow.Props
open Starbow Starbow.Collation Starbow.Server Starbow.Cell Starbow.Probe Starbow.Spec Starbow.ServerConc Starbow.Storage

/-- **C80 fails** for keys in the last slots, in every run: if key `k` is in slot `x` of the store of collation `c`, and `x*(size+1) > slots*size`, a
query of that key is never answered, whatever happens (it panics; `C80_answered_partial`: all other requests are answered). -/
theorem C80_silent (env : Env) (confs : List Conf) (hpos : ∀ c ∈ confs, 0 < c.slots) (σ : State) (hr : Steps env confs ServerConc.init σ)
    (req : Request) (s : Nat) (c : Conf) (hc : confs[s]? = some c) (hsize : 0 ≤ c.coll.size) (q : Query) (hreq : task env confs req = .query s q)
    (k : U64) (hq : keyValue q.criteria c.coll.keys = some k) (hk : k ≠ 0) (x : Nat) (hx : x < c.slots) (hkey : (σ.stores s).m.keys x = k)
    (hhigh : c.slots * c.coll.size.toNat < x * (c.coll.size.toNat + 1)) (t : Nat) (ht : σ.pc t = .idle) (σ' : State)
    (hs : Steps env confs (σ.receive env confs t req) σ') : σ'.reqs[σ.reqs.length]? = some req ∧ ∀ rep, (σ.reqs.length, rep) ∉ σ'.replies := by
  have h1 := Step.receive (env := env) (confs := confs) σ t req ht
  have e : σ.receive env confs t req = ({ σ with reqs := σ.reqs ++ [req] } : State).goto t (.ask σ.reqs.length q s) := by
    unfold State.receive
    simp only
    rw [hreq]
  rw [e] at hs h1
  refine ⟨?_, hushed hpos (.tail hr h1) hs hc hsize hq hk hx hkey hhigh (t := t) (by simp only [State.goto, upd_same])⟩
  have h2 : (σ.reqs ++ [req])[σ.reqs.length]? = some req := by simp
  exact prefix_get (ext_steps hs).reqs h2

/-- the Get behind a query for CET panics -/
theorem cet_get (lib : Lib) (buf : Bytes) :
    Bufmap.get (writes lib (newStore Demo.country Demo.slots) [seenCountry (asc "CET")]).1.backend 14396317365782834999 buf = .panic := by
  have hk : keyValue [⟨asc "country", asc "CET"⟩] Demo.country.keys = some 14396317365782834999 := by decide +kernel
  have h1 := seen_first lib (asc "CET") _ hk (by decide)
  obtain ⟨L, D, pos, h, hD⟩ := laid_compile Demo.country country_valid
  have hg := good_writes (l := Demo.slots) lib h [seenCountry (asc "CET")] (good_new h (by decide))
  obtain ⟨x, hx, hs, _⟩ := (C48_law lib Demo.country country_valid (by decide) Demo.slots (by decide) [seenCountry (asc "CET")] _ _ hk (by decide)).2 (by
    rw [h1, rowsFor_seen hk]; simp)
  have hxk := home_run lib h (by decide) _ (apart_one _ _ _) (by decide) hs
  rw [get_present hg.wf (by decide) hs, if_pos (by rw [hxk, country_size]; decide)]

/-- **C80 fails** in the program: an observation of CET is posted and accepted, then its count is asked for, and there is a moment after which
that request is not answered whatever happens. -/
theorem C80_silent_refuted (env : Env) (hord : ∀ l, (env.ord l).Perm l) : ∃ σ, Steps env demoConfs ServerConc.init σ ∧
    σ.reqs = [post (asc "0;country=CET\n"), askFor (asc "country") (countryQuery (asc "CET"))] ∧ σ.replies = [(0, .ok [])] ∧
    ∀ σ', Steps env demoConfs σ σ' → ∀ rep, (1, rep) ∉ σ'.replies := by
  have hpos : ∀ c ∈ demoConfs, 0 < c.slots := by simp [demoConfs]; decide
  have hw : Writable (asc "CET") := ⟨by decide +kernel, by decide +kernel, by decide +kernel, by decide +kernel⟩
  have hk : keyValue [⟨asc "country", asc "CET"⟩] Demo.country.keys = some 14396317365782834999 := by decide +kernel
  obtain ⟨σ₀, a1, a2, a3, a4, a5, a6, a7⟩ := C68_alone env demoConfs hpos ServerConc.init (.refl _) 0 rfl (fun _ => rfl) _ demo_agrees
    (post (unlines [(countryLine (asc "CET")).text])) _ _ (demo_post env hw hk (by decide)) (by simp) (by simp)
  obtain ⟨c, hceq⟩ : ∃ c, c = (⟨compile Demo.country, Demo.slots⟩ : Conf) := ⟨_, rfl⟩
  have hc : demoConfs[0]? = some c := by rw [hceq]; rfl
  have htask := task_ask env demoConfs (asc "country") _ country_name _ (countryQuery_parse env.ord hord (c := asc "CET") (by decide +kernel)
    (by decide +kernel) (by decide +kernel)) 0 c hc (by rw [hceq]; exact compile_name Demo.country) (by omega)
  obtain ⟨hcoll, hsame⟩ := a2.store 0 _ c rfl hc
  have hget : Bufmap.get _ _ (List.replicate c.coll.size.toNat 0) = _ := cet_get env.lib _
  have hcpos := hpos c (List.mem_of_getElem? hc)
  have hsize : 0 ≤ c.coll.size := by rw [hceq]; rw [country_size]; decide
  have hkey : keyValue (countQuery [⟨asc "country", asc "CET"⟩]).criteria c.coll.keys = some 14396317365782834999 := by
    rw [hceq]; rw [compile_keys]; exact hk
  clear hceq
  obtain ⟨k, hkeq⟩ : ∃ k : U64, k = 14396317365782834999 := ⟨_, rfl⟩
  rw [← hkeq] at hget hkey
  obtain ⟨m', b1, b2, b3, b4, b5⟩ := C30_panic_alone c.slots c.coll.size.toNat 1 hcpos (σ₀.stores 0).m _ hsame k _ hget
  -- the query comes in, and its Read begins
  have s1 := Step.receive (env := env) (confs := demoConfs) σ₀ 1 (askFor (asc "country") (countryQuery (asc "CET"))) (by rw [a5]; rfl)
  unfold State.receive at s1
  simp only at s1
  rw [htask] at s1
  simp only at s1
  obtain ⟨σ₁, e1⟩ : ∃ σ₁, σ₁ = ({ σ₀ with reqs := σ₀.reqs ++ [askFor (asc "country") (countryQuery (asc "CET"))] } : State).goto 1
    (.ask σ₀.reqs.length (countQuery [⟨asc "country", asc "CET"⟩]) 0) := ⟨_, rfl⟩
  rw [← e1] at s1
  have s2 := Step.read (env := env) (confs := demoConfs) σ₁ 1 σ₀.reqs.length (countQuery [⟨asc "country", asc "CET"⟩]) 0 c k
    (by rw [e1]; simp only [State.goto, upd_same]) hc (by rw [e1]; show (σ₀.stores 0).m.pc 1 = _; rw [a6]; rfl) hkey hsize
  obtain ⟨σ₂, e2⟩ : ∃ σ₂, σ₂ = σ₁.enter 1 0 ⟨BufmapConc.call (σ₁.stores 0).m 1 (.get k (List.replicate c.coll.size.toNat 0)),
    (σ₁.stores 0).calls ++ [.read (countQuery [⟨asc "country", asc "CET"⟩])]⟩ (σ₀.reqs.length, 0)
    (.reading σ₀.reqs.length (countQuery [⟨asc "country", asc "CET"⟩]) 0 (σ₁.stores 0).calls.length) := ⟨_, rfl⟩
  rw [← e2] at s2
  have hst1 : σ₁.stores = σ₀.stores := by rw [e1]; rfl
  have s3 := alone_inside (env := env) hc b1 σ₂ ((σ₀.stores 0).calls ++ [.read (countQuery [⟨asc "country", asc "CET"⟩])]) (by
    rw [e2, hst1]; simp only [State.enter, hst1, upd_same])
  have hr := ((a1.trans (one s1)).trans (one s2)).trans s3
  have hreqs : σ₀.reqs = [post (asc "0;country=CET\n")] := by
    rw [a3, show asc "0;country=CET\n" = unlines [(countryLine (asc "CET")).text] by decide +kernel]; rfl
  refine ⟨_, hr, ?_, ?_, ?_⟩
  · simp only
    rw [e2]
    show σ₁.reqs = _
    rw [e1]
    show σ₀.reqs ++ _ = _
    rw [hreqs]; rfl
  · simp only
    rw [e2]
    show σ₁.replies = _
    rw [e1]
    show σ₀.replies = _
    rw [a4]; rfl
  · intro σ' hs
    have hlen : σ₀.reqs.length = 1 := by rw [hreqs]; rfl
    refine (stuck hpos hr hs (t := 1) (j := 1) (q := countQuery [⟨asc "country", asc "CET"⟩]) (i := (σ₁.stores 0).calls.length) hc ?_ ?_).2
    · simp only
      rw [e2]
      simp only [State.enter, upd_same, hlen]
    · simp only [upd_same, b2]

end Starbow.Props
