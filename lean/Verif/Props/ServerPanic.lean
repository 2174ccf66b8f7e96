import Verif.Props.ReadPanic
import Verif.Props.ServerStats
import Verif.Props.ServerLive
/-
Property theorems C80 and C83 for the concurrent server: which requests end in a panic.
-/
namespace Starbow.ServerConc
open Starbow Starbow.Collation Starbow.Server Starbow.Cell Starbow.Probe Starbow.Spec Starbow.Props

variable {env : Env} {confs : List Conf}

theorem task_calm (req : Request) : task env confs req ≠ .answer .panic := by
  have hobs : ∀ b, observeBody b ≠ .answer .panic := by intro b; unfold observeBody; simp
  have h1 : observation env req ≠ .answer .panic := by
    unfold observation
    split
    · simp
    · split
      · split
        · simp
        · exact hobs _
      · split
        · exact hobs _
        · simp
  have h2 : ∀ n, lookup env confs n req ≠ .answer .panic := by
    intro n
    unfold lookup
    split
    · simp
    · split <;> simp
  unfold task
  split
  · simp
  split
  · simp
  split
  · split
    · exact h1
    · simp
  split
  · simp only
    split
    · simp
    split
    · simp
    split
    · simp
    · exact h2 _
  split <;> simp

/-- only queries panic -/
theorem panic_query {σ : State} (hs : Steps env confs init σ) {j : Nat} (hp : (j, Reply.panic) ∈ σ.replies) :
    ∃ req s q, σ.reqs[j]? = some req ∧ task env confs req = .query s q := by
  induction hs with
  | refl => simp [init] at hp
  | @tail τ τ' h0 h1 ih =>
    have hI := inv_reach h0
    have hx := ext_step h1
    by_cases ho : (j, Reply.panic) ∈ τ.replies
    · obtain ⟨req, s, q, e1, e2⟩ := ih ho
      exact ⟨req, s, q, prefix_get hx.reqs e1, e2⟩
    have new : ∀ (t i : Nat) (r : Reply), (j, Reply.panic) ∈ (τ.reply t i r).replies → j = i ∧ r = .panic := by
      intro t i r h
      unfold State.reply at h
      simp only [List.mem_append, List.mem_singleton, Prod.mk.injEq] at h
      rcases h with h | ⟨h, h'⟩
      · exact absurd h ho
      · exact ⟨h, h'.symm⟩
    cases h1 with
    | receive t req h =>
      exfalso
      unfold State.receive at hp
      simp only at hp
      split at hp
      · next r hr =>
        unfold State.reply at hp
        simp only [List.mem_append, List.mem_singleton, Prod.mk.injEq] at hp
        rcases hp with hp | ⟨_, hp⟩
        · exact ho hp
        · subst hp; exact task_calm _ hr
      · exact ho hp
      · exact ho hp
    | finish t i p e h =>
      exfalso
      have := (new _ _ _ hp).2
      split at this <;> simp at this
    | cancelLine t i p line ls e h hc => exact absurd (new _ _ _ hp).2 (by simp)
    | parse t i p line ls e h =>
      exfalso
      unfold State.parse at hp
      obtain ⟨r, hr⟩ := C42_total line
      rw [hr] at hp
      rcases r with r | r
      · exact absurd (new _ _ _ hp).2 (by simp)
      · exact ho hp
    | stored t i p ls e r h => exact absurd hp ho
    | skip t i p ls e r s c h hs hk => exact absurd hp ho
    | cancelWrite t i p ls e r s c k h hs hk hc => exact absurd (new _ _ _ hp).2 (by simp)
    | write t i p ls e r s c k fn h hs hi hk hf => exact absurd hp ho
    | wrote t i p ls e r s n ret err h hr he =>
      exfalso
      split at hp
      · exact ho hp
      · exact absurd (new _ _ _ hp).2 (by simp)
    | noKey t i q s c h hs hk => exact absurd (new _ _ _ hp).2 (by simp [queryReply])
    | noBuffer t i q s c k h hs hk hn =>
      obtain ⟨req, h1, h2⟩ := show PcOk env confs τ (.ask i q s) from h ▸ hI.pcs t
      obtain ⟨rfl, _⟩ := new _ _ _ hp
      exact ⟨req, s, q, h1, h2⟩
    | read t i q s c k h hs hi hk hn => exact absurd hp ho
    | answer t i q s n c ret out h hs hr ho' =>
      obtain ⟨req, h1, h2, _⟩ := show PcOk env confs τ (.reading i q s n) from h ▸ hI.pcs t
      obtain ⟨rfl, _⟩ := new _ _ _ hp
      exact ⟨req, s, q, h1, h2⟩
    | inside t s c m' hs h => exact absurd hp ho

end Starbow.ServerConc

namespace Starbow.Props
open Starbow Starbow.Collation Starbow.Server Starbow.Cell Starbow.Probe Starbow.Spec Starbow.ServerConc

/-- **C80**, **C83**: whatever requests the server handles at the same time, and however their handling interleaves, a request whose handling ends in
a panic is a query, for a key `k`, and its record lies in a slot `x` whose first `x` bytes cut the header of a counter the query asks for; but for key
0, and for a copy during which the sequence number of the record was increased 2^32 times or more (C35). (Queries of records in the last slots make
no such end: they panic within the map and are never answered, `C80_silent`.) -/
theorem C80_panics (env : Env) (confs : List Conf) (hpos : ∀ c ∈ confs, 0 < c.slots)
    (hsch : ∀ c ∈ confs, ∃ sch, ValidSchema sch ∧ c.coll = compile sch) (σ : State) (hr : Steps env confs ServerConc.init σ) (j : Nat)
    (hp : (j, Reply.panic) ∈ σ.replies) :
    ∃ req s q c sch k, σ.reqs[j]? = some req ∧ task env confs req = .query s q ∧ confs[s]? = some c ∧ ValidSchema sch ∧ c.coll = compile sch ∧
      keyValue q.criteria sch.keys = some k ∧
      (k = 0 ∨ (∃ i buf d, (i, BufmapConc.Ret.got true buf d) ∈ (σ.stores s).m.rets ∧ 2 ^ 32 ≤ d) ∨
        ∃ x f a p, x < c.slots ∧ (σ.stores s).m.keys x = k ∧ (f, asc "uniquecount") ∈ pairs q.fieldMeasures ∧ CounterAt sch f a p ∧
          Cuts x a p) := by
  obtain ⟨req, s, q, h1, h2⟩ := panic_query hr hp
  obtain ⟨c, hc, hq⟩ := ((inv_reach hr).replies j _ hp).ask req s q h1 h2
  obtain ⟨sch, hv, hcoll⟩ := hsch c (List.mem_of_getElem? hc)
  obtain ⟨L, D, pos, h, hD⟩ := laid_compile sch hv
  have hsz := Storage.size_nonneg h
  have hl := hpos c (List.mem_of_getElem? hc)
  rcases hq with ⟨_, hq⟩ | ⟨hq, _⟩ | ⟨i, ret, out, _, hcall, hret, hout, hrep⟩
  · simp [queryReply] at hq
  · rw [hcoll] at hq; omega
  · have hpan : out = .panic := by
      unfold queryReply at hrep
      rcases out with ⟨res, e | e⟩ | _
      · simp at hrep
      · simp at hrep
      · rfl
    subst hpan
    have hst := steps_store hr hc
    rw [hcoll] at hst hout
    have hcalls := StoreConc.callsOk_steps (StoreConc.callsOk_init env.lib (compile sch)) hst
    rcases ret with e | _ | _ | ⟨f, buf, d⟩
    all_goals try (simp [StoreConc.readReply] at hout)
    cases f with
    | false => simp [StoreConc.readReply] at hout
    | true =>
      simp only [StoreConc.readReply, Option.some.injEq] at hout
      obtain ⟨τ, τ', t1, t2, t3, t4, t5, t6⟩ := server_returned hr hc hret (by simp [ServerConc.init, StoreConc.init, BufmapConc.init])
      have hst' := steps_store (Steps.tail t1 t2) hc
      have hstτ := steps_store t1 hc
      have hstσ := steps_store t3 hc
      rw [hcoll] at hst' hstτ hstσ t4
      have hcalls' := StoreConc.callsOk_steps (StoreConc.callsOk_init env.lib (compile sch)) hst'
      obtain ⟨k, b0, hinv⟩ := (BufmapConc.inv_reach hl (StoreConc.steps_m hst')).rok i (.got true buf d) (by rw [t5]; simp)
      obtain ⟨q', hq', hk, _⟩ := hcalls'.ok i _ hinv
      have hqq := prefix_get ((ext_steps t3).calls s) hq'
      rw [hcall] at hqq
      have hqq := Option.some.inj hqq
      injection hqq with hqq
      subst hqq
      rw [Storage.compile_keys] at hk
      refine ⟨req, s, q, c, sch, k, h1, h2, hc, hv, hcoll, hk, ?_⟩
      by_cases h0 : k = 0
      · exact .inl h0
      by_cases hd : 2 ^ 32 ≤ d
      · exact .inr (.inl ⟨i, buf, d, hret, hd⟩)
      · refine .inr (.inr ?_)
        rw [t6] at hq'
        obtain ⟨x, ws, hx, hkx, _, hbuf⟩ := C64_snapshot env.lib (compile sch) c.slots hl _ _ hstτ t4 i q hq' k
          (by rw [Storage.compile_keys]; exact hk) h0 buf d (by omega) t5
        have hhold := StoreConc.served_hold (lib := env.lib) h ws
        have hlen : (servedRecord env.lib (compile sch) ws).length = (compile sch).size.toNat := hhold.len
        have hseen : buf = Storage.seen x (servedRecord env.lib (compile sch) ws) := by
          rw [hbuf]; unfold Storage.seen; rw [hlen]
        rw [hseen] at hout
        obtain ⟨f, a, p, g1, g2, g3⟩ := read_panic env.lib hv h hhold x _ hout
        refine ⟨x, f, a, p, hx, ?_, g1, g2, g3⟩
        have hg1 := (BufmapConc.steps_mono hl (BufmapConc.inv_reach hl (StoreConc.steps_m hstτ))
          (StoreConc.steps_m (.tail (.refl _) t4))).1 x (by rw [hkx]; exact h0)
        have hg2 := (BufmapConc.steps_mono hl (BufmapConc.inv_reach hl (StoreConc.steps_m hst'))
          (StoreConc.steps_m hstσ)).1 x (by rw [hg1, hkx]; exact h0)
        rw [hg2, hg1, hkx]

/-- **C80**, partial, with replies other than a panic: as `C80_home_partial`, and if the home slots of the keys asked for are at least the record size,
the replies are proper ones, unless a record was changed 2^31 times or more during one copy of it. Missing: queries of keys whose home slot is one of the
last (never answered, `C80_silent`) or has a number below the record size, where some panic (`C83_poland_refuted`; `C80_panics` says which). -/
theorem C80_reply_partial (env : Env) (confs : List Conf) (hpos : ∀ c ∈ confs, 0 < c.slots)
    (hsch : ∀ c ∈ confs, ∃ sch, ValidSchema sch ∧ c.coll = compile sch) (sched : Nat → Nat) (ρ : Nat → State)
    (hrun : Run env confs sched ρ) (h0 : Steps env confs ServerConc.init (ρ 0)) :
    ∃ N, ∀ n, N ≤ n → ∀ (j : Nat) (req : Request), (ρ 0).reqs[j]? = some req →
      (∀ (s : Nat) (c : Conf) (q : Query) (k : U64), task env confs req = .query s q → confs[s]? = some c →
        keyValue q.criteria c.coll.keys = some k →
        c.coll.size.toNat ≤ k.toNat % c.slots ∧ (k.toNat % c.slots + 10) * (c.coll.size.toNat + 1) ≤ c.slots * c.coll.size.toNat) →
      (∀ s i buf d, (i, BufmapConc.Ret.got true buf d) ∈ ((ρ n).stores s).m.rets → d < 2 ^ 32) →
      ∃ rep, (j, rep) ∈ (ρ n).replies ∧ rep ≠ .panic := by
  obtain ⟨N, hN⟩ := C80_home_partial env confs hpos hsch sched ρ hrun h0
  refine ⟨N, fun n hn j req hreq hsafe hshort => ?_⟩
  obtain ⟨rep, hrep⟩ := hN n hn j req hreq (fun s c q k h1 h2 h3 => (hsafe s c q k h1 h2 h3).2)
  refine ⟨rep, hrep, ?_⟩
  rintro rfl
  have hreach := run_reach hrun h0 n
  obtain ⟨req', s, q, c, sch, k, e1, e2, e3, hv, e4, e5, hwhy⟩ := C80_panics env confs hpos hsch (ρ n) hreach j hrep
  have hreqs : ∀ n, (ρ n).reqs = (ρ 0).reqs := by
    intro n
    induction n with
    | zero => rfl
    | succ n ih =>
      rcases turn_cases hrun h0 n with (⟨s, c, m', _, _, e⟩ | ⟨e, _⟩) | ⟨_, e⟩
      · rw [e]; exact ih
      · rw [e]; exact ih
      · rw [e]; exact ih
  rw [hreqs n, hreq] at e1
  obtain rfl := Option.some.inj e1
  obtain ⟨b1, b2⟩ := hsafe s c q k e2 e3 (by rw [e4, Storage.compile_keys]; exact e5)
  have hl := hpos c (List.mem_of_getElem? e3)
  have hs0 : 0 < c.coll.size.toNat := by
    rcases Nat.eq_zero_or_pos c.coll.size.toNat with e | e
    · rw [e] at b2; omega
    · exact e
  have hnowrap : k.toNat % c.slots + 10 ≤ c.slots := by
    have : (k.toNat % c.slots + 10) * c.coll.size.toNat ≤ c.slots * c.coll.size.toNat := by
      refine Nat.le_trans ?_ b2
      exact Nat.mul_le_mul_left _ (by omega)
    exact Nat.le_of_mul_le_mul_right this hs0
  rcases hwhy with rfl | ⟨i, buf, d, hret, hd⟩ | ⟨x, f, a, p, hx, hkx, _, g2, g3⟩
  · simp at b1; omega
  · have := hshort s i buf d hret; omega
  · have hI := BufmapConc.inv_reach hl (StoreConc.steps_m (steps_store hreach e3))
    have h00 : k ≠ 0 := by
      rintro rfl
      simp at b1; omega
    obtain ⟨i, hi, hpi, _⟩ := hI.keys x hx (by rw [hkx]; exact h00)
    rw [hkx] at hpi
    unfold maxReprobe at hi
    have : k.toNat % c.slots ≤ x := by
      unfold pos at hpi
      rcases Nat.lt_or_ge (k.toNat % c.slots + i) c.slots with hlt | hge
      · rw [Nat.mod_eq_of_lt hlt] at hpi; omega
      · exfalso
        have : i = 10 ∧ k.toNat % c.slots + 10 = c.slots := by omega
        rw [this.2] at b2
        have : 0 < c.slots := hl
        rw [Nat.mul_add] at b2
        omega
    have := cuts_small hv g2 g3
    rw [e4] at b1
    omega

/-- **C80 fails** in the program in this way too, and `C80_panics` says something: an observation of an airport in Poland is posted and accepted, then the
number of airports is asked for, and the handling of the query ends in a panic. -/
theorem C80_panic_refuted (env : Env) (hord : ∀ l, (env.ord l).Perm l) : ∃ σ, Steps env demoConfs ServerConc.init σ ∧
    σ.reqs = [post (asc "0;country=Poland;iata=WAW\n"), askFor (asc "country") (asc "select uniquecount(iata) where country='Poland'")] ∧
    σ.replies = [(0, .ok []), (1, .panic)] := by
  have r2 := (C83_poland_refuted env hord).2
  have e1 := poland_post env
  rw [e1] at r2
  have hpos : ∀ c ∈ demoConfs, 0 < c.slots := by
    intro c hc
    simp only [demoConfs, List.mem_cons, List.not_mem_nil, or_false] at hc
    rcases hc with rfl | rfl <;> decide
  obtain ⟨σ₁, a1, a2, a3, a4, a5, a6, _⟩ := C68_alone env demoConfs hpos ServerConc.init (.refl _) 0 rfl (fun _ => rfl) Demo.stores demo_agrees _ _
    (.ok []) e1 (by simp) (by simp)
  have htask := task_ask env demoConfs (asc "country") _ country_name _ (poland_query env.ord hord) 0 _ rfl (compile_name Demo.country) (by omega)
  obtain ⟨L, D, pos, h, hD⟩ := laid_compile Demo.country country_valid
  have hg := Storage.good_writes (l := Demo.slots) env.lib h [⟨polandRow, false⟩] (Storage.good_new h (by decide))
  have hs := slot_first env.lib country_valid (l := Demo.slots) (by decide) poland_key.1 (by decide) (poland_write env.lib).1
  have hget := get_present hg.wf (k := 150797932587210125) (by decide) hs (List.replicate (compile Demo.country).size.toNat 0)
  rw [if_neg (by rw [country_size]; decide)] at hget
  obtain ⟨st, hst⟩ : ∃ st, (writes env.lib (newStore Demo.country Demo.slots) [⟨polandRow, false⟩]).1 = st := ⟨_, rfl⟩
  obtain ⟨st', hst'⟩ : ∃ st, (writes env.lib (newStore Demo.tz Demo.slots) [⟨polandRow, false⟩]).1 = st := ⟨_, rfl⟩
  rw [hst] at hget
  rw [hst, hst'] at r2 a2
  simp only at r2 a2
  have hcopied : CopiedFirst env demoConfs [st, st'] (askFor (asc "country") (asc "select uniquecount(iata) where country='Poland'")) :=
    ⟨0, _, st, ⟨compile Demo.country, Demo.slots⟩, 150797932587210125, _, htask, rfl, rfl,
      by rw [show (⟨compile Demo.country, Demo.slots⟩ : Conf).coll.keys = Demo.country.keys from Storage.compile_keys _]; decide +kernel,
      by show 0 ≤ (compile Demo.country).size; rw [country_size]; decide, hget⟩
  obtain ⟨σ₂, b1, b2, b3, b4, _⟩ := alone_any env demoConfs hpos σ₁ a1 0 (by rw [a5]; rfl) (fun s => by rw [a6]; rfl) [st, st'] a2 _ _ .panic
    (by rw [← r2]) (fun _ => hcopied) (by simp)
  exact ⟨σ₂, a1.trans b1, by rw [b3, a3]; rfl, by rw [b4, a4, a3]; rfl⟩

/-- instance of the hypothesis of `C80_reply_partial`: FR, whose home slot is 3473, in the country collation of the program (and a run of the program in which
it is asked for is given beside `C80_home_partial`) -/
example : (compile Demo.country).size.toNat ≤ (12582602682680778473 : U64).toNat % Demo.slots ∧
    ((12582602682680778473 : U64).toNat % Demo.slots + 10) * ((compile Demo.country).size.toNat + 1) ≤ Demo.slots * (compile Demo.country).size.toNat := by
  rw [country_size]; decide

end Starbow.Props
