import Verif.Proof.ServerLive
import Verif.Props.ServerReplies
/-
Property C80: the server answers every request.
-/
namespace Starbow.ServerConc
open Starbow Starbow.Collation Starbow.Server Starbow.Cell Starbow.Probe Starbow.BufmapConc Starbow.Spec

variable {env : Env} {confs : List Conf} {sched : Nat → Nat} {ρ : Nat → State}

theorem run_reach (h : Run env confs sched ρ) (h0 : Steps env confs init (ρ 0)) (n : Nat) : Steps env confs init (ρ n) := by
  induction n with
  | zero => exact h0
  | succ n ih =>
    rcases h.turn n with hm | ⟨e, _⟩
    · exact .tail ih (step_move.2 (.inr ⟨_, hm⟩))
    · rw [e]; exact ih

/-- what a turn does: a step inside a store, a step outside, or nothing -/
theorem turn_cases (h : Run env confs sched ρ) (h0 : Steps env confs init (ρ 0)) (n : Nat) :
    ((∃ s c m', confs[s]? = some c ∧ BufmapConc.step c.slots c.coll.size.toNat ((ρ n).stores s).m (sched n) = some m' ∧
      ρ (n + 1) = { ρ n with stores := upd (ρ n).stores s ⟨m', ((ρ n).stores s).calls⟩ }) ∨
    (ρ (n + 1) = ρ n ∧ ∀ σ', ¬ Move env confs (sched n) (ρ n) σ')) ∨
    (∃ p', (ρ (n + 1)).pc = upd (ρ n).pc (sched n) p' ∧ rem confs.length p' < rem confs.length ((ρ n).pc (sched n))) ∧ (ρ (n + 1)).reqs = (ρ n).reqs := by
  rcases h.turn n with hm | hs
  · rcases move_cases (inv_reach (run_reach h h0 n)) hm with h1 | h1
    · exact .inl (.inl h1)
    · exact .inr h1
  · exact .inl (.inr hs)

/-- the work outside the stores of the first `B` goroutines -/
def work (n B : Nat) (pc : Nat → PC) : Nat := ((List.range B).map fun t => rem n (pc t)).sum

theorem work_upd {n B : Nat} {pc : Nat → PC} {t : Nat} {p' : PC} (ht : t < B) (h : rem n p' < rem n (pc t)) :
    work n B (upd pc t p') < work n B pc := by
  induction B with
  | zero => omega
  | succ B ih =>
    have e : ∀ pc, work n (B + 1) pc = work n B pc + rem n (pc B) := by
      intro pc; unfold work; rw [List.range_succ]; simp
    rw [e, e]
    by_cases hB : t = B
    · subst hB
      have : work n t (upd pc t p') = work n t pc := by
        unfold work
        congr 1
        refine List.map_congr_left (fun x hx => ?_)
        rw [upd_other _ _ (by have := List.mem_range.1 hx; omega)]
      rw [this, upd_same]
      omega
    · rw [upd_other _ _ (fun e => hB e.symm)]
      have := ih (by omega)
      omega

/-- from some moment on all steps are inside the stores -/
theorem settles (h : Run env confs sched ρ) (h0 : Steps env confs init (ρ 0)) :
    ∃ N, ∀ n, N ≤ n → (∃ s c m', confs[s]? = some c ∧ BufmapConc.step c.slots c.coll.size.toNat ((ρ n).stores s).m (sched n) = some m' ∧
      ρ (n + 1) = { ρ n with stores := upd (ρ n).stores s ⟨m', ((ρ n).stores s).calls⟩ }) ∨
    (ρ (n + 1) = ρ n ∧ ∀ σ', ¬ Move env confs (sched n) (ρ n) σ') := by
  obtain ⟨B, hB⟩ := busy_finite h0
  have hidle : ∀ n t, B ≤ t → (ρ n).pc t = .idle := by
    intro n
    induction n with
    | zero => exact hB
    | succ n ih =>
      intro t ht
      rcases turn_cases h h0 n with (⟨s, c, m', _, _, e⟩ | ⟨e, _⟩) | ⟨⟨p', e, hlt⟩, _⟩
      · rw [e]; exact ih t ht
      · rw [e]; exact ih t ht
      · by_cases hs : B ≤ sched n
        · rw [ih _ hs] at hlt; simp [rem] at hlt
        · rw [e, upd_other _ _ (by omega)]; exact ih t ht
  have hstep : ∀ n, work confs.length B (ρ (n + 1)).pc ≤ work confs.length B (ρ n).pc := by
    intro n
    rcases turn_cases h h0 n with (⟨s, c, m', _, _, e⟩ | ⟨e, _⟩) | ⟨⟨p', e, hlt⟩, _⟩
    · rw [e]
    · rw [e]
    · have hs : sched n < B := by
        by_contra hs
        rw [hidle n _ (by omega)] at hlt; simp [rem] at hlt
      rw [e]; exact Nat.le_of_lt (work_upd hs hlt)
  have hanti : ∀ n k, work confs.length B (ρ (n + k)).pc ≤ work confs.length B (ρ n).pc := by
    intro n k
    induction k with
    | zero => exact Nat.le_refl _
    | succ k ih => exact Nat.le_trans (hstep (n + k)) ih
  -- the least amount of work
  have hmin : ∃ N, ∀ n, work confs.length B (ρ N).pc ≤ work confs.length B (ρ n).pc := by
    by_contra hne
    have hne : ∀ N, ∃ n, work confs.length B (ρ n).pc < work confs.length B (ρ N).pc := by
      intro N
      by_contra hN
      exact hne ⟨N, fun n => by by_contra hn; exact hN ⟨n, by omega⟩⟩
    have : ∀ w n, work confs.length B (ρ n).pc ≠ w := by
      intro w
      induction w using Nat.strongRecOn with
      | _ w ih =>
        intro n e
        obtain ⟨n', hn'⟩ := hne n
        exact ih _ (by omega) n' rfl
    exact this _ 0 rfl
  obtain ⟨N, hN⟩ := hmin
  refine ⟨N, fun n hn => ?_⟩
  rcases turn_cases h h0 n with h1 | ⟨⟨p', e, hlt⟩, _⟩
  · exact h1
  · exfalso
    have hs : sched n < B := by
      by_contra hs
      rw [hidle n _ (by omega)] at hlt; simp [rem] at hlt
    have h1 := work_upd (n := confs.length) hs hlt
    rw [← e] at h1
    have h2 := hN (n + 1)
    obtain ⟨k, rfl⟩ := Nat.exists_eq_add_of_le hn
    have h3 := hanti N k
    omega

/-- the path of a query -/
theorem task_query_path {req : Request} {s : Nat} {q : Query} (h : task env confs req = .query s q) :
    ∃ c, confs[s]? = some c ∧ req.path = asc "/collation/" ++ c.coll.name := by
  unfold task at h
  split at h
  · simp at h
  split at h
  · simp at h
  split at h
  · split at h
    · unfold observation at h
      split at h
      · simp at h
      · split at h
        · split at h
          · simp at h
          · simp [observeBody] at h
        · split at h
          · simp [observeBody] at h
          · simp at h
    · simp at h
  split at h
  · next hp =>
    simp only at h
    split at h
    · simp at h
    split at h
    · simp at h
    split at h
    · simp at h
    unfold ServerConc.lookup at h
    split at h
    · simp at h
    · split at h
      · simp at h
      · next s' hs' =>
        injection h with e1 e2
        subst e1
        obtain ⟨hlt, heq, _⟩ := List.findIdx?_eq_some_iff_getElem.1 hs'
        refine ⟨_, List.getElem?_eq_getElem hlt, ?_⟩
        rw [of_decide_eq_true heq]
        obtain ⟨rest, hrest⟩ := hp
        rw [← hrest]
        simp
  · split at h <;> simp at h

/-- the answer of a call that has returned can be used -/
theorem returned_moves {σ : State} (hpos : ∀ c ∈ confs, 0 < c.slots) (hr : Steps env confs init σ) {t s i : Nat} {c : Conf} {ret : BufmapConc.Ret}
    (hs : confs[s]? = some c) (hc : callOf (σ.pc t) = some (s, i)) (hret : (i, ret) ∈ (σ.stores s).m.rets) : ∃ σ', Move env confs t σ σ' := by
  have hI := store_inv hpos hr hs
  have hok := StoreConc.callsOk_steps (StoreConc.callsOk_init env.lib c.coll) (steps_store hr hs)
  have hro := hI.rok i ret hret
  have hp := (inv_reach hr).pcs t
  have hupd : ∀ err, ret = .ran err → ∃ k fn, (σ.stores s).m.invs[i]? = some (.upd k fn) := by
    rintro err rfl
    obtain ⟨x, e, es, rest, he, hx, hw, _⟩ := hro
    have hmem : e ∈ writesOf (σ.stores s).m.cells.log x := by rw [hw]; simp
    obtain ⟨_, _, hinv⟩ := hI.logok x e (Props.BufmapConc.mem_writesOf.mp hmem)
    exact ⟨_, _, by rw [← he]; exact hinv⟩
  cases hpc : σ.pc t with
  | idle => rw [hpc] at hc; simp [callOf] at hc
  | lines j p ls e => rw [hpc] at hc; simp [callOf] at hc
  | row j p ls e r s => rw [hpc] at hc; simp [callOf] at hc
  | ask j q s => rw [hpc] at hc; simp [callOf] at hc
  | writing j p ls e r s' i' =>
    rw [hpc] at hc hp
    simp only [callOf, Option.some.injEq, Prod.mk.injEq] at hc
    obtain ⟨rfl, rfl⟩ := hc
    obtain ⟨_, _, _, _, _, _, _, _, _, _, _, _, hm⟩ := hp
    cases ret with
    | ran err => exact ⟨_, .wrote _ j p ls e r s' i' _ _ hpc hret rfl⟩
    | invalidKey => exact ⟨_, .wrote _ j p ls e r s' i' _ _ hpc hret rfl⟩
    | outOfSlots => exact ⟨_, .wrote _ j p ls e r s' i' _ _ hpc hret rfl⟩
    | got a b d =>
      exfalso
      obtain ⟨k, buf, hg⟩ := hro
      obtain ⟨q, h1, _⟩ := hok.ok _ _ hg
      rw [hm.2] at h1
      simp at h1
  | reading j q s' i' =>
    rw [hpc] at hc hp
    simp only [callOf, Option.some.injEq, Prod.mk.injEq] at hc
    obtain ⟨rfl, rfl⟩ := hc
    obtain ⟨_, _, _, _, hm⟩ := hp
    have no : ∀ k fn, (σ.stores s').m.invs[i']? ≠ some (.upd k fn) := by
      intro k fn hg
      obtain ⟨r, h1, _⟩ := hok.ok _ _ hg
      rw [hm] at h1
      simp at h1
    cases ret with
    | ran err => obtain ⟨k, fn, h⟩ := hupd _ rfl; exact absurd h (no k fn)
    | invalidKey => obtain ⟨fn, h⟩ := hro; exact absurd h (no 0 fn)
    | outOfSlots => obtain ⟨k, fn, h, _⟩ := hro; exact absurd h (no k fn)
    | got a b d =>
      cases a with
      | true => exact ⟨_, .answer _ j q s' i' c _ _ hpc hs hret rfl⟩
      | false => exact ⟨_, .answer _ j q s' i' c _ _ hpc hs hret rfl⟩

theorem all_below {P : Nat → Nat → Prop} (L : Nat) (h : ∀ s < L, ∃ N, ∀ n, N ≤ n → P s n) : ∃ N, ∀ s < L, ∀ n, N ≤ n → P s n := by
  induction L with
  | zero => exact ⟨0, fun s hs => by omega⟩
  | succ L ih =>
    obtain ⟨N, hN⟩ := ih (fun s hs => h s (by omega))
    obtain ⟨M, hM⟩ := h L (by omega)
    refine ⟨max N M, fun s hs n hn => ?_⟩
    by_cases e : s = L
    · subst e; exact hM n (by omega)
    · exact hN s (by omega) n (by omega)

end Starbow.ServerConc

namespace Starbow.Props
open Starbow Starbow.Collation Starbow.Server Starbow.Cell Starbow.Probe Starbow.Spec Starbow.ServerConc

/-- **C80** the transitions of the server are the receipts of requests and the moves of its goroutines, so `Run` leaves out nothing but new
requests -/
theorem C80_moves (env : Env) (confs : List Conf) (σ σ' : State) : Step env confs σ σ' ↔
    (∃ t req, σ.pc t = .idle ∧ σ' = σ.receive env confs t req) ∨ ∃ t, Move env confs t σ σ' := step_move

/-- **C80**, partial. Let the server have received any requests, at any points of their handling, and let no more come in. Then under every
fair schedule, whatever the goroutines choose to do (which cancellations they notice, for instance), from some moment on every request
has been answered, but for queries of a key in one of the last slots of its store (`Readable` says which slots). Missing: these queries,
which are never answered (C80_silent). The answer may be a panic of the handler; when, is said by C80_panics. -/
theorem C80_answered_partial (env : Env) (confs : List Conf) (hpos : ∀ c ∈ confs, 0 < c.slots)
    (hsch : ∀ c ∈ confs, ∃ sch, ValidSchema sch ∧ c.coll = compile sch) (sched : Nat → Nat) (ρ : Nat → State)
    (hrun : Run env confs sched ρ) (h0 : Steps env confs ServerConc.init (ρ 0)) :
    ∃ N, ∀ n, N ≤ n → ∀ (j : Nat) (req : Request), (ρ 0).reqs[j]? = some req →
      (∀ (s : Nat) (c : Conf) (q : Query) (k : U64), task env confs req = .query s q → confs[s]? = some c →
        keyValue q.criteria c.coll.keys = some k → Readable c.slots c.coll.size.toNat ((ρ n).stores s).m.keys k) →
      ∃ rep, (j, rep) ∈ (ρ n).replies := by
  obtain ⟨N, hN⟩ := settles hrun h0
  have hreach := run_reach hrun h0
  -- nothing changes but the contents of the stores
  have hsame : ∀ k, (ρ (N + k)).pc = (ρ N).pc ∧ (ρ (N + k)).reqs = (ρ N).reqs ∧ (ρ (N + k)).replies = (ρ N).replies := by
    intro k
    induction k with
    | zero => exact ⟨rfl, rfl, rfl⟩
    | succ k ih =>
      rcases hN (N + k) (by omega) with ⟨s, c, m', _, _, e⟩ | ⟨e, _⟩
      · rw [show N + (k + 1) = N + k + 1 from rfl, e]; exact ih
      · rw [show N + (k + 1) = N + k + 1 from rfl, e]; exact ih
  have hreqs : ∀ n, (ρ n).reqs = (ρ 0).reqs := by
    intro n
    induction n with
    | zero => rfl
    | succ n ih =>
      rcases turn_cases hrun h0 n with (⟨s, c, m', _, _, e⟩ | ⟨e, _⟩) | ⟨_, e⟩
      · rw [e]; exact ih
      · rw [e]; exact ih
      · rw [e]; exact ih
  have hmap : ∀ s c, confs[s]? = some c → ∀ k, ((ρ (N + k)).stores s).m =
      runFrom (BufmapConc.step c.slots c.coll.size.toNat) (fun k => sched (N + k)) ((ρ N).stores s).m k := by
    intro s c hs k
    induction k with
    | zero => rfl
    | succ k ih =>
      rw [runFrom, ← ih]
      have hl := link_reach hpos (hreach (N + k))
      rcases hN (N + k) (by omega) with ⟨s0, c0, m', hs0, hm, e⟩ | ⟨e, hno⟩
      · rw [show N + (k + 1) = N + k + 1 from rfl, e]
        by_cases es : s = s0
        · subst es
          obtain rfl := Option.some.inj (hs.symm.trans hs0)
          rw [hm]
          simp [upd_same]
        · have hidle : ((ρ (N + k)).stores s).m.pc (sched (N + k)) = .idle := by
            refine hl.idle _ _ (fun i hi => ?_)
            have h1 : ((ρ (N + k)).stores s0).m.pc (sched (N + k)) = .idle := by
              refine hl.idle _ _ (fun i' hi' => ?_)
              rw [hi] at hi'
              simp only [Option.some.injEq, Prod.mk.injEq] at hi'
              exact es hi'.1
            unfold BufmapConc.step at hm
            rw [h1] at hm
            simp at hm
          have hnone : BufmapConc.step c.slots c.coll.size.toNat ((ρ (N + k)).stores s).m (sched (N + k)) = none := by
            unfold BufmapConc.step; rw [hidle]
          rw [hnone]
          simp [upd_other _ _ es]
      · have hnone : BufmapConc.step c.slots c.coll.size.toNat ((ρ (N + k)).stores s).m (sched (N + k)) = none := by
          by_contra hne
          obtain ⟨m', hm'⟩ := Option.ne_none_iff_exists'.1 hne
          exact hno _ (.inside _ s c m' hs hm')
        rw [hnone, show N + (k + 1) = N + k + 1 from rfl, e]
        rfl
  have hfair : Fair fun k => sched (N + k) := by
    intro t n
    obtain ⟨i, hi, e⟩ := hrun.fair t (N + n)
    refine ⟨i - N, by omega, ?_⟩
    show sched (N + (i - N)) = t
    rw [← e]; congr 1; omega
  -- the calls return
  obtain ⟨M, hM⟩ := all_below (P := fun s k => ∀ c, confs[s]? = some c → ∀ id op, ((ρ N).stores s).m.invs[id]? = some op →
      (∀ key buf, op = .get key buf → Readable c.slots c.coll.size.toNat ((ρ (N + k)).stores s).m.keys key) →
        ∃ r, (id, r) ∈ ((ρ (N + k)).stores s).m.rets) confs.length (by
    intro s hs
    have hc : confs[s]? = some confs[s] := List.getElem?_eq_getElem hs
    have hmem : confs[s] ∈ confs := List.getElem_mem hs
    obtain ⟨sch, hv, hcoll⟩ := hsch _ hmem
    have hst := steps_store (hreach N) hc
    have hcalm : BufmapConc.AllCalm confs[s].slots confs[s].coll.size.toNat ((ρ N).stores s).m.invs := by
      rw [hcoll] at hst ⊢
      exact StoreConc.store_calm hv (hpos _ hmem) hst
    obtain ⟨M, hM⟩ := returns_of_calm _ _ (hpos _ hmem) ((ρ N).stores s).m (StoreConc.steps_m hst) hcalm _ hfair
    refine ⟨M, fun k hk c hc' id op hop hcase => ?_⟩
    obtain rfl := Option.some.inj (hc.symm.trans hc')
    rw [hmap s _ hc k] at hcase ⊢
    exact hM k hk id op hop hcase)
  refine ⟨N + M, fun n hn j req hreq hsafe => ?_⟩
  have hrep : (ρ n).replies = (ρ N).replies := by
    obtain ⟨k, rfl⟩ := Nat.exists_eq_add_of_le (show N ≤ n by omega)
    exact (hsame k).2.2
  rw [hrep]
  have hjlt : j < (ρ N).reqs.length := by rw [hreqs N]; exact (List.getElem?_eq_some_iff.1 hreq).1
  rcases tracked_reach (hreach N) j hjlt with h | ⟨t, ht⟩
  · exact h
  exfalso
  obtain ⟨k₀, rfl⟩ := Nat.exists_eq_add_of_le (show N ≤ n by omega)
  obtain ⟨i, hi, hsi⟩ := hfair t k₀
  simp only at hsi
  have hri := hreach (N + i)
  have hpci : (ρ (N + i)).pc = (ρ N).pc := (hsame i).1
  have hl := link_reach hpos hri
  have hlN := link_reach hpos (hreach N)
  have hbusy : (ρ (N + i)).pc t ≠ .idle := by rw [hpci]; intro e; rw [e] at ht; simp [job] at ht
  -- the goroutine can make a step outside the stores, and none inside
  have key : (∃ σ', Move env confs t (ρ (N + i)) σ') → (∀ s c, confs[s]? = some c → ((ρ (N + i)).stores s).m.pc t = .idle) → False := by
    rintro ⟨σ', hm⟩ hidle
    rcases hN (N + i) (by omega) with ⟨s, c, m', hs, hstep, _⟩ | ⟨_, hno⟩
    · rw [hsi] at hstep
      unfold BufmapConc.step at hstep
      rw [hidle s c hs] at hstep
      simp at hstep
    · rw [hsi] at hno
      exact hno _ hm
  cases hcall : callOf ((ρ (N + i)).pc t) with
  | none =>
    exact key (can_move hpos hri hbusy hcall) (fun s c _ => hl.idle t s (by rw [hcall]; simp))
  | some sc =>
    obtain ⟨s, id⟩ := sc
    have hcallN : callOf ((ρ N).pc t) = some (s, id) := by rw [← hpci]; exact hcall
    have hin := hlN.call t s id hcallN
    have hpcok := (inv_reach (hreach N)).pcs t
    obtain ⟨op, hopeq⟩ : ∃ op, ((ρ N).stores s).m.invs[id]? = some op := ⟨_, List.getElem?_eq_getElem hin.1⟩
    -- the store, and why the call returns
    have hcs : ∃ c, confs[s]? = some c ∧ ∀ key buf, op = .get key buf →
        Readable c.slots c.coll.size.toNat ((ρ (N + k₀)).stores s).m.keys key := by
      cases hpc : (ρ N).pc t with
      | idle => rw [hpc] at hcallN; simp [callOf] at hcallN
      | lines j p ls e => rw [hpc] at hcallN; simp [callOf] at hcallN
      | row j p ls e r s => rw [hpc] at hcallN; simp [callOf] at hcallN
      | ask j q s => rw [hpc] at hcallN; simp [callOf] at hcallN
      | writing j' p ls e r s' i' =>
        rw [hpc] at hcallN hpcok
        simp only [callOf, Option.some.injEq, Prod.mk.injEq] at hcallN
        obtain ⟨rfl, rfl⟩ := hcallN
        obtain ⟨_, _, _, _, _, _, _, _, _, _, _, ⟨c, hc⟩, hm⟩ := hpcok
        refine ⟨c, hc, ?_⟩
        have hok := StoreConc.callsOk_steps (StoreConc.callsOk_init env.lib c.coll) (steps_store (hreach N) hc)
        have := hok.ok _ _ hopeq
        rintro key buf rfl
        obtain ⟨q, h1, _⟩ := this
        rw [hm.2] at h1
        simp at h1
      | reading j' q s' i' =>
        rw [hpc] at hcallN hpcok ht
        simp only [callOf, Option.some.injEq, Prod.mk.injEq] at hcallN
        obtain ⟨rfl, rfl⟩ := hcallN
        obtain rfl := Option.some.inj ht
        obtain ⟨req', hreq', htask, _, hm⟩ := hpcok
        rw [hreqs N, hreq] at hreq'
        obtain rfl := Option.some.inj hreq'
        obtain ⟨c, hc, _⟩ := task_query_path htask
        refine ⟨c, hc, ?_⟩
        have hok := StoreConc.callsOk_steps (StoreConc.callsOk_init env.lib c.coll) (steps_store (hreach N) hc)
        have := hok.ok _ _ hopeq
        rintro key buf rfl
        obtain ⟨q', h1, h2, _⟩ := this
        rw [hm] at h1
        have h1 := Option.some.inj h1
        injection h1 with h1
        subst h1
        exact hsafe _ c q key htask hc h2
    obtain ⟨c, hc, hcase⟩ := hcs
    obtain ⟨ret, hret⟩ := hM s (List.getElem?_eq_some_iff.1 hc).1 k₀ (by omega) c hc id _ hopeq hcase
    obtain ⟨d, rfl⟩ := Nat.exists_eq_add_of_le hi
    replace hret : (id, ret) ∈ ((ρ (N + (k₀ + d))).stores s).m.rets := by
      rw [hmap s c hc] at hret ⊢
      exact BufmapConc.run_rets d hret
    refine key (returned_moves hpos hri hc hcall hret) ?_
    intro s' c' hc'
    by_cases e : s' = s
    · subst e; exact (hl.call t s' id hcall).returned (store_inv hpos hri hc) hret
    · refine hl.idle t s' (fun i' hi' => ?_)
      rw [hcall] at hi'
      simp only [Option.some.injEq, Prod.mk.injEq] at hi'
      exact e hi'.1.symm

/-- from every state and for every fair schedule there is a run -/
theorem run_exists (env : Env) (confs : List Conf) {sched : Nat → Nat} (hf : Fair sched) (σ : State) :
    ∃ ρ, Run env confs sched ρ ∧ ρ 0 = σ := by
  classical
  refine ⟨fun n => Nat.rec σ (fun n τ => if h : ∃ σ', Move env confs (sched n) τ σ' then h.choose else τ) n, ⟨hf, fun n => ?_⟩, rfl⟩
  simp only
  split
  · next h => exact .inl h.choose_spec
  · next h => exact .inr ⟨rfl, fun σ' hm => h ⟨σ', hm⟩⟩

/-- a request that is not answered at once, given to a fresh goroutine -/
theorem receive_busy {env : Env} {confs : List Conf} {σ : State} (hr : Steps env confs ServerConc.init σ) {t : Nat} (ht : ∀ u, t ≤ u → σ.pc u = .idle)
    {req : Request} (hreq : ∀ r, task env confs req ≠ .answer r) : ∃ σ', Steps env confs ServerConc.init σ' ∧ (∀ u, t + 1 ≤ u → σ'.pc u = .idle) ∧
      σ'.reqs = σ.reqs ++ [req] ∧ σ'.replies = σ.replies := by
  refine ⟨_, .tail hr (.receive σ t req (ht t (Nat.le_refl _))), ?_⟩
  unfold State.receive
  simp only
  cases h : task env confs req with
  | answer r => exact absurd h (hreq r)
  | observe ls e => exact ⟨fun u hu => (upd_other _ _ (by omega)).trans (ht u (by omega)), rfl, rfl⟩
  | query s q => exact ⟨fun u hu => (upd_other _ _ (by omega)).trans (ht u (by omega)), rfl, rfl⟩

/-- **C80**, partial, in terms of the key: under every fair schedule all requests are answered, but for queries of a key whose home slot is one
of the last slots of the store or up to ten before (in the program: the last 15 of 5000). -/
theorem C80_home_partial (env : Env) (confs : List Conf) (hpos : ∀ c ∈ confs, 0 < c.slots)
    (hsch : ∀ c ∈ confs, ∃ sch, ValidSchema sch ∧ c.coll = compile sch) (sched : Nat → Nat) (ρ : Nat → State)
    (hrun : Run env confs sched ρ) (h0 : Steps env confs ServerConc.init (ρ 0)) :
    ∃ N, ∀ n, N ≤ n → ∀ (j : Nat) (req : Request), (ρ 0).reqs[j]? = some req →
      (∀ (s : Nat) (c : Conf) (q : Query) (k : U64), task env confs req = .query s q → confs[s]? = some c →
        keyValue q.criteria c.coll.keys = some k → (k.toNat % c.slots + 10) * (c.coll.size.toNat + 1) ≤ c.slots * c.coll.size.toNat) →
      ∃ rep, (j, rep) ∈ (ρ n).replies := by
  obtain ⟨N, hN⟩ := C80_answered_partial env confs hpos hsch sched ρ hrun h0
  refine ⟨N, fun n hn j req hreq hsafe => hN n hn j req hreq (fun s c q k h1 h2 h3 => ?_)⟩
  exact readable_home (hpos c (List.mem_of_getElem? h2)) (StoreConc.steps_m (steps_store (run_reach hrun h0 n) h2)) (hsafe s c q k h1 h2 h3)

theorem tz_valid : ValidSchema Demo.tz := by
  intro f ms p h1 h2
  simp only [Demo.tz, List.mem_cons, Prod.mk.injEq, List.not_mem_nil, or_false] at h1
  rcases h1 with ⟨rfl, rfl⟩ | ⟨rfl, rfl⟩
  · simp at h2; omega
  · simp at h2; omega

/-- the hypotheses are met: the program has received two observations of France and the query for their number, and has answered none of them -/
example (env : Env) (hord : ∀ l, (env.ord l).Perm l) : ∃ (sched : Nat → Nat) (ρ : Nat → State),
    Run env demoConfs sched ρ ∧ Steps env demoConfs ServerConc.init (ρ 0) ∧
    (ρ 0).reqs = [post (unlines ([countryLine (asc "FR")].map Line.text)), post (unlines ([countryLine (asc "FR")].map Line.text)),
      askFor (asc "country") (countryQuery (asc "FR"))] ∧ (ρ 0).replies = [] ∧
    ∃ N, ∀ n, N ≤ n → ∀ j < 3, ∃ rep, (j, rep) ∈ (ρ n).replies := by
  obtain ⟨confs, hconfs⟩ : ∃ confs, confs = demoConfs := ⟨_, rfl⟩
  rw [← hconfs]
  have hw : Writable (asc "FR") := ⟨by decide +kernel, by decide +kernel, by decide +kernel, by decide +kernel⟩
  have hp := task_post env confs [countryLine (asc "FR")] (by simpa using countryLine_correct hw)
  have hq := task_ask env confs (asc "country") _ country_name _ (countryQuery_parse env.ord hord (c := asc "FR") (by decide +kernel) (by decide +kernel) (by decide +kernel))
    0 _ (by rw [hconfs]; rfl) (compile_name Demo.country) (by omega)
  obtain ⟨σ₁, a1, a2, a3, a4⟩ := receive_busy (.refl _) (t := 0) (fun u _ => rfl) (by rw [hp]; simp)
  obtain ⟨σ₂, b1, b2, b3, b4⟩ := receive_busy a1 a2 (by rw [hp]; simp)
  obtain ⟨σ, c1, c2, c3, c4⟩ := receive_busy b1 b2 (by rw [hq]; simp)
  obtain ⟨ρ, hρ, h0⟩ := run_exists env confs fair_unpair σ
  have hreqs : (ρ 0).reqs = [post (unlines ([countryLine (asc "FR")].map Line.text)), post (unlines ([countryLine (asc "FR")].map Line.text)),
      askFor (asc "country") (countryQuery (asc "FR"))] := by rw [h0, c3, b3, a3]; rfl
  refine ⟨_, ρ, hρ, by rw [h0]; exact c1, hreqs, by rw [h0, c4, b4, a4]; rfl, ?_⟩
  have hk : keyValue [⟨asc "country", asc "FR"⟩] Demo.country.keys = some 12582602682680778473 := by decide +kernel
  obtain ⟨N, hN⟩ := C80_home_partial env confs (by rw [hconfs]; simp [demoConfs]; decide)
    (by rw [hconfs]; simpa [demoConfs] using ⟨⟨_, country_valid, rfl⟩, ⟨_, tz_valid, rfl⟩⟩) _ ρ hρ (by rw [h0]; exact c1)
  refine ⟨N, fun n hn j hj => ?_⟩
  have hlt : j < (ρ 0).reqs.length := by rw [hreqs]; exact hj
  refine hN n hn j _ (List.getElem?_eq_getElem hlt) (fun s c q k ht hc hkey => ?_)
  have ht3 : task env confs (askFor (asc "country") (countryQuery (asc "FR"))) = .query s q := by
    match j with
    | 0 => simp only [hreqs, List.getElem_cons_zero] at ht; rw [show post _ = (Step.posted [countryLine (asc "FR")]).request from rfl, hp] at ht; simp at ht
    | 1 => simp only [hreqs, List.getElem_cons_succ, List.getElem_cons_zero] at ht; rw [show post _ = (Step.posted [countryLine (asc "FR")]).request from rfl, hp] at ht; simp at ht
    | 2 => simpa only [hreqs, List.getElem_cons_succ, List.getElem_cons_zero] using ht
    | _ + 3 => omega
  rw [hq] at ht3
  injection ht3 with e1 e2
  subst e1 e2
  rw [hconfs] at hc
  obtain rfl := Option.some.inj hc
  have hkk : k = 12582602682680778473 := by
    rw [show (⟨compile Demo.country, Demo.slots⟩ : Conf).coll.keys = Demo.country.keys from Storage.compile_keys _] at hkey
    exact Option.some.inj (hkey.symm.trans hk)
  subst hkk
  simp only
  rw [country_size]
  decide

end Starbow.Props
