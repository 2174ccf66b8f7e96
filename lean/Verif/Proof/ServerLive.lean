import Verif.Proof.ServerReplies
import Verif.Props.StoreLive
import Verif.Spec.ServerRun
/- The concurrent server makes progress. -/
namespace Starbow.ServerConc
open Starbow Starbow.Collation Starbow.Server Starbow.Cell Starbow.Probe Starbow.BufmapConc Starbow.Spec

variable {env : Env} {confs : List Conf}

/-- a transition is the receipt of a request or a move of some goroutine -/
theorem step_move {σ σ' : State} : Step env confs σ σ' ↔
    (∃ t req, σ.pc t = .idle ∧ σ' = σ.receive env confs t req) ∨ ∃ t, Move env confs t σ σ' := by
  constructor
  · intro h
    cases h with
    | receive t req h => exact .inl ⟨t, req, h, rfl⟩
    | finish t j p e h => exact .inr ⟨t, .finish _ j p e h⟩
    | cancelLine t j p line ls e h hc => exact .inr ⟨t, .cancelLine _ j p line ls e h hc⟩
    | parse t j p line ls e h => exact .inr ⟨t, .parse _ j p line ls e h⟩
    | stored t j p ls e r h => exact .inr ⟨t, .stored _ j p ls e r h⟩
    | skip t j p ls e r s c h hs hk => exact .inr ⟨t, .skip _ j p ls e r s c h hs hk⟩
    | cancelWrite t j p ls e r s c k h hs hk hc => exact .inr ⟨t, .cancelWrite _ j p ls e r s c k h hs hk hc⟩
    | write t j p ls e r s c k fn h hs hi hk hf => exact .inr ⟨t, .write _ j p ls e r s c k fn h hs hi hk hf⟩
    | wrote t j p ls e r s i ret err h hr he => exact .inr ⟨t, .wrote _ j p ls e r s i ret err h hr he⟩
    | noKey t j q s c h hs hk => exact .inr ⟨t, .noKey _ j q s c h hs hk⟩
    | noBuffer t j q s c k h hs hk hn => exact .inr ⟨t, .noBuffer _ j q s c k h hs hk hn⟩
    | read t j q s c k h hs hi hk hn => exact .inr ⟨t, .read _ j q s c k h hs hi hk hn⟩
    | answer t j q s i c ret out h hs hr ho => exact .inr ⟨t, .answer _ j q s i c ret out h hs hr ho⟩
    | inside t s c m' hs h => exact .inr ⟨t, .inside _ s c m' hs h⟩
  · rintro (⟨t, req, h, rfl⟩ | ⟨t, h⟩)
    · exact .receive _ t req h
    · cases h with
      | finish j p e h => exact .finish _ t j p e h
      | cancelLine j p line ls e h hc => exact .cancelLine _ t j p line ls e h hc
      | parse j p line ls e h => exact .parse _ t j p line ls e h
      | stored j p ls e r h => exact .stored _ t j p ls e r h
      | skip j p ls e r s c h hs hk => exact .skip _ t j p ls e r s c h hs hk
      | cancelWrite j p ls e r s c k h hs hk hc => exact .cancelWrite _ t j p ls e r s c k h hs hk hc
      | write j p ls e r s c k fn h hs hi hk hf => exact .write _ t j p ls e r s c k fn h hs hi hk hf
      | wrote j p ls e r s i ret err h hr he => exact .wrote _ t j p ls e r s i ret err h hr he
      | noKey j q s c h hs hk => exact .noKey _ t j q s c h hs hk
      | noBuffer j q s c k h hs hk hn => exact .noBuffer _ t j q s c k h hs hk hn
      | read j q s c k h hs hi hk hn => exact .read _ t j q s c k h hs hi hk hn
      | answer j q s i c ret out h hs hr ho => exact .answer _ t j q s i c ret out h hs hr ho
      | inside s c m' hs h => exact .inside _ t s c m' hs h

/-- the store and the call a goroutine is in -/
def callOf : PC → Option (Nat × Nat)
  | .writing _ _ _ _ _ s i => some (s, i)
  | .reading _ _ s i => some (s, i)
  | _ => none

/-- the goroutine's call `i` of the map is in progress, has returned, or has panicked -/
def InCall (m : BufmapConc.State) (t i : Nat) : Prop :=
  i < m.invs.length ∧ ((m.pc t = .idle ∧ ∃ r, (i, r) ∈ m.rets) ∨ (m.pc t).id = some i ∨
    (m.pc t = .gone ∧ (∀ r, (i, r) ∉ m.rets) ∧ ∀ t', (m.pc t').id ≠ some i))

/-- the goroutines of the server and those in its stores -/
structure Link (confs : List Conf) (σ : State) : Prop where
  idle : ∀ t s, (∀ i, callOf (σ.pc t) ≠ some (s, i)) → (σ.stores s).m.pc t = .idle
  call : ∀ t s i, callOf (σ.pc t) = some (s, i) → InCall (σ.stores s).m t i
  le : ∀ t j p ls e r s, σ.pc t = .row j p ls e r s → s ≤ confs.length

/-- the requests are answered or worked on -/
def Tracked (σ : State) : Prop := ∀ j < σ.reqs.length, (∃ rep, (j, rep) ∈ σ.replies) ∨ ∃ t, job (σ.pc t) = some j

/-- how much a goroutine has still to do outside the stores, with `n` stores -/
def rem (n : Nat) : PC → Nat
  | .idle => 0
  | .lines _ _ ls _ => ls.length * (2 * n + 3) + 1
  | .row _ _ ls _ _ s => ls.length * (2 * n + 3) + 2 + 2 * (n - s)
  | .writing _ _ ls _ _ s _ => ls.length * (2 * n + 3) + 1 + 2 * (n - s)
  | .ask _ _ _ => 2
  | .reading _ _ _ _ => 1

/-- what a move does -/
theorem move_cases {σ σ' : State} (h : Inv env confs σ) {t : Nat} (hm : Move env confs t σ σ') :
    (∃ s c m', confs[s]? = some c ∧ BufmapConc.step c.slots c.coll.size.toNat (σ.stores s).m t = some m' ∧
      σ' = { σ with stores := upd σ.stores s ⟨m', (σ.stores s).calls⟩ }) ∨
    ((∃ p', σ'.pc = upd σ.pc t p' ∧ rem confs.length p' < rem confs.length (σ.pc t)) ∧ σ'.reqs = σ.reqs) := by
  have key : ∀ {p p' : PC}, σ.pc t = p → rem confs.length p' < rem confs.length p → (∃ q, upd σ.pc t p' = upd σ.pc t q ∧
      rem confs.length q < rem confs.length (σ.pc t)) := by
    intro p p' e h
    exact ⟨p', rfl, by rw [e]; exact h⟩
  cases hm with
  | finish j p e h => exact .inr ⟨key h (by simp [rem]), rfl⟩
  | cancelLine j p line ls e h hc => exact .inr ⟨key h (by simp [rem]), rfl⟩
  | parse j p line ls e h =>
    right
    unfold State.parse
    split
    · exact ⟨key h (by simp [rem]), rfl⟩
    · exact ⟨key h (by simp [rem]), rfl⟩
    · refine ⟨key h ?_, rfl⟩
      simp only [rem, List.length_cons, Nat.add_mul]
      omega
  | stored j p ls e r h => exact .inr ⟨key h (by simp only [rem]; omega), rfl⟩
  | skip j p ls e r s c h hs hk =>
    have := (List.getElem?_eq_some_iff.1 hs).1
    exact .inr ⟨key h (by simp only [rem]; omega), rfl⟩
  | cancelWrite j p ls e r s c k h hs hk hc => exact .inr ⟨key h (by simp [rem]), rfl⟩
  | write j p ls e r s c k fn h hs hi hk hf => exact .inr ⟨key h (by simp only [rem]; omega), rfl⟩
  | wrote j p ls e r s i ret err ht hr he =>
    right
    have hp := h.pcs t
    rw [ht] at hp
    obtain ⟨_, _, _, _, _, _, _, _, _, _, _, ⟨c, hc⟩, _⟩ := hp
    have := (List.getElem?_eq_some_iff.1 hc).1
    split
    · exact ⟨key ht (by simp only [rem]; omega), rfl⟩
    · exact ⟨key ht (by simp [rem]), rfl⟩
  | noKey j q s c h hs hk => exact .inr ⟨key h (by simp [rem]), rfl⟩
  | noBuffer j q s c k h hs hk hn => exact .inr ⟨key h (by simp [rem]), rfl⟩
  | read j q s c k h hs hi hk hn => exact .inr ⟨key h (by simp [rem]), rfl⟩
  | answer j q s i c ret out h hs hr ho => exact .inr ⟨key h (by simp [rem]), rfl⟩
  | inside s c m' hs h => exact .inl ⟨s, c, m', hs, h, rfl⟩

/-! ### the invariants -/

theorem InCall.step {l s : Nat} {m m' : BufmapConc.State} (hI : BufmapConc.Inv l s m) {t0 : Nat} (h : BufmapConc.step l s m t0 = some m') {t i : Nat}
    (hc : InCall m t i) : InCall m' t i := by
  obtain ⟨p', hp, hk⟩ := step_ids h
  have hrets : ∀ x, x ∈ m.rets → x ∈ m'.rets := by
    intro x hx
    rcases hk with ⟨_, h2, _⟩ | ⟨_, _, _, h2, _⟩ | ⟨_, h2, _⟩ <;> rw [h2] <;> simp [hx]
  obtain ⟨hlt, hc⟩ := hc
  refine ⟨by rw [(step_cases h).1]; exact hlt, ?_⟩
  by_cases e : t = t0
  · subst e
    have now : m'.pc t = p' := by rw [hp, upd_same]
    rcases hc with ⟨h1, h2⟩ | h1 | ⟨h1, _⟩
    · unfold BufmapConc.step at h; rw [h1] at h; simp at h
    · rcases hk with ⟨h2, h3, _⟩ | ⟨id, r, h2, h3, h4⟩ | ⟨h2, h3, id, k, buf, x, p, h4, _⟩
      · exact .inr (.inl (by rw [now, h2, h1]))
      · rw [h1] at h2
        obtain rfl := Option.some.inj h2
        exact .inl ⟨by rw [now, h4], r, by rw [h3]; simp⟩
      · refine .inr (.inr ⟨by rw [now, h2], ?_, ?_⟩)
        · intro r hr
          rw [h3] at hr
          exact hI.ids.fresh t i h1 (List.mem_map.2 ⟨_, hr, rfl⟩)
        · intro t' ht'
          rw [hp] at ht'
          by_cases e : t' = t
          · subst e; rw [upd_same, h2] at ht'; simp [BufmapConc.PC.id] at ht'
          · rw [upd_other _ _ e] at ht'
            exact e (hI.ids.uniq t' t i ht' h1)
    · unfold BufmapConc.step at h; rw [h1] at h; simp at h
  · have now : m'.pc t = m.pc t := by rw [hp, upd_other _ _ e]
    rcases hc with ⟨h1, r, h2⟩ | h1 | ⟨h1, h2, h3⟩
    · exact .inl ⟨by rw [now, h1], r, hrets _ h2⟩
    · exact .inr (.inl (by rw [now, h1]))
    · refine .inr (.inr ⟨by rw [now, h1], ?_, ?_⟩)
      · intro r hr
        rcases hk with ⟨_, h4, _⟩ | ⟨id, r', h4, h5, _⟩ | ⟨_, h4, _⟩
        · rw [h4] at hr; exact h2 r hr
        · rw [h5, List.mem_append, List.mem_singleton] at hr
          rcases hr with hr | hr
          · exact h2 r hr
          · simp only [Prod.mk.injEq] at hr
            rw [← hr.1] at h4
            exact h3 t0 h4
        · rw [h4] at hr; exact h2 r hr
      · intro t' ht'
        rw [hp] at ht'
        by_cases e' : t' = t0
        · subst e'
          rw [upd_same] at ht'
          rcases hk with ⟨h4, _⟩ | ⟨id, r', _, _, h4⟩ | ⟨h4, _⟩
          · rw [h4] at ht'; exact h3 t' ht'
          · rw [h4] at ht'; simp [BufmapConc.PC.id] at ht'
          · rw [h4] at ht'; simp [BufmapConc.PC.id] at ht'
        · rw [upd_other _ _ e'] at ht'; exact h3 t' ht'

/-- another goroutine makes a call -/
theorem InCall.other {m : BufmapConc.State} {t0 : Nat} (op : Op) {t i : Nat} (he : t ≠ t0) (hc : InCall m t i) :
    InCall (BufmapConc.call m t0 op) t i := by
  obtain ⟨hlt, hc⟩ := hc
  have hinv := StoreConc.call_invs m t0 op
  have hpc : ∀ t', t' ≠ t0 → (BufmapConc.call m t0 op).pc t' = m.pc t' := by
    intro t' e
    unfold BufmapConc.call
    cases op with
    | upd k fn =>
      simp only
      split
      · rfl
      · exact upd_other _ _ e
    | get k buf => exact upd_other _ _ e
  have hrets : ∀ x, x ∈ (BufmapConc.call m t0 op).rets → x ∈ m.rets ∨ x.1 = m.invs.length := by
    intro x hx
    unfold BufmapConc.call at hx
    cases op with
    | upd k fn =>
      simp only at hx
      split at hx
      · rcases List.mem_append.1 hx with h | h
        · exact .inl h
        · exact .inr (by rw [List.mem_singleton.1 h])
      · exact .inl hx
    | get k buf => exact .inl hx
  have hid : ∀ j, ((BufmapConc.call m t0 op).pc t0).id = some j → (m.pc t0).id = some j ∨ j = m.invs.length := by
    intro j hj
    unfold BufmapConc.call at hj
    cases op with
    | upd k fn =>
      simp only at hj
      split at hj
      · exact .inl hj
      · simp only [upd_same, BufmapConc.PC.id, Option.some.injEq] at hj; exact .inr hj.symm
    | get k buf => simp only [upd_same, BufmapConc.PC.id, Option.some.injEq] at hj; exact .inr hj.symm
  refine ⟨by rw [hinv]; simp; omega, ?_⟩
  rcases hc with ⟨h1, r, h2⟩ | h1 | ⟨h1, h2, h3⟩
  · exact .inl ⟨by rw [hpc t he, h1], r, (call_rets m t0 op).subset h2⟩
  · exact .inr (.inl (by rw [hpc t he, h1]))
  · refine .inr (.inr ⟨by rw [hpc t he, h1], ?_, ?_⟩)
    · intro r hr
      rcases hrets _ hr with h | h
      · exact h2 r h
      · simp only at h; omega
    · intro t' ht'
      by_cases e : t' = t0
      · subst e
        rcases hid i ht' with h | h
        · exact h3 t' h
        · omega
      · rw [hpc t' e] at ht'; exact h3 t' ht'

/-- the call just made -/
theorem InCall.fresh {m : BufmapConc.State} {t : Nat} (hi : m.pc t = .idle) (op : Op) : InCall (BufmapConc.call m t op) t m.invs.length := by
  refine ⟨by rw [StoreConc.call_invs]; simp, ?_⟩
  unfold BufmapConc.call
  cases op with
  | upd k fn =>
    simp only
    split
    · exact .inl ⟨hi, _, List.mem_append_right _ (List.mem_singleton.2 rfl)⟩
    · exact .inr (.inl (by simp only [upd_same]; rfl))
  | get k buf => exact .inr (.inl (by simp only [upd_same]; rfl))

theorem InCall.returned {l s : Nat} {m : BufmapConc.State} (hI : BufmapConc.Inv l s m) {t i : Nat} (hc : InCall m t i) {r : BufmapConc.Ret}
    (hr : (i, r) ∈ m.rets) : m.pc t = .idle := by
  rcases hc.2 with ⟨h, _⟩ | h | ⟨_, h, _⟩
  · exact h
  · exact absurd (List.mem_map.2 ⟨_, hr, rfl⟩) (hI.ids.fresh t i h)
  · exact absurd hr (h r)

theorem link_init : Link confs init := by
  refine ⟨fun t s _ => rfl, ?_, ?_⟩
  · intro t s i h; simp [init, callOf] at h
  · intro t j p ls e r s h; simp [init] at h

/-- the stores hold good maps -/
theorem store_inv (hpos : ∀ c ∈ confs, 0 < c.slots) {σ : State} (hr : Steps env confs init σ) {s : Nat} {c : Conf} (hs : confs[s]? = some c) :
    BufmapConc.Inv c.slots c.coll.size.toNat (σ.stores s).m :=
  BufmapConc.inv_reach (hpos c (List.mem_of_getElem? hs)) (StoreConc.steps_m (steps_store hr hs))

theorem link_step (hpos : ∀ c ∈ confs, 0 < c.slots) {σ σ' : State} (hr : Steps env confs init σ) (hl : Link confs σ) (hs : Step env confs σ σ') :
    Link confs σ' := by
  have h := inv_reach hr
  -- goroutine `t` goes on outside the stores, having been in no store or being done there
  have out : ∀ (t : Nat) (p' : PC) (σ' : State), σ'.stores = σ.stores → σ'.pc = upd σ.pc t p' → (∀ s, (σ.stores s).m.pc t = .idle) → callOf p' = none →
      (∀ j p ls e r s, p' = .row j p ls e r s → s ≤ confs.length) → Link confs σ' := by
    intro t p' σ' h1 h2 h3 h4 h5
    refine ⟨?_, ?_, ?_⟩
    · intro t' s hn
      rw [h1]
      by_cases e : t' = t
      · subst e; exact h3 s
      · rw [h2, upd_other _ _ e] at hn; exact hl.idle t' s hn
    · intro t' s i hc
      rw [h1]
      by_cases e : t' = t
      · subst e; rw [h2, upd_same, h4] at hc; simp at hc
      · rw [h2, upd_other _ _ e] at hc; exact hl.call t' s i hc
    · intro t' j p ls e r s hp
      by_cases e : t' = t
      · subst e; rw [h2, upd_same] at hp; exact h5 _ _ _ _ _ _ hp
      · rw [h2, upd_other _ _ e] at hp; exact hl.le t' _ _ _ _ _ _ hp
  have noCall : ∀ (t : Nat) (p : PC), σ.pc t = p → callOf p = none → ∀ s, (σ.stores s).m.pc t = .idle := by
    intro t p e hn s
    exact hl.idle t s (by rw [e, hn]; simp)
  have back : ∀ (t s i : Nat) (c : Conf) (ret : Ret), callOf (σ.pc t) = some (s, i) → confs[s]? = some c → (i, ret) ∈ (σ.stores s).m.rets →
      ∀ s', (σ.stores s').m.pc t = .idle := by
    intro t s i c ret hc hs hr' s'
    by_cases e : s' = s
    · subst e; exact (hl.call t s' i hc).returned (store_inv hpos hr hs) hr'
    · refine hl.idle t s' (fun i' hc' => ?_)
      rw [hc] at hc'
      simp only [Option.some.injEq, Prod.mk.injEq] at hc'
      exact e hc'.1.symm
  have enter : ∀ (t s : Nat) (op : Op) (x : StoreConc.Call) (o : Nat × Nat) (p' : PC), (∀ s, (σ.stores s).m.pc t = .idle) →
      (σ.stores s).m.invs.length = (σ.stores s).calls.length → callOf p' = some (s, (σ.stores s).calls.length) →
      (∀ j p ls e r s, p' ≠ .row j p ls e r s) →
      Link confs (σ.enter t s ⟨BufmapConc.call (σ.stores s).m t op, (σ.stores s).calls ++ [x]⟩ o p') := by
    intro t s op x o p' hid hlen hcall hrow
    have hst : ∀ s', ((σ.enter t s ⟨BufmapConc.call (σ.stores s).m t op, (σ.stores s).calls ++ [x]⟩ o p').stores s').m =
        if s' = s then BufmapConc.call (σ.stores s).m t op else (σ.stores s').m := by
      intro s'
      unfold State.enter
      simp only
      split
      · next e => subst e; rw [upd_same]
      · next e => rw [upd_other _ _ e]
    have hpc : (σ.enter t s ⟨BufmapConc.call (σ.stores s).m t op, (σ.stores s).calls ++ [x]⟩ o p').pc = upd σ.pc t p' := rfl
    have hoth : ∀ t', t' ≠ t → (BufmapConc.call (σ.stores s).m t op).pc t' = (σ.stores s).m.pc t' := by
      intro t' e
      unfold BufmapConc.call
      cases op with
      | upd k fn =>
        simp only
        split
        · rfl
        · exact upd_other _ _ e
      | get k buf => exact upd_other _ _ e
    refine ⟨?_, ?_, ?_⟩
    · intro t' s' hn
      rw [hst]
      rw [hpc] at hn
      by_cases e : t' = t
      · subst e
        rw [upd_same] at hn
        split
        · next e' => subst e'; exact absurd hcall (hn _)
        · exact hid s'
      · rw [upd_other _ _ e] at hn
        split
        · next e' => subst e'; rw [hoth t' e]; exact hl.idle t' s' hn
        · exact hl.idle t' s' hn
    · intro t' s' i hc
      rw [hst]
      rw [hpc] at hc
      by_cases e : t' = t
      · subst e
        rw [upd_same, hcall] at hc
        simp only [Option.some.injEq, Prod.mk.injEq] at hc
        obtain ⟨rfl, rfl⟩ := hc
        rw [if_pos rfl, ← hlen]
        exact InCall.fresh (hid s) op
      · rw [upd_other _ _ e] at hc
        split
        · next e' => subst e'; exact (hl.call t' s' i hc).other op e
        · exact hl.call t' s' i hc
    · intro t' j p ls e r s' hp
      rw [hpc] at hp
      by_cases e : t' = t
      · subst e; rw [upd_same] at hp; exact absurd hp (hrow _ _ _ _ _ _)
      · rw [upd_other _ _ e] at hp; exact hl.le t' _ _ _ _ _ _ hp
  have clen : ∀ {s : Nat} {c : Conf}, confs[s]? = some c → (σ.stores s).m.invs.length = (σ.stores s).calls.length := by
    intro s c hs
    exact (StoreConc.callsOk_steps (StoreConc.callsOk_init env.lib c.coll) (steps_store hr hs)).len.symm
  cases hs with
  | receive t req ht =>
    have h0 := noCall t _ ht rfl
    unfold State.receive
    simp only
    split
    · exact out t .idle _ rfl rfl h0 rfl (by simp)
    · exact out t _ _ rfl rfl h0 rfl (by simp)
    · exact out t _ _ rfl rfl h0 rfl (by simp)
  | finish t j p e ht => exact out t .idle _ rfl rfl (noCall t _ ht rfl) rfl (by simp)
  | cancelLine t j p line ls e ht hc => exact out t .idle _ rfl rfl (noCall t _ ht rfl) rfl (by simp)
  | parse t j p line ls e ht =>
    have h0 := noCall t _ ht rfl
    unfold State.parse
    split
    · exact out t .idle _ rfl rfl h0 rfl (by simp)
    · exact out t .idle _ rfl rfl h0 rfl (by simp)
    · refine out t _ _ rfl rfl h0 rfl ?_
      intro j p ls e r s hp
      injection hp with _ _ _ _ _ hp
      omega
  | stored t j p ls e r ht => exact out t _ _ rfl rfl (noCall t _ ht rfl) rfl (by simp)
  | skip t j p ls e r s c ht hs hk =>
    refine out t _ _ rfl rfl (noCall t _ ht rfl) rfl ?_
    intro j p ls e r s' hp
    injection hp with _ _ _ _ _ hp
    have := (List.getElem?_eq_some_iff.1 hs).1
    omega
  | cancelWrite t j p ls e r s c k ht hs hk hc => exact out t .idle _ rfl rfl (noCall t _ ht rfl) rfl (by simp)
  | write t j p ls e r s c k fn ht hs hi hk hf => exact enter t s _ _ _ _ (noCall t _ ht rfl) (clen hs) rfl (by simp)
  | wrote t j p ls e r s i ret err ht hr' he =>
    have hp := h.pcs t
    rw [ht] at hp
    obtain ⟨_, _, _, _, _, _, _, _, _, _, _, ⟨c, hc⟩, _⟩ := hp
    have h0 := back t s i c ret (by rw [ht]; rfl) hc hr'
    split
    · refine out t _ _ rfl rfl h0 rfl ?_
      intro j p ls e r s' hp
      injection hp with _ _ _ _ _ hp
      have := (List.getElem?_eq_some_iff.1 hc).1
      omega
    · exact out t .idle _ rfl rfl h0 rfl (by simp)
  | noKey t j q s c ht hs hk => exact out t .idle _ rfl rfl (noCall t _ ht rfl) rfl (by simp)
  | noBuffer t j q s c k ht hs hk hn => exact out t .idle _ rfl rfl (noCall t _ ht rfl) rfl (by simp)
  | read t j q s c k ht hs hi hk hn => exact enter t s _ _ _ _ (noCall t _ ht rfl) (clen hs) rfl (by simp)
  | answer t j q s i c ret out' ht hs hr' ho =>
    exact out t .idle _ rfl rfl (back t s i c ret (by rw [ht]; rfl) hs hr') rfl (by simp)
  | inside t s c m' hs hm =>
    have hI := store_inv hpos hr hs
    have hst : ∀ s', ((upd σ.stores s ⟨m', (σ.stores s).calls⟩) s').m = if s' = s then m' else (σ.stores s').m := by
      intro s'
      split
      · next e => subst e; rw [upd_same]
      · next e => rw [upd_other _ _ e]
    refine ⟨?_, ?_, hl.le⟩
    · intro t' s' hn
      simp only
      rw [hst]
      have h0 := hl.idle t' s' hn
      split
      · next e =>
        subst e
        obtain ⟨p', hp, _⟩ := step_ids hm
        rw [hp]
        by_cases e : t' = t
        · subst e; unfold BufmapConc.step at hm; rw [h0] at hm; simp at hm
        · rw [upd_other _ _ e]; exact h0
      · exact h0
    · intro t' s' i hc
      simp only
      rw [hst]
      split
      · next e => subst e; exact (hl.call t' s' i hc).step hI hm
      · exact hl.call t' s' i hc

theorem link_reach (hpos : ∀ c ∈ confs, 0 < c.slots) {σ : State} (hr : Steps env confs init σ) : Link confs σ := by
  generalize hi : init = σ₀ at hr
  induction hr with
  | refl => subst hi; exact link_init
  | tail h0 h1 ih => subst hi; exact link_step hpos h0 ih h1

/-! ### requests are not lost -/

theorem tracked_reach {σ : State} (hr : Steps env confs init σ) : Tracked σ := by
  generalize hi : init = σ₀ at hr
  induction hr with
  | refl => subst hi; intro j hj; simp [init] at hj
  | @tail σ σ' h0 h1 ih =>
    subst hi
    have hx := ext_step h1
    -- a goroutine goes on, with the same request
    have goto : ∀ (t : Nat) (p' : PC) (σ' : State), σ'.reqs = σ.reqs → σ'.replies = σ.replies → σ'.pc = upd σ.pc t p' → job p' = job (σ.pc t) →
        Tracked σ' := by
      intro t p' σ' e1 e2 e3 e4 j hj
      rw [e1] at hj
      rcases ih j hj with ⟨rep, h⟩ | ⟨t', h⟩
      · exact .inl ⟨rep, by rw [e2]; exact h⟩
      · refine .inr ⟨t', ?_⟩
        rw [e3]
        by_cases e : t' = t
        · subst e; rw [upd_same, e4]; exact h
        · rw [upd_other _ _ e]; exact h
    have reply : ∀ (t j : Nat) (rep : Reply), job (σ.pc t) = some j → Tracked (σ.reply t j rep) := by
      intro t j rep hj i hi
      rcases ih i hi with ⟨rep', h⟩ | ⟨t', h⟩
      · exact .inl ⟨rep', List.mem_append_left _ h⟩
      · by_cases e : t' = t
        · subst e
          rw [hj] at h
          obtain rfl := Option.some.inj h
          exact .inl ⟨rep, List.mem_append_right _ (List.mem_singleton.2 rfl)⟩
        · refine .inr ⟨t', ?_⟩
          rw [show (σ.reply t j rep).pc = upd σ.pc t .idle from rfl, upd_other _ _ e]; exact h
    cases h1 with
    | receive t req ht =>
      have old : ∀ (p' : PC) (σ' : State), (∀ x, x ∈ σ.replies → x ∈ σ'.replies) → σ'.reqs = σ.reqs ++ [req] → σ'.pc = upd σ.pc t p' →
          ((∃ rep, (σ.reqs.length, rep) ∈ σ'.replies) ∨ job p' = some σ.reqs.length) → Tracked σ' := by
        intro p' σ' e2 e1 e3 e4 j hj
        rw [e1, List.length_append, List.length_singleton] at hj
        by_cases hjl : j < σ.reqs.length
        · rcases ih j hjl with ⟨rep, h⟩ | ⟨t', h⟩
          · exact .inl ⟨rep, e2 _ h⟩
          · refine .inr ⟨t', ?_⟩
            rw [e3]
            by_cases e : t' = t
            · subst e; rw [ht] at h; simp [job] at h
            · rw [upd_other _ _ e]; exact h
        · obtain rfl : j = σ.reqs.length := by omega
          rcases e4 with e4 | e4
          · exact .inl e4
          · exact .inr ⟨t, by rw [e3, upd_same]; exact e4⟩
      unfold State.receive
      simp only
      split
      · exact old .idle _ (fun x h => List.mem_append_left _ h) rfl rfl (.inl ⟨_, List.mem_append_right _ (List.mem_singleton.2 rfl)⟩)
      · exact old _ _ (fun x h => h) rfl rfl (.inr rfl)
      · exact old _ _ (fun x h => h) rfl rfl (.inr rfl)
    | finish t j p e ht => exact reply t j _ (by rw [ht]; rfl)
    | cancelLine t j p line ls e ht hc => exact reply t j _ (by rw [ht]; rfl)
    | parse t j p line ls e ht =>
      unfold State.parse
      split
      · exact reply t j _ (by rw [ht]; rfl)
      · exact reply t j _ (by rw [ht]; rfl)
      · exact goto t _ _ rfl rfl rfl (by rw [ht]; rfl)
    | stored t j p ls e r ht => exact goto t _ _ rfl rfl rfl (by rw [ht]; rfl)
    | skip t j p ls e r s c ht hs hk => exact goto t _ _ rfl rfl rfl (by rw [ht]; rfl)
    | cancelWrite t j p ls e r s c k ht hs hk hc => exact reply t j _ (by rw [ht]; rfl)
    | write t j p ls e r s c k fn ht hs hi hk hf => exact goto t _ _ rfl rfl rfl (by rw [ht]; rfl)
    | wrote t j p ls e r s i ret err ht hr he =>
      split
      · exact goto t _ _ rfl rfl rfl (by rw [ht]; rfl)
      · exact reply t j _ (by rw [ht]; rfl)
    | noKey t j q s c ht hs hk => exact reply t j _ (by rw [ht]; rfl)
    | noBuffer t j q s c k ht hs hk hn => exact reply t j _ (by rw [ht]; rfl)
    | read t j q s c k ht hs hi hk hn => exact goto t _ _ rfl rfl rfl (by rw [ht]; rfl)
    | answer t j q s i c ret out ht hs hr ho => exact reply t j _ (by rw [ht]; rfl)
    | inside t s c m' hs hm => exact ih

/-- only finitely many goroutines are at work -/
theorem busy_finite {σ : State} (hr : Steps env confs init σ) : ∃ B, ∀ t, B ≤ t → σ.pc t = .idle := by
  generalize hi : init = σ₀ at hr
  induction hr with
  | refl => subst hi; exact ⟨0, fun t _ => rfl⟩
  | @tail σ σ' h0 h1 ih =>
    subst hi
    obtain ⟨B, hB⟩ := ih
    have key : ∃ t p', σ'.pc = upd σ.pc t p' ∨ σ'.pc = σ.pc := by
      rcases step_move.1 h1 with ⟨t, req, ht, rfl⟩ | ⟨t, hm⟩
      · unfold State.receive
        simp only
        split
        · exact ⟨t, _, .inl rfl⟩
        · exact ⟨t, _, .inl rfl⟩
        · exact ⟨t, _, .inl rfl⟩
      · rcases move_cases (inv_reach h0) hm with ⟨s, c, m', _, _, rfl⟩ | ⟨⟨p', hp, _⟩, _⟩
        · exact ⟨t, .idle, .inr rfl⟩
        · exact ⟨t, p', .inl hp⟩
    obtain ⟨t, p', h | h⟩ := key
    · refine ⟨max B (t + 1), fun t' ht' => ?_⟩
      rw [h, upd_other _ _ (by omega)]
      exact hB t' (by omega)
    · exact ⟨B, fun t' ht' => by rw [h]; exact hB t' ht'⟩

/-! ### progress -/

theorem task_query_lt {req : Request} {s : Nat} {q : Query} (h : task env confs req = .query s q) : s < confs.length := by
  unfold task at h
  split at h
  · simp at h
  split at h
  · simp at h
  split at h
  · split at h
    · unfold observation at h
      split at h
      · simp at h
      · split at h
        · split at h
          · simp at h
          · simp [observeBody] at h
        · split at h
          · simp [observeBody] at h
          · simp at h
    · simp at h
  split at h
  · simp only at h
    split at h
    · simp at h
    split at h
    · simp at h
    split at h
    · simp at h
    unfold ServerConc.lookup at h
    split at h
    · simp at h
    · split at h
      · simp at h
      · next s' hs' =>
        injection h with e1 e2
        subst e1
        exact (List.findIdx?_eq_some_iff_getElem.1 hs').1
  · split at h <;> simp at h

/-- a goroutine that works on a request outside the stores can go on -/
theorem can_move {σ : State} (hpos : ∀ c ∈ confs, 0 < c.slots) (hr : Steps env confs init σ) {t : Nat} (hb : σ.pc t ≠ .idle)
    (hc : callOf (σ.pc t) = none) : ∃ σ', Move env confs t σ σ' := by
  have hl := link_reach hpos hr
  have h := inv_reach hr
  have hid : ∀ s, (σ.stores s).m.pc t = .idle := fun s => hl.idle t s (by rw [hc]; simp)
  cases hpc : σ.pc t with
  | idle => exact absurd hpc hb
  | lines j p ls e =>
    cases ls with
    | nil => exact ⟨_, .finish _ j p e hpc⟩
    | cons line ls => exact ⟨_, .parse _ j p line ls e hpc⟩
  | row j p ls e r s =>
    have hle := hl.le t _ _ _ _ _ _ hpc
    by_cases hs : s = confs.length
    · subst hs; exact ⟨_, .stored _ j p ls e r hpc⟩
    · have hc : confs[s]? = some confs[s] := List.getElem?_eq_getElem (by omega)
      cases hk : keyValue r.data confs[s].coll.keys with
      | none => exact ⟨_, .skip _ j p ls e r s _ hpc hc hk⟩
      | some k => exact ⟨_, .write _ j p ls e r s _ k _ hpc hc (hid s) hk (StoreConc.performs_rewrite env.lib confs[s].coll r)⟩
  | writing j p ls e r s i => rw [hpc] at hc; simp [callOf] at hc
  | ask j q s =>
    have hp := h.pcs t
    rw [hpc] at hp
    obtain ⟨req, _, htask⟩ := hp
    have hs : s < confs.length := task_query_lt htask
    have hc : confs[s]? = some confs[s] := List.getElem?_eq_getElem hs
    cases hk : keyValue q.criteria confs[s].coll.keys with
    | none => exact ⟨_, .noKey _ j q s _ hpc hc hk⟩
    | some k =>
      by_cases hn : confs[s].coll.size < 0
      · exact ⟨_, .noBuffer _ j q s _ k hpc hc hk hn⟩
      · exact ⟨_, .read _ j q s _ k hpc hc (hid s) hk (by omega)⟩
  | reading j q s i => rw [hpc] at hc; simp [callOf] at hc

end Starbow.ServerConc
