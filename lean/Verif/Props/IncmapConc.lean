import Verif.Proof.IncmapConc
/-
Property C39 (and C40 for incmap): concurrent increments.
-/
namespace Starbow.Props
open Starbow.IncmapConc Starbow.Probe Starbow.Spec

theorem IncmapConc.keys_grow {l : Nat} (hl : 0 < l) {σ σ' : State} (h : Inv l σ) (hs : Step l σ σ') :
    Grow σ.keys σ'.keys ∧ ∃ more, σ'.invs = σ.invs ++ more := by
  cases hs with
  | call t op ht =>
    constructor
    · have : (call σ t op).keys = σ.keys := by
        unfold call
        cases op with
        | inc k d => simp only; split <;> rfl
        | get k => rfl
      rw [this]; exact Grow.refl _
    · refine ⟨[op], ?_⟩
      unfold call
      cases op with
      | inc k d => simp only; split <;> rfl
      | get k => rfl
  | step _ t hs =>
    have ht := h.thr t
    unfold step at hs
    cases hpc : σ.pc t with
    | idle => rw [hpc] at hs; simp at hs
    | probe id k d p =>
      rw [hpc] at hs ht
      simp only at hs
      obtain ⟨hinv, hk, hp⟩ := ht
      obtain ⟨_, k2, _, _⟩ := probeStep_ok hl hk h.keys false hp
      generalize probeStep l k σ.keys false p = ps at *
      obtain ⟨keys, res⟩ := ps
      cases res <;> (have hs := Option.some.inj hs; subst hs; exact ⟨k2, [], by simp⟩)
    | add id k d x =>
      rw [hpc] at hs; have hs := Option.some.inj hs; subst hs; exact ⟨Grow.refl _, [], by simp⟩
    | look id k i =>
      rw [hpc] at hs
      simp only at hs
      split at hs <;> (have hs := Option.some.inj hs; subst hs; exact ⟨Grow.refl _, [], by simp⟩)
    | load id k x =>
      rw [hpc] at hs; have hs := Option.some.inj hs; subst hs; exact ⟨Grow.refl _, [], by simp⟩

/-- **C39**, the value: in every state reachable under any interleaving, the cell of a key holds the sum (mod 2^64)
of exactly the increments of that key whose Inc has returned true; each call returns at most once. -/
theorem C39_value (l : Nat) (hl : 0 < l) (σ : State) (hr : Steps l init σ) (k : U64) (hk : k ≠ 0) (x : Nat)
    (hx : x < l) (hkx : σ.keys x = k) :
    σ.vals x = total σ.invs σ.rets k ∧ (σ.rets.map (·.1)).Nodup ∧ ∀ y, y < l → σ.keys y = k → y = x := by
  have h := inv_reach hl hr
  refine ⟨?_, h.rnodup, ?_⟩
  · rw [← hkx]; exact h.val x hx (by rw [hkx]; exact hk)
  · intro y hy hky
    exact h.keys.unique hy hx (by rw [hky]; exact hk) (hky.trans hkx.symm)

/-- the result a step appends, if any -/
theorem IncmapConc.ret_cases {l : Nat} {σ σ' : State} (hs : Step l σ σ') {id : Nat} {v : U64}
    (hret : σ'.rets = σ.rets ++ [(id, .get v true)]) :
    ∃ t k x, σ.pc t = .load id k x ∧ v = σ.vals x := by
  have ne : ∀ (a b : List (Nat × Ret)) (r r' : Nat × Ret), a ++ [r] = a ++ [r'] → r = r' := by
    intro a b r r' e
    have := List.append_cancel_left e
    simpa using this
  cases hs with
  | call t op ht =>
    exfalso
    unfold call at hret
    cases op with
    | inc k d =>
      simp only at hret
      split at hret
      · have := ne _ [] _ _ hret; simp at this
      · have := congrArg List.length hret; simp at this
    | get k => have := congrArg List.length hret; simp at this
  | step _ t hs =>
    unfold step at hs
    cases hpc : σ.pc t with
    | idle => rw [hpc] at hs; simp at hs
    | probe id' k d p =>
      exfalso
      rw [hpc] at hs
      simp only at hs
      split at hs <;> (have hs := Option.some.inj hs; subst hs)
      · have := congrArg List.length hret; simp at this
      · have := congrArg List.length hret; simp at this
      · have := ne _ [] _ _ hret; simp at this
    | add id' k d x =>
      exfalso
      rw [hpc] at hs; have hs := Option.some.inj hs; subst hs
      have := ne _ [] _ _ hret; simp at this
    | look id' k i =>
      exfalso
      rw [hpc] at hs
      simp only at hs
      split at hs <;> (have hs := Option.some.inj hs; subst hs)
      · have := congrArg List.length hret; simp at this
      · have := ne _ [] _ _ hret; simp at this
      · have := congrArg List.length hret; simp at this
    | load id' k x =>
      rw [hpc] at hs; have hs := Option.some.inj hs; subst hs
      have := ne _ [] _ _ hret
      simp only [Prod.mk.injEq, Ret.get.injEq] at this
      refine ⟨t, k, x, ?_, this.2.1.symm⟩
      rw [hpc, this.1]

/-- **C39**, reading: a Get(k) that reports the key as found returns the sum of exactly the increments of `k` whose
Inc has returned true at that moment. -/
theorem C39_get (l : Nat) (hl : 0 < l) (σ σ' : State) (hr : Steps l init σ) (hs : Step l σ σ') (id : Nat) (k v : U64)
    (hk : k ≠ 0) (hcall : σ.invs[id]? = some (.get k)) (hret : σ'.rets = σ.rets ++ [(id, .get v true)]) :
    v = total σ.invs σ.rets k := by
  have h := inv_reach hl hr
  obtain ⟨t, k', x, hpc, hv⟩ := IncmapConc.ret_cases hs hret
  have ht := h.thr t
  rw [hpc] at ht
  have hkk : k' = k := by
    have := ht.1; rw [hcall] at this; injection (Option.some.inj this) with e; exact e.symm
  subst hkk
  have hkx := ht.2.2.resolve_left hk
  rw [hv, h.val x ht.2.1 (by rw [hkx]; exact hk), hkx]

/-- **C39**, refusals: an Inc that returned false was for key 0 or for a key whose 11 candidate slots are all held
by other keys. -/
theorem C39_refused (l : Nat) (hl : 0 < l) (σ : State) (hr : Steps l init σ) (id : Nat) (k d : U64)
    (hcall : σ.invs[id]? = some (.inc k d)) (hret : (id, .inc false) ∈ σ.rets) :
    k = 0 ∨ ∀ i, i ≤ 10 → σ.keys ((k.toNat + i) % l) ≠ 0 ∧ σ.keys ((k.toNat + i) % l) ≠ k := by
  have h := inv_reach hl hr
  obtain ⟨k', d', e, hp⟩ := (h.rok id _ hret).2.2 rfl
  rw [hcall] at e
  injection (Option.some.inj e) with e1 e2
  subst e1
  refine hp.imp_right ?_
  intro hp i hi
  have := hp i (by unfold maxReprobe; omega)
  unfold pos at this
  rwa [Nat.mod_add_mod] at this

/-- **C39**, consistency: Inc never succeeds for one call and fails for another of the same key. -/
theorem C39_consistent (l : Nat) (hl : 0 < l) (σ : State) (hr : Steps l init σ) (i j : Nat) (k d d' : U64)
    (hi : σ.invs[i]? = some (.inc k d)) (hj : σ.invs[j]? = some (.inc k d'))
    (ri : (i, .inc true) ∈ σ.rets) (rj : (j, .inc false) ∈ σ.rets) : False := by
  have h := inv_reach hl hr
  obtain ⟨k1, d1, e1, hk1, x, hx, hkx⟩ := (h.rok i _ ri).2.1 rfl
  rw [hi] at e1; injection (Option.some.inj e1) with e1 _; subst e1
  obtain ⟨k2, d2, e2, hp⟩ := (h.rok j _ rj).2.2 rfl
  rw [hj] at e2; injection (Option.some.inj e2) with e2 _; subst e2
  exact h.keys.absent_of_passed hk1 (hp.resolve_left hk1) x hx hkx

/-- **C40** for incmap: a non-zero key that Get reports as found was passed to some Inc. -/
theorem C40_incmap_partial (l : Nat) (hl : 0 < l) (σ σ' : State) (hr : Steps l init σ) (hs : Step l σ σ') (id : Nat)
    (k v : U64) (hk : k ≠ 0) (hcall : σ.invs[id]? = some (.get k)) (hret : σ'.rets = σ.rets ++ [(id, .get v true)]) :
    ∃ (j : Nat) (d : U64), σ.invs[j]? = some (.inc k d) := by
  have h := inv_reach hl hr
  obtain ⟨t, k', x, hpc, hv⟩ := IncmapConc.ret_cases hs hret
  have ht := h.thr t
  rw [hpc] at ht
  have hkk : k' = k := by
    have := ht.1; rw [hcall] at this; injection (Option.some.inj this) with e; exact e.symm
  subst hkk
  have hkx := ht.2.2.resolve_left hk
  have := h.asked x ht.2.1 (by rw [hkx]; exact hk)
  rwa [hkx] at this

/-- what is known about Gets of `k` started after a point at which `k` sat at its candidate `j` -/
structure Later (l : Nat) (n : Nat) (k : U64) (j : Nat) (σ : State) : Prop where
  here : σ.keys (pos l k j) = k
  look : ∀ t id i, σ.pc t = .look id k i → n ≤ id → i ≤ j
  ret : ∀ id v, (id, .get v false) ∈ σ.rets → n ≤ id → σ.invs[id]? ≠ some (.get k)

theorem Later.step {l n : Nat} (hl : 0 < l) {k : U64} (hk : k ≠ 0) {j : Nat} (hj : j ≤ maxReprobe) {σ σ' : State}
    (h : Inv l σ) (g : Later l n k j σ) (hs : Step l σ σ') : Later l n k j σ' := by
  obtain ⟨hgrow, more, hmore⟩ := IncmapConc.keys_grow hl h hs
  have hhere : σ'.keys (pos l k j) = k := by rw [hgrow _ (by rw [g.here]; exact hk)]; exact g.here
  have hret0 : ∀ id v, (id, Ret.get v false) ∈ σ.rets → n ≤ id → σ'.invs[id]? ≠ some (.get k) := by
    intro id v hm hn
    have hlt := (h.rok id _ hm).1
    rw [hmore, List.getElem?_append_left hlt]
    exact g.ret id v hm hn
  cases hs with
  | call t op ht =>
    refine ⟨hhere, ?_, ?_⟩
    · intro t' id i hpc hn
      by_cases he : t' = t
      · subst he
        unfold call at hpc
        cases op with
        | inc k' d =>
          simp only at hpc
          split at hpc
          · rw [show ({ σ with invs := σ.invs ++ [Op.inc k' d], rets := σ.rets ++ [(σ.invs.length, Ret.inc false)] } : State).pc t' = σ.pc t' from rfl, ht] at hpc
            simp at hpc
          · simp only [upd_same] at hpc; simp at hpc
        | get k' =>
          simp only [upd_same] at hpc
          injection hpc with _ _ e
          omega
      · have : (call σ t op).pc t' = σ.pc t' := by
          unfold call
          cases op with
          | inc k' d =>
            simp only; split
            · rfl
            · simp only; rw [upd_other _ _ he]
          | get k' => simp only; rw [upd_other _ _ he]
        rw [this] at hpc
        exact g.look t' id i hpc hn
    · intro id v hm hn
      apply hret0 id v _ hn
      unfold call at hm
      cases op with
      | inc k' d =>
        simp only at hm
        split at hm
        · rcases List.mem_append.mp hm with hm | hm
          · exact hm
          · simp at hm
        · exact hm
      | get k' => exact hm
  | step _ t hs =>
    have ht := h.thr t
    -- everything except what goroutine t does
    have others : ∀ p : PC, σ'.pc = upd σ.pc t p → (∀ id i, p = .look id k i → n ≤ id → i ≤ j) →
        ∀ t' id i, σ'.pc t' = .look id k i → n ≤ id → i ≤ j := by
      intro p hp hself t' id i hpc hn
      rw [hp] at hpc
      by_cases he : t' = t
      · subst he; rw [upd_same] at hpc; exact hself id i hpc hn
      · rw [upd_other _ _ he] at hpc; exact g.look t' id i hpc hn
    have rets1 : ∀ r : Nat × Ret, σ'.rets = σ.rets ++ [r] →
        (∀ id v, r = (id, .get v false) → n ≤ id → σ'.invs[id]? ≠ some (.get k)) →
        ∀ id v, (id, Ret.get v false) ∈ σ'.rets → n ≤ id → σ'.invs[id]? ≠ some (.get k) := by
      intro r hr hself id v hm hn
      rw [hr] at hm
      rcases List.mem_append.mp hm with hm | hm
      · exact hret0 id v hm hn
      · exact hself id v (List.mem_singleton.mp hm).symm hn
    have rets0 : σ'.rets = σ.rets →
        ∀ id v, (id, Ret.get v false) ∈ σ'.rets → n ≤ id → σ'.invs[id]? ≠ some (.get k) := by
      intro hr id v hm hn
      rw [hr] at hm; exact hret0 id v hm hn
    unfold IncmapConc.step at hs
    cases hpc : σ.pc t with
    | idle => rw [hpc] at hs; simp at hs
    | probe id' k' d p =>
      rw [hpc] at hs
      simp only at hs
      split at hs <;> (have hs := Option.some.inj hs; subst hs)
      · exact ⟨hhere, others _ rfl (by intro _ _ e; simp at e), rets0 rfl⟩
      · exact ⟨hhere, others _ rfl (by intro _ _ e; simp at e), rets0 rfl⟩
      · exact ⟨hhere, others _ rfl (by intro _ _ e; simp at e), rets1 _ rfl (by intro _ _ e; simp at e)⟩
    | add id' k' d x =>
      rw [hpc] at hs; have hs := Option.some.inj hs; subst hs
      exact ⟨hhere, others _ rfl (by intro _ _ e; simp at e), rets1 _ rfl (by intro _ _ e; simp at e)⟩
    | load id' k' x =>
      rw [hpc] at hs; have hs := Option.some.inj hs; subst hs
      exact ⟨hhere, others _ rfl (by intro _ _ e; simp at e), rets1 _ rfl (by intro _ _ e; simp at e)⟩
    | look id' k' i' =>
      rw [hpc] at hs ht
      simp only at hs
      obtain ⟨hinv, hi⟩ := ht
      unfold lookStep at hs
      by_cases h1 : σ.keys (pos l k' i') = k'
      · rw [if_pos h1] at hs
        have hs := Option.some.inj hs; subst hs
        exact ⟨hhere, others _ rfl (by intro _ _ e; simp at e), rets0 rfl⟩
      · rw [if_neg h1] at hs
        have hstrict : k' = k → n ≤ id' → i' < j := by
          intro e hn
          subst e
          have := g.look t id' i' hpc hn
          rcases Nat.lt_or_eq_of_le this with h2 | h2
          · exact h2
          · subst h2; exact absurd g.here h1
        by_cases h2 : i' + 1 > maxReprobe
        · rw [if_pos h2] at hs
          have hs := Option.some.inj hs; subst hs
          refine ⟨hhere, others _ rfl (by intro _ _ e; simp at e), rets1 _ rfl ?_⟩
          intro id v e hn hbad
          simp only [Prod.mk.injEq] at e
          rw [← e.1] at hbad hn
          have hbad : σ.invs[id']? = some (.get k) := hbad
          rw [hinv] at hbad
          injection (Option.some.inj hbad) with e'
          have := hstrict e' hn
          omega
        · rw [if_neg h2] at hs
          have hs := Option.some.inj hs; subst hs
          refine ⟨hhere, others _ rfl ?_, rets0 rfl⟩
          intro id i e hn
          injection e with e1 e2 e3
          subst e1; subst e3
          exact hstrict e2 hn

/-- **C39**, absence: a Get(k) that reports not-found was called before any Inc of `k` had returned true. -/
theorem C39_get_absent (l : Nat) (hl : 0 < l) (σ σ' : State) (hr : Steps l init σ) (hs : Steps l σ σ')
    (id j : Nat) (k v d : U64) (hk : k ≠ 0)
    (hinc : σ.invs[j]? = some (.inc k d)) (hdone : (j, .inc true) ∈ σ.rets)
    (hlater : σ.invs.length ≤ id) (hcall : σ'.invs[id]? = some (.get k)) : (id, .get v false) ∉ σ'.rets := by
  have h := inv_reach hl hr
  obtain ⟨k1, d1, e1, hk1, x, hx, hkx⟩ := (h.rok j _ hdone).2.1 rfl
  rw [hinc] at e1; injection (Option.some.inj e1) with e1 _; subst e1
  obtain ⟨i, hi, hp, _⟩ := h.keys x hx (by rw [hkx]; exact hk)
  rw [hkx] at hp
  have g0 : Later l σ.invs.length k i σ := by
    refine ⟨by rw [hp]; exact hkx, ?_, ?_⟩
    · intro t id i hpc hn
      have := (h.thr t).id_lt (id := id) (by rw [hpc]; rfl)
      omega
    · intro id v hm hn
      have := (h.rok id _ hm).1
      omega
  have : Inv l σ' ∧ Later l σ.invs.length k i σ' := by
    clear hcall
    induction hs with
    | refl => exact ⟨h, g0⟩
    | tail _ h1 ih => exact ⟨inv_one hl ih.1 h1, Later.step hl hk hi ih.1 ih.2 h1⟩
  intro hm
  exact this.2.ret id v hm hlater hcall

/-- A concrete run: goroutines 0 and 1 both increment key 7 in a map of 4 slots, racing for the same slot (goroutine 1
loses the compare-and-swap); goroutine 2 then reads 12. -/
def demoRun : List (Nat × Option Op) :=
  [(0, some (.inc 7 5)), (1, some (.inc 7 7)), (0, none), (1, none), (0, none), (1, none), (1, none), (1, none), (0, none),
   (2, some (.get 7)), (2, none), (2, none)]

/-- execute a schedule: `some op` starts a call, `none` is one step -/
def runSched (l : Nat) (σ : State) : List (Nat × Option Op) → Option State
  | [] => some σ
  | (t, some op) :: rest => if σ.pc t = .idle then runSched l (call σ t op) rest else none
  | (t, none) :: rest =>
    match step l σ t with
    | some σ' => runSched l σ' rest
    | none => none

theorem steps_append {l : Nat} {a b c : State} (h : Steps l a b) (h' : Steps l b c) : Steps l a c := by
  induction h' with
  | refl => exact h
  | tail _ s ih => exact .tail ih s

theorem runSched_steps {l : Nat} : ∀ (sch : List (Nat × Option Op)) {σ σ' : State}, runSched l σ sch = some σ' →
    Steps l σ σ' := by
  intro sch
  induction sch with
  | nil => intro σ σ' h; rw [← Option.some.inj h]; exact .refl _
  | cons a sch ih =>
    intro σ σ' h
    obtain ⟨t, op⟩ := a
    cases op with
    | some op =>
      unfold runSched at h
      split at h
      · rename_i hpc
        exact steps_append (.tail (.refl _) (.call σ t op hpc)) (ih h)
      · simp at h
    | none =>
      unfold runSched at h
      cases hs : step l σ t with
      | none => rw [hs] at h; simp at h
      | some σ1 =>
        rw [hs] at h
        exact steps_append (.tail (.refl _) (.step σ σ1 t hs)) (ih h)

example : ∃ σ, Steps 4 init σ ∧ σ.rets = [(1, .inc true), (0, .inc true), (2, .get 12 true)] ∧ σ.keys 3 = 7 := by
  have h : ∃ σ, runSched 4 init demoRun = some σ ∧
      σ.rets = [(1, .inc true), (0, .inc true), (2, .get 12 true)] ∧ σ.keys 3 = 7 := by
    refine ⟨_, rfl, by decide, by decide⟩
  obtain ⟨σ, h1, h2, h3⟩ := h
  exact ⟨σ, runSched_steps _ h1, h2, h3⟩

end Starbow.Props
