import Verif.Props.IncmapConc
/-
Property C75: calls of an incmap are wait-free.
-/
namespace Starbow.IncmapConc
open Starbow.Probe Starbow.Spec

/-- own steps a call may still need -/
def own : PC → Nat
  | .idle => 0
  | .probe _ _ _ (.load i) => 3 * (maxReprobe - i) + 4
  | .probe _ _ _ (.cas i) => 3 * (maxReprobe - i) + 3
  | .probe _ _ _ (.reload i) => 3 * (maxReprobe - i) + 2
  | .add .. => 1
  | .look _ _ i => (maxReprobe - i) + 2
  | .load .. => 1

/-- what a step does to the call in progress -/
theorem step_own {l : Nat} {σ σ' : State} {t : Nat} (hI : Inv l σ) (h : step l σ t = some σ') : ∃ p', σ'.pc = upd σ.pc t p' ∧
    ((p'.id = (σ.pc t).id ∧ σ'.rets = σ.rets ∧ own p' + 1 ≤ own (σ.pc t)) ∨
     ∃ id r, (σ.pc t).id = some id ∧ σ'.rets = σ.rets ++ [(id, r)]) := by
  have ht := hI.thr t
  unfold step at h
  cases hpc : σ.pc t with
  | idle => rw [hpc] at h; simp at h
  | probe id k d p =>
    rw [hpc] at h ht
    simp only at h
    have hk := ht.2.2
    cases p with
    | load i =>
      have hi : i ≤ maxReprobe := hk.1
      rw [probeStep] at h
      split at h <;> rename_i heq
      · split at heq
        · simp at heq
        · split at heq <;>
          · simp only [Prod.mk.injEq, PRes.go.injEq] at heq
            have h := Option.some.inj h
            subst h
            refine ⟨_, rfl, .inl ⟨rfl, rfl, ?_⟩⟩
            rw [← heq.2.1]; simp only [own]; omega
      · have h := Option.some.inj h
        subst h
        exact ⟨_, rfl, .inl ⟨rfl, rfl, by simp only [own]; omega⟩⟩
      · have h := Option.some.inj h
        subst h
        exact ⟨_, rfl, .inr ⟨id, _, rfl, rfl⟩⟩
    | cas i =>
      have hi : i ≤ maxReprobe := hk.1
      rw [probeStep] at h
      split at h <;> rename_i heq
      · split at heq
        · simp at heq
        · simp only [Prod.mk.injEq, PRes.go.injEq] at heq
          have h := Option.some.inj h
          subst h
          refine ⟨_, rfl, .inl ⟨rfl, rfl, ?_⟩⟩
          rw [← heq.2.1]; simp only [own]; omega
      · have h := Option.some.inj h
        subst h
        exact ⟨_, rfl, .inl ⟨rfl, rfl, by simp only [own]; omega⟩⟩
      · have h := Option.some.inj h
        subst h
        exact ⟨_, rfl, .inr ⟨id, _, rfl, rfl⟩⟩
    | reload i =>
      have hi : i ≤ maxReprobe := hk.1
      rw [probeStep] at h
      split at h <;> rename_i heq
      · split at heq
        · simp at heq
        · split at heq
          · simp at heq
          · next hlt =>
            simp only [Prod.mk.injEq, PRes.go.injEq] at heq
            have h := Option.some.inj h
            subst h
            refine ⟨_, rfl, .inl ⟨rfl, rfl, ?_⟩⟩
            rw [← heq.2.1]; simp only [own]; omega
      · have h := Option.some.inj h
        subst h
        exact ⟨_, rfl, .inl ⟨rfl, rfl, by simp only [own]; omega⟩⟩
      · have h := Option.some.inj h
        subst h
        exact ⟨_, rfl, .inr ⟨id, _, rfl, rfl⟩⟩
  | add id k d x =>
    rw [hpc] at h
    have h := Option.some.inj h
    subst h
    exact ⟨_, rfl, .inr ⟨id, _, rfl, rfl⟩⟩
  | look id k i =>
    rw [hpc] at h ht
    simp only [lookStep] at h
    split at h <;> rename_i heq
    · have h := Option.some.inj h
      subst h
      exact ⟨_, rfl, .inl ⟨rfl, rfl, by simp only [own]; omega⟩⟩
    · have h := Option.some.inj h
      subst h
      exact ⟨_, rfl, .inr ⟨id, _, rfl, rfl⟩⟩
    · split at heq
      · simp at heq
      · split at heq
        · simp at heq
        · next hlt =>
          simp only [Sum.inr.injEq, Option.some.injEq] at heq
          have h := Option.some.inj h
          subst h
          refine ⟨_, rfl, .inl ⟨rfl, rfl, ?_⟩⟩
          rw [← heq]; simp only [own]; omega
  | load id k x =>
    rw [hpc] at h
    have h := Option.some.inj h
    subst h
    exact ⟨_, rfl, .inr ⟨id, _, rfl, rfl⟩⟩

theorem rets_grow {l : Nat} {σ σ' : State} (hI : Inv l σ) (h : Step l σ σ') {x : Nat × Ret} (hx : x ∈ σ.rets) : x ∈ σ'.rets := by
  cases h with
  | call t op h => unfold call; cases op <;> simp only <;> (try split) <;> simp [hx]
  | step _ t h =>
    obtain ⟨_, _, ⟨_, h, _⟩ | ⟨_, _, _, h⟩⟩ := step_own hI h <;> rw [h] <;> simp [hx]

end Starbow.IncmapConc

namespace Starbow.Props
open Starbow.Probe Starbow.Spec Starbow.IncmapConc

/-- A call that needs at most `own` more steps has returned after that many steps of its goroutine. -/
theorem returns_of_own (l : Nat) (hl : 0 < l) (t id : Nat) : ∀ (sch : List (Nat × Option Op)) (σ σ' : State), Steps l init σ →
    ((∃ r, (id, r) ∈ σ.rets) ∨ ((σ.pc t).id = some id ∧ own (σ.pc t) ≤ sch.count (t, none))) → runSched l σ sch = some σ' →
    ∃ r, (id, r) ∈ σ'.rets := by
  intro sch
  induction sch with
  | nil =>
    intro σ σ' hr hc h
    obtain rfl := Option.some.inj h
    rcases hc with h | ⟨h1, h2⟩
    · exact h
    · exfalso
      simp only [List.count_nil, Nat.le_zero] at h2
      cases hp : σ.pc t with
      | idle => rw [hp] at h1; simp [PC.id] at h1
      | probe id k d p => rw [hp] at h2; cases p <;> simp [own] at h2
      | add => rw [hp] at h2; simp [own] at h2
      | look => rw [hp] at h2; simp [own] at h2
      | load => rw [hp] at h2; simp [own] at h2
  | cons a sch ih =>
    intro σ σ' hr hc h
    have hI := inv_reach hl hr
    obtain ⟨t', o⟩ := a
    cases o with
    | some op =>
      unfold runSched at h
      split at h
      · next hidle =>
        have hs : Step l σ (call σ t' op) := .call σ t' op hidle
        refine ih _ _ (.tail hr hs) ?_ h
        rcases hc with ⟨r, hc⟩ | ⟨h1, h2⟩
        · exact .inl ⟨r, rets_grow hI hs hc⟩
        · right
          have hne : t ≠ t' := by rintro rfl; rw [hidle] at h1; simp [PC.id] at h1
          have hpc : (call σ t' op).pc t = σ.pc t := by
            unfold call
            cases op with
            | inc k d => simp only; split <;> simp [upd_other _ _ hne]
            | get k => simp only; rw [upd_other _ _ hne]
          rw [hpc]
          rw [List.count_cons_of_ne (by simp)] at h2
          exact ⟨h1, h2⟩
      · simp at h
    | none =>
      unfold runSched at h
      cases hst : step l σ t' with
      | none => rw [hst] at h; simp at h
      | some σ1 =>
        rw [hst] at h
        simp only at h
        have hs : Step l σ σ1 := .step σ σ1 t' hst
        refine ih _ _ (.tail hr hs) ?_ h
        rcases hc with ⟨r, hc⟩ | ⟨h1, h2⟩
        · exact .inl ⟨r, rets_grow hI hs hc⟩
        · obtain ⟨p', hp, hcase⟩ := step_own hI hst
          by_cases e : t' = t
          · subst e
            rw [List.count_cons_self] at h2
            rcases hcase with ⟨h3, h4, h5⟩ | ⟨id', r, h3, h4⟩
            · right
              rw [hp, upd_same]
              exact ⟨h3.trans h1, by omega⟩
            · left
              rw [h1] at h3
              obtain rfl := Option.some.inj h3
              exact ⟨r, by rw [h4]; simp⟩
          · right
            rw [hp, upd_other _ _ (Ne.symm e)]
            rw [List.count_cons_of_ne (by simp [e])] at h2
            exact ⟨h1, h2⟩

/-- **C75**. Whatever the other goroutines do meanwhile (calls of their own, in any interleaving, or nothing for ever), an Inc has returned
once its goroutine has made 34 atomic operations since the call, and a Get after 12. -/
theorem C75_wait_free (l : Nat) (hl : 0 < l) (σ : State) (hr : Steps l init σ) (t : Nat) (hi : σ.pc t = .idle) (op : Op)
    (sch : List (Nat × Option Op)) (σ' : State) (h : runSched l (call σ t op) sch = some σ')
    (hn : (if ∃ k d, op = .inc k d then 34 else 12) ≤ sch.count (t, none)) : ∃ r, (σ.invs.length, r) ∈ σ'.rets := by
  have hs : Step l σ (call σ t op) := .call σ t op hi
  refine returns_of_own l hl t σ.invs.length sch _ σ' (.tail hr hs) ?_ h
  unfold call
  cases op with
  | inc k d =>
    rw [if_pos ⟨k, d, rfl⟩] at hn
    simp only
    split
    · exact .inl ⟨.inc false, by simp⟩
    · right
      simp only [upd_same, own, PC.id, maxReprobe]
      exact ⟨trivial, by omega⟩
  | get k =>
    rw [if_neg (by simp)] at hn
    right
    simp only [upd_same, own, PC.id, maxReprobe]
    exact ⟨trivial, by omega⟩

/-- **C75** is sharp: a Get may need all 12 operations: key 12 is found at the eleventh place, if others have filled the ten before -/
def longGet : List (Nat × Option Op) :=
  ((List.range 11).flatMap fun i => (0, some (Op.inc (BitVec.ofNat 64 (12 + 12 * i)) 1)) :: List.replicate (3 + 2 * i) (0, none))

set_option maxRecDepth 100000 in
example : ∃ σ σ' σ'', Steps 12 init σ ∧ σ.pc 1 = .idle ∧ runSched 12 (call σ 1 (.get 132)) (List.replicate 11 (1, none)) = some σ' ∧
    σ'.rets = σ.rets ∧ step 12 σ' 1 = some σ'' ∧ σ''.rets = σ.rets ++ [(11, .get 1 true)] := by
  have h : ∃ σ σ' σ'', runSched 12 init longGet = some σ ∧ σ.pc 1 = .idle ∧
      runSched 12 (call σ 1 (.get 132)) (List.replicate 11 (1, none)) = some σ' ∧
    σ'.rets = σ.rets ∧ step 12 σ' 1 = some σ'' ∧ σ''.rets = σ.rets ++ [(11, .get 1 true)] :=
    ⟨_, _, _, rfl, by decide, rfl, by decide, rfl, by decide⟩
  obtain ⟨σ, σ', σ'', h1, h2⟩ := h
  exact ⟨σ, σ', σ'', runSched_steps _ h1, h2⟩

end Starbow.Props
