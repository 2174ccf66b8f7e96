import Verif.Proof.SeqlockLive
import Verif.Props.Seqlock
/-
Property C74: every call of a seqlock returns.
-/
namespace Starbow.Seqlock
open Starbow.Probe Starbow.Cell Starbow.Spec

/-- what a step does to the call in progress -/
theorem step_ids {n : Nat} {σ σ' : State} {t : Nat} (h : step n σ t = some σ') : ∃ p', σ'.pc = upd σ.pc t p' ∧
    ((p'.id = (σ.pc t).id ∧ σ'.rets = σ.rets) ∨ (∃ id r, (σ.pc t).id = some id ∧ σ'.rets = σ.rets ++ [(id, r)] ∧ p' = .idle)) := by
  unfold step at h
  cases hpc : σ.pc t with
  | idle => rw [hpc] at h; simp at h
  | w e p =>
    rw [hpc] at h
    simp only at h
    cases hst : wstep n t 0 e σ.cells p with
    | none => rw [hst] at h; simp at h
    | some cr =>
      obtain ⟨c, r⟩ := cr
      rw [hst] at h
      cases r with
      | go q => have h := Option.some.inj h; subst h; exact ⟨_, rfl, .inl ⟨rfl, rfl⟩⟩
      | ret err => have h := Option.some.inj h; subst h; exact ⟨_, rfl, .inr ⟨_, _, rfl, rfl, rfl⟩⟩
  | r id p =>
    rw [hpc] at h
    simp only at h
    split at h
    · have h := Option.some.inj h; subst h; exact ⟨_, rfl, .inl ⟨rfl, rfl⟩⟩
    · have h := Option.some.inj h; subst h; exact ⟨_, rfl, .inr ⟨_, _, rfl, rfl, rfl⟩⟩

/-- a call has returned or is in progress -/
def Tracked (σ : State) : Prop := ∀ id, id < σ.invs.length → (∃ r, (id, r) ∈ σ.rets) ∨ (∃ t, (σ.pc t).id = some id)

theorem tracked_step {n : Nat} {σ σ' : State} {t : Nat} (ht : Tracked σ) (h : step n σ t = some σ') : Tracked σ' := by
  intro id hop
  rw [(step_cases h).1] at hop
  obtain ⟨p', hp, hc⟩ := step_ids h
  have stay : ∀ t', t' ≠ t → σ'.pc t' = σ.pc t' := fun t' e => by rw [hp, upd_other _ _ e]
  have now : σ'.pc t = p' := by rw [hp, upd_same]
  have hrets : ∀ x, x ∈ σ.rets → x ∈ σ'.rets := by
    intro x hx
    rcases hc with ⟨_, h2⟩ | ⟨_, _, _, h2, _⟩ <;> rw [h2] <;> simp [hx]
  rcases ht id hop with ⟨r, hr⟩ | ⟨t', ht'⟩
  · exact .inl ⟨r, hrets _ hr⟩
  · by_cases e : t' = t
    · subst e
      rcases hc with ⟨h1, h2⟩ | ⟨id', r, h1, h2, h3⟩
      · exact .inr ⟨t', by rw [now, h1]; exact ht'⟩
      · rw [ht'] at h1
        obtain rfl := Option.some.inj h1
        exact .inl ⟨r, by rw [h2]; simp⟩
    · exact .inr ⟨t', by rw [stay t' e]; exact ht'⟩

theorem tracked_call {n : Nat} {σ : State} {t : Nat} (ht : Tracked σ) (hi : σ.pc t = .idle) (op : Op) : Tracked (call n σ t op) := by
  intro id hop
  have hlen : (call n σ t op).invs.length = σ.invs.length + 1 := by simp [call]
  rw [hlen] at hop
  by_cases hid : id < σ.invs.length
  · rcases ht id hid with ⟨r, hr⟩ | ⟨t', ht'⟩
    · exact .inl ⟨r, hr⟩
    · refine .inr ⟨t', ?_⟩
      have : t' ≠ t := by rintro rfl; rw [hi] at ht'; simp [PC.id] at ht'
      unfold call
      simp only
      rw [upd_other _ _ this]
      exact ht'
  · obtain rfl : id = σ.invs.length := by omega
    refine .inr ⟨t, ?_⟩
    unfold call
    simp only
    rw [upd_same]
    cases op <;> rfl

end Starbow.Seqlock

namespace Starbow.Props
open Starbow.Probe Starbow.Cell Starbow.Spec Starbow.Seqlock Starbow.Props.Seqlock

/-- **C74** (seqlock). Let any calls of Put, Update and Get be in progress or done, in any interleaving so far, with functions that do not
panic, and let no more calls be made. Then under every fair schedule all of them have returned, from some moment on. -/
theorem C74_seqlock (n : Nat) (σ : State) (hr : Steps n Starbow.Seqlock.init σ)
    (hb : ∀ fn, Op.update fn ∈ σ.invs → ∀ d, d.length = n → (fn d).2 ≠ .panic) (sched : Nat → Nat) (hf : Fair sched) :
    ∃ N, ∀ m, N ≤ m → ∀ id, id < σ.invs.length → ∃ r, (id, r) ∈ (runFrom (step n) sched σ m).rets := by
  have hL := live_reach hr hb
  obtain ⟨N, τ, hN, hd⟩ := all_done hL hb hf
  refine ⟨N, fun m hm id hid => ?_⟩
  have hinv := (run_live (sched := sched) hL hb m).2
  have hsteps : ∀ i, Steps n Starbow.Seqlock.init (runFrom (step n) sched σ i) := by
    intro i
    induction i with
    | zero => exact hr
    | succ i ih =>
      rw [runFrom]
      cases h : step n (runFrom (step n) sched σ i) (sched i) with
      | none => exact ih
      | some σ' => exact .tail ih (.step _ _ _ h)
  have htr : ∀ σ, Steps n Starbow.Seqlock.init σ → Tracked σ := by
    intro σ h
    generalize hi : Starbow.Seqlock.init = σ₀ at h
    induction h with
    | refl => subst hi; intro id h; simp [Seqlock.init] at h
    | tail h0 h1 ih =>
      cases h1 with
      | call t op h => exact tracked_call ih h op
      | step _ t h => exact tracked_step ih h
  have := hN m hm
  rcases htr _ (hsteps m) id (by rw [hinv]; exact hid) with h | ⟨t, h⟩
  · exact h
  · rw [this, hd t] at h
    simp [PC.id] at h

/-- the hypotheses are met: an Update and a Put, of which one waits for the mutex, and a Get that will have to retry -/
example : ∃ σ, Steps 2 Starbow.Seqlock.init σ ∧ σ.invs.length = 3 ∧ σ.rets = [] ∧
    (∀ fn, Op.update fn ∈ σ.invs → ∀ d, d.length = 2 → (fn d).2 ≠ .panic) ∧ step 2 σ 1 = none ∧ ∃ sched, Fair sched := by
  have h : ∃ σ, runSched 2 Starbow.Seqlock.init ([(2, some .get)] ++ Seqlock.steps 2 2 ++
      [(0, some (.update fun d => (d.set 0 (d.getD 0 0 + 1), .val none)))] ++ Seqlock.steps 0 3 ++ [(1, some (.put [1, 2]))]) = some σ ∧
      σ.rets = [] ∧ σ.invs = [.get, .update fun d => (d.set 0 (d.getD 0 0 + 1), .val none), .put [1, 2]] ∧
      (step 2 σ 1).isNone = true := by
    refine ⟨_, rfl, by decide, rfl, by decide⟩
  obtain ⟨σ, h1, h2, h3, h4⟩ := h
  refine ⟨σ, runSched_steps _ h1, by rw [h3]; rfl, h2, ?_, Option.isNone_iff_eq_none.1 h4, _, fair_unpair⟩
  intro fn hm
  rw [h3] at hm
  simp only [List.mem_cons, reduceCtorEq, Op.update.injEq, false_or, List.not_mem_nil, or_false] at hm
  subst hm
  intro d _
  simp

end Starbow.Props
