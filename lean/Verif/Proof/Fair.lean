import Verif.Spec.Fair
import Mathlib.Order.WellFounded
import Mathlib.Algebra.BigOperators.Group.Finset.Basic
import Mathlib.Algebra.Order.BigOperators.Group.Finset
import Mathlib.Data.Nat.Pairing
import Verif.Proof.Cell
/- Termination under fair schedules. -/
namespace Starbow.Spec
open Starbow.Probe Starbow.Cell

/-- A run of states with a well-founded measure that never grows, that drops when a goroutine that is enabled has its turn, where a
goroutine that is enabled remains so until the measure drops, reaches a state where nobody is enabled. -/
theorem fair_done {S α : Type} {r : α → α → Prop} (wf : WellFounded r) (run : Nat → S) (sched : Nat → Nat) (hf : Fair sched) (μ : S → α)
    (En : S → Nat → Prop) (hle : ∀ i, μ (run (i + 1)) = μ (run i) ∨ r (μ (run (i + 1))) (μ (run i)))
    (hkeep : ∀ i t, μ (run (i + 1)) = μ (run i) → En (run i) t → En (run (i + 1)) t)
    (hlt : ∀ i, En (run i) (sched i) → r (μ (run (i + 1))) (μ (run i))) : ∃ i, ∀ t, ¬ En (run i) t := by
  have key : ∀ a : α, ∀ n, μ (run n) = a → ∃ i, ∀ t, ¬ En (run i) t := by
    intro a
    induction a using wf.induction with
    | _ a ih =>
      intro n hn
      by_cases hd : ∀ t, ¬ En (run n) t
      · exact ⟨n, hd⟩
      · simp only [not_forall, Classical.not_not] at hd
        obtain ⟨t, ht⟩ := hd
        obtain ⟨i, hi, hs⟩ := hf t n
        -- either the measure dropped on the way or the goroutine is still enabled
        have walk : ∀ d, (∃ m, r (μ (run m)) a) ∨ (μ (run (n + d)) = a ∧ En (run (n + d)) t) := by
          intro d
          induction d with
          | zero => exact .inr ⟨hn, ht⟩
          | succ d ihd =>
            rcases ihd with h | ⟨h1, h2⟩
            · exact .inl h
            · rcases hle (n + d) with h | h
              · exact .inr ⟨h.trans h1, hkeep _ _ h h2⟩
              · exact .inl ⟨n + d + 1, h1 ▸ h⟩
        rcases walk (i - n) with ⟨m, h⟩ | ⟨h1, h2⟩
        · exact ih _ h m rfl
        · rw [show n + (i - n) = i by omega] at h1 h2
          exact ih _ (h1 ▸ hlt i (hs ▸ h2)) (i + 1) rfl
  exact key _ 0 rfl

theorem runFrom_add {S : Type} (step : S → Nat → Option S) (sched : Nat → Nat) (σ : S) (n i : Nat) :
    runFrom step sched σ (n + i) = runFrom step (fun j => sched (n + j)) (runFrom step sched σ n) i := by
  induction i with
  | zero => rfl
  | succ i ih => rw [← Nat.add_assoc, runFrom, runFrom, ih]

theorem Fair.shift {sched : Nat → Nat} (h : Fair sched) (n : Nat) : Fair fun j => sched (n + j) := by
  intro t m
  obtain ⟨i, hi, hs⟩ := h t (n + m)
  exact ⟨i - n, by omega, by simp only; rw [show n + (i - n) = i by omega]; exact hs⟩

/-- one goroutine's part of a sum -/
theorem sum_upd {β : Type} (f : β → Nat) (pc : Nat → β) (t : Nat) (p : β) (T : Nat) (ht : t < T) :
    (∑ i ∈ Finset.range T, f (upd pc t p i)) + f (pc t) = (∑ i ∈ Finset.range T, f (pc i)) + f p := by
  rw [← Finset.add_sum_erase _ _ (Finset.mem_range.2 ht), ← Finset.add_sum_erase _ (fun i => f (pc i)) (Finset.mem_range.2 ht), upd_same]
  rw [Finset.sum_congr rfl fun i hi => by rw [upd_other _ _ (Finset.ne_of_mem_erase hi)]]
  omega

/-- a state in which nobody can move stays -/
theorem runFrom_stuck {S : Type} (step : S → Nat → Option S) (sched : Nat → Nat) (σ : S) (h : ∀ t, step σ t = none) (n : Nat) :
    runFrom step sched σ n = σ := by
  induction n with
  | zero => rfl
  | succ n ih => rw [runFrom, ih, h]; rfl

/-- there are fair schedules of all goroutines -/
theorem fair_unpair : Fair fun i => (Nat.unpair i).1 := fun t n => ⟨Nat.pair t n, Nat.right_le_pair t n, by simp⟩

end Starbow.Spec
