import Verif.Model.Cell
/-
Vocabulary for "every call returns": infinite runs under a fair scheduler.
-/
namespace Starbow.Spec
open Starbow.Cell

/-- a schedule (which goroutine has its turn at time `i`) is fair if every goroutine gets a turn again and again -/
def Fair (sched : Nat → Nat) : Prop := ∀ t n, ∃ i, n ≤ i ∧ sched i = t

/-- The states of the run from `σ` under a schedule in which no new calls are made. The goroutine whose turn it is makes its next step, if it
can; if it cannot (it is idle, or waits for a mutex somebody holds), nothing happens. -/
def runFrom {S : Type} (step : S → Nat → Option S) (sched : Nat → Nat) (σ : S) : Nat → S
  | 0 => σ
  | i + 1 => (step (runFrom step sched σ i) (sched i)).getD (runFrom step sched σ i)

/-- a function passed to Update that neither panics nor writes outside the buffer of `s` bytes it is given -/
def Benign (s : Nat) (fn : CFn) : Prop :=
  ∀ d init, d.length = s → (∀ w ∈ (fn d init).1, w.1 < s) ∧ (fn d init).2 ≠ .panic

/-- The slots where `k` is (for key 0, which is no key and is "found" in empty slots: its 11 candidates) are among those from which Get can copy: in a map
of `l` slots of `s` bytes, where the slots hold `keys`, the expression `values[x*s : x*(s+1)]` of bufmap.go:76 stays inside the array. -/
def Readable (l s : Nat) (keys : Nat → U64) (k : U64) : Prop := ∀ x, x < l → (k = 0 ∧ x ≤ 10 ∨ k ≠ 0 ∧ keys x = k) → x * (s + 1) ≤ l * s

end Starbow.Spec
