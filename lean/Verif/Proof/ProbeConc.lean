import Verif.Model.ProbeConc
import Verif.Proof.Probe
namespace Starbow.Probe

/-- keys are never changed or removed once stored -/
def Grow (keys keys' : Nat → U64) : Prop := ∀ x, keys x ≠ 0 → keys' x = keys x

theorem Grow.refl (keys : Nat → U64) : Grow keys keys := fun _ _ => rfl
theorem Grow.trans {a b c : Nat → U64} (h : Grow a b) (h' : Grow b c) : Grow a c := by
  intro x hx
  rw [h' x (by rw [h x hx]; exact hx), h x hx]

/-- the first `i` candidates are held by other keys -/
def Passed (l : Nat) (k : U64) (keys : Nat → U64) (i : Nat) : Prop :=
  ∀ j, j < i → keys (pos l k j) ≠ 0 ∧ keys (pos l k j) ≠ k

theorem Passed.mono {l : Nat} {k : U64} {keys keys' : Nat → U64} {i : Nat} (h : Passed l k keys i)
    (g : Grow keys keys') : Passed l k keys' i := by
  intro j hj
  rw [g _ (h j hj).1]; exact h j hj

def ProbeOk (l : Nat) (k : U64) (keys : Nat → U64) : PPC → Prop
  | .load i => i ≤ maxReprobe ∧ Passed l k keys i
  | .cas i => i ≤ maxReprobe ∧ Passed l k keys i
  | .reload i => i ≤ maxReprobe ∧ Passed l k keys i ∧ keys (pos l k i) ≠ 0

theorem ProbeOk.mono {l : Nat} {k : U64} {keys keys' : Nat → U64} {p : PPC} (h : ProbeOk l k keys p)
    (g : Grow keys keys') : ProbeOk l k keys' p := by
  cases p with
  | load i => exact ⟨h.1, h.2.mono g⟩
  | cas i => exact ⟨h.1, h.2.mono g⟩
  | reload i => exact ⟨h.1, h.2.1.mono g, by rw [g _ h.2.2]; exact h.2.2⟩

def PResOk (l : Nat) (k : U64) (keys keys' : Nat → U64) : PRes → Prop
  | .go p _ => keys' = keys ∧ ProbeOk l k keys' p
  | .found x _ => x < l ∧ keys' x = k
  | .full => keys' = keys ∧ Passed l k keys' (maxReprobe + 1)

/-- what one step of the loop guarantees -/
theorem probeStep_ok {l : Nat} {k : U64} {keys : Nat → U64} (hl : 0 < l) (hk : k ≠ 0) (hinv : KeyInv l keys)
    (init : Bool) {p : PPC} (hp : ProbeOk l k keys p) :
    KeyInv l (probeStep l k keys init p).1 ∧ Grow keys (probeStep l k keys init p).1 ∧
    (∀ x, (probeStep l k keys init p).1 x = keys x ∨ (keys x = 0 ∧ x < l ∧ (probeStep l k keys init p).1 x = k)) ∧
    PResOk l k keys (probeStep l k keys init p).1 (probeStep l k keys init p).2 := by
  cases p with
  | load i =>
    unfold probeStep
    by_cases h1 : keys (pos l k i) = k
    · simp only [if_pos h1]
      exact ⟨hinv, Grow.refl _, fun x => by simp, pos_lt hl _ _, h1⟩
    · simp only [if_neg h1]
      by_cases h2 : keys (pos l k i) = 0
      · simp only [if_pos h2]
        exact ⟨hinv, Grow.refl _, fun x => by simp, rfl, hp.1, hp.2⟩
      · simp only [if_neg h2]
        exact ⟨hinv, Grow.refl _, fun x => by simp, rfl, hp.1, hp.2, h2⟩
  | cas i =>
    unfold probeStep
    by_cases h2 : keys (pos l k i) = 0
    · simp only [if_pos h2]
      refine ⟨?_, ?_, ?_, pos_lt hl _ _, by simp [upd]⟩
      · exact hinv.store hk hp.1 rfl h2 (fun j hj => ⟨(hp.2 j hj).2, (hp.2 j hj).1⟩)
      · intro x hx
        unfold upd
        rw [if_neg]
        rintro rfl; exact hx h2
      · intro x
        unfold upd
        by_cases hx : x = pos l k i
        · right; rw [hx, if_pos rfl]; exact ⟨h2, pos_lt hl _ _, rfl⟩
        · left; rw [if_neg hx]
    · simp only [if_neg h2]
      exact ⟨hinv, Grow.refl _, fun x => by simp, rfl, hp.1, hp.2, h2⟩
  | reload i =>
    unfold probeStep
    by_cases h1 : keys (pos l k i) = k
    · simp only [if_pos h1]
      exact ⟨hinv, Grow.refl _, fun x => by simp, pos_lt hl _ _, h1⟩
    · simp only [if_neg h1]
      have hpass : Passed l k keys (i + 1) := by
        intro j hj
        by_cases hji : j = i
        · subst hji; exact ⟨hp.2.2, h1⟩
        · exact hp.2.1 j (by omega)
      by_cases h2 : i + 1 > maxReprobe
      · simp only [if_pos h2]
        have : i + 1 = maxReprobe + 1 := by have := hp.1; omega
        rw [this] at hpass
        exact ⟨hinv, Grow.refl _, fun x => by simp, rfl, hpass⟩
      · simp only [if_neg h2]
        exact ⟨hinv, Grow.refl _, fun x => by simp, rfl, by omega, hpass⟩

/-- if all 11 candidates are held by other keys, the key is not in the table -/
theorem KeyInv.absent_of_passed {l : Nat} {k : U64} {keys : Nat → U64} (h : KeyInv l keys) (hk : k ≠ 0)
    (hp : Passed l k keys (maxReprobe + 1)) (x : Nat) (hx : x < l) : keys x ≠ k := by
  intro he
  obtain ⟨j, hj, ex, _⟩ := h x hx (he ▸ hk)
  rw [he] at ex
  have := (hp j (by omega)).2
  rw [ex] at this
  exact this he

end Starbow.Probe
