import Verif.Proof.Fair
/- Measures for the loops of the concurrent models. -/
namespace Starbow.Probe

/-- how many steps the loop may still take -/
def pleft : PPC → Nat
  | .load i => 3 * (maxReprobe + 1 - i) + 2
  | .cas i => 3 * (maxReprobe + 1 - i) + 1
  | .reload i => 3 * (maxReprobe + 1 - i)

theorem probe_left {l : Nat} {k : U64} {keys keys' : Nat → U64} {b b' : Bool} {p p' : PPC}
    (h : probeStep l k keys b p = (keys', .go p' b')) : pleft p' < pleft p := by
  cases p with
  | load i =>
    rw [probeStep] at h
    split at h
    · simp at h
    · split at h
      · simp only [Prod.mk.injEq, PRes.go.injEq] at h
        rw [← h.2.1]; simp only [pleft]; omega
      · simp only [Prod.mk.injEq, PRes.go.injEq] at h
        rw [← h.2.1]; simp only [pleft]; omega
  | cas i =>
    rw [probeStep] at h
    split at h
    · simp at h
    · simp only [Prod.mk.injEq, PRes.go.injEq] at h
      rw [← h.2.1]; simp only [pleft]; omega
  | reload i =>
    rw [probeStep] at h
    split at h
    · simp at h
    · split at h
      · simp at h
      · next h2 =>
        simp only [Prod.mk.injEq, PRes.go.injEq] at h
        rw [← h.2.1]; simp only [pleft]; omega

end Starbow.Probe

namespace Starbow.Cell
open Starbow.Probe Starbow.Spec

/-- 1 until the function of a writer has been called, from then on 0 -/
def wstage : WPC → Nat
  | .lock => 1
  | .add1 => 1
  | _ => 0

/-- steps wleft in its stage -/
def wleft : WPC → Nat
  | .lock => 2
  | .add1 => 1
  | .run ws _ => ws.length + 3
  | .add2 _ => 2
  | .unlock _ => 1
  | .dead => 0

theorem wstep_left {s t x : Nat} {e : Entry} {c c' : Cells} {p p' : WPC} (h : wstep s t x e c p = some (c', .go p')) :
    wstage p' < wstage p ∨ (wstage p' = wstage p ∧ wleft p' < wleft p) := by
  cases p with
  | lock =>
    rw [wstep] at h
    split at h
    · simp only [Option.some.injEq, Prod.mk.injEq, WRes.go.injEq] at h
      rw [← h.2]; exact .inr ⟨rfl, by simp [wleft]⟩
    · simp at h
  | add1 =>
    simp only [wstep, Option.some.injEq, Prod.mk.injEq, WRes.go.injEq] at h
    rw [← h.2]; exact .inl (by simp [wstage])
  | run ws r =>
    cases ws with
    | nil =>
      cases r with
      | ret err =>
        simp only [wstep, Option.some.injEq, Prod.mk.injEq, WRes.go.injEq] at h
        rw [← h.2]; exact .inr ⟨rfl, by simp [wleft]⟩
      | panic =>
        simp only [wstep, Option.some.injEq, Prod.mk.injEq, WRes.go.injEq] at h
        rw [← h.2]; exact .inr ⟨rfl, by simp [wleft]⟩
    | cons w ws =>
      rw [wstep] at h
      split at h <;> simp only [Option.some.injEq, Prod.mk.injEq, WRes.go.injEq] at h <;> rw [← h.2] <;> exact .inr ⟨rfl, by simp [wleft]⟩
  | add2 err =>
    simp only [wstep, Option.some.injEq, Prod.mk.injEq, WRes.go.injEq] at h
    rw [← h.2]; exact .inr ⟨rfl, by simp [wleft]⟩
  | unlock err => simp [wstep] at h
  | dead => simp [wstep] at h

theorem wstep_last {s t x : Nat} {e : Entry} {c c' : Cells} {p : WPC} {err : Option Err} (h : wstep s t x e c p = some (c', .ret err)) :
    wstage p = 0 ∧ wleft p = 1 := by
  cases p with
  | unlock err => exact ⟨rfl, rfl⟩
  | lock => rw [wstep] at h; split at h <;> simp at h
  | add1 => simp [wstep] at h
  | run ws r =>
    cases ws with
    | nil => cases r <;> simp [wstep] at h
    | cons w ws => rw [wstep] at h; split at h <;> simp at h
  | add2 err => simp [wstep] at h
  | dead => simp [wstep] at h

/-- a writer that cannot move is waiting for the mutex, or dead -/
theorem wstep_none {s t x : Nat} {e : Entry} {c : Cells} {p : WPC} (h : wstep s t x e c p = none) :
    (p = .lock ∧ c.lock x ≠ none) ∨ p = .dead := by
  cases p with
  | lock =>
    rw [wstep] at h
    split at h
    · simp at h
    · next hl => exact .inl ⟨rfl, hl⟩
  | add1 => simp [wstep] at h
  | run ws r =>
    cases ws with
    | nil => cases r <;> simp [wstep] at h
    | cons w ws => rw [wstep] at h; split at h <;> simp at h
  | add2 err => simp [wstep] at h
  | unlock err => simp [wstep] at h
  | dead => exact .inr rfl

/-- what a benign writer may be doing -/
def Sane (s : Nat) : WPC → Prop
  | .run ws r => (∀ w ∈ ws, w.1 < s) ∧ r ≠ .panic
  | .dead => False
  | _ => True

theorem wstep_sane {s t x : Nat} {e : Entry} {c c' : Cells} {p p' : WPC} (h : wstep s t x e c p = some (c', .go p')) (hp : Sane s p)
    (he : p = .add1 → Sane s (.run (e.fn (bytesOf s c x) e.init).1 (e.fn (bytesOf s c x) e.init).2)) : Sane s p' := by
  cases p with
  | lock =>
    rw [wstep] at h
    split at h
    · simp only [Option.some.injEq, Prod.mk.injEq, WRes.go.injEq] at h
      rw [← h.2]; trivial
    · simp at h
  | add1 =>
    simp only [wstep, Option.some.injEq, Prod.mk.injEq, WRes.go.injEq] at h
    rw [← h.2]; exact he rfl
  | run ws r =>
    cases ws with
    | nil =>
      cases r with
      | ret err =>
        simp only [wstep, Option.some.injEq, Prod.mk.injEq, WRes.go.injEq] at h
        rw [← h.2]; trivial
      | panic => exact absurd rfl hp.2
    | cons w ws =>
      rw [wstep, if_pos (hp.1 w List.mem_cons_self)] at h
      simp only [Option.some.injEq, Prod.mk.injEq, WRes.go.injEq] at h
      rw [← h.2]; exact ⟨fun v hv => hp.1 v (List.mem_cons_of_mem _ hv), hp.2⟩
  | add2 err =>
    simp only [wstep, Option.some.injEq, Prod.mk.injEq, WRes.go.injEq] at h
    rw [← h.2]; trivial
  | unlock err => simp [wstep] at h
  | dead => exact absurd hp id

/-- steps a reader of `n` bytes needs if nobody writes and the sequence number is `sq` -/
def rleft (n : Nat) (sq : BitVec 32) : RPC → Nat
  | .load1 => n + 2
  | .copy sq' _ got => n - got.length + 1 + if sq' = sq then 0 else n + 3

theorem rstep_left {s x n : Nat} {c : Cells} {p p' : RPC} (he : (c.seq x).toNat % 2 = 0) (h : rstep s x n c p = .go p') :
    rleft n (c.seq x) p' < rleft n (c.seq x) p := by
  cases p with
  | load1 =>
    rw [rstep, if_neg (by omega)] at h
    simp only [RRes.go.injEq] at h
    rw [← h]; simp [rleft]
  | copy sq ct got =>
    rw [rstep] at h
    split at h
    · next hlt =>
      simp only [RRes.go.injEq] at h
      rw [← h]; simp only [rleft, List.length_append, List.length_singleton]; omega
    · split at h
      · simp at h
      · next hne =>
        simp only [RRes.go.injEq] at h
        rw [← h]; simp only [rleft, if_neg hne]; omega

/-- when nobody holds a mutex, every sequence number is even -/
theorem CInv.even {L s : Nat} {c : Cells} {W : Nat → Option (Nat × Entry × WPC)} (hI : CInv L s c W) {x : Nat} (h : c.lock x = none) :
    (c.seq x).toNat % 2 = 0 := by
  rw [hI.seq x, (hI.free x h).1, BitVec.toNat_ofNat]
  omega

end Starbow.Cell
