import Verif.Props.BufmapLive
/-
Property C30: a Get of a key in one of the last slots never returns.
-/
namespace Starbow.BufmapConc
open Starbow.Probe Starbow.Cell Starbow.Spec

/-- call `id`, a Get of key `k`, which is in slot `x`, its candidate number `j`, has not got beyond the check at bufmap.go:76 -/
structure Mute (l : Nat) (id : Nat) (k : U64) (x j : Nat) (σ : State) : Prop where
  key : σ.keys x = k
  lt : id < σ.invs.length
  none : ∀ r, (id, r) ∉ σ.rets
  pcs : ∀ t, (σ.pc t).id = some id → ∃ buf, (∃ i, i ≤ j ∧ σ.pc t = .gProbe id k buf i) ∨ σ.pc t = .r id k buf x .load1

theorem call_rets_other {σ : State} {t : Nat} {op : Op} {id : Nat} {r : Ret} (h : (id, r) ∈ (call σ t op).rets) : (id, r) ∈ σ.rets ∨ id = σ.invs.length := by
  unfold call at h
  cases op with
  | upd k fn =>
    simp only at h
    split at h
    · simp only [List.mem_append, List.mem_singleton, Prod.mk.injEq] at h
      rcases h with h | h
      · exact .inl h
      · exact .inr h.1
    · exact .inl h
  | get k buf => exact .inl h

theorem call_pc_other {σ : State} {t : Nat} {op : Op} {t' id : Nat} (hlt : id < σ.invs.length) (h : ((call σ t op).pc t').id = some id) :
    (call σ t op).pc t' = σ.pc t' := by
  unfold call at h ⊢
  cases op with
  | upd k fn =>
    simp only at h ⊢
    split
    · rfl
    · next hk =>
      rw [if_neg hk] at h
      simp only at h ⊢
      by_cases e : t' = t
      · rw [e, upd_same] at h; simp only [PC.id, Option.some.injEq] at h; omega
      · rw [upd_other _ _ e]
  | get k buf =>
    simp only at h ⊢
    by_cases e : t' = t
    · rw [e, upd_same] at h; simp only [PC.id, Option.some.injEq] at h; omega
    · rw [upd_other _ _ e]

theorem mute_step {l s : Nat} (hl : 0 < l) {id : Nat} {k : U64} {x j : Nat} (hk : k ≠ 0) (hj : j ≤ maxReprobe) (hx : pos l k j = x)
    (hhigh : l * s < x * (s + 1)) {σ σ' : State} (hI : Inv l s σ) (hpass : Passed l k σ.keys j) (hm : Mute l id k x j σ) (h : Step l s σ σ') :
    Mute l id k x j σ' := by
  have hmono := Props.BufmapConc.step_mono hl hI h
  have hkey : σ'.keys x = k := by rw [hmono.1 x (by rw [hm.key]; exact hk)]; exact hm.key
  have hlt : id < σ'.invs.length := by
    obtain ⟨more, he⟩ := hmono.2.1
    rw [he, List.length_append]
    have := hm.lt
    omega
  cases h with
  | call t op h =>
    refine ⟨hkey, hlt, ?_, ?_⟩
    · intro r hr
      rcases call_rets_other hr with h | h
      · exact hm.none r h
      · have := hm.lt; omega
    · intro t' ht'
      have he := call_pc_other hm.lt ht'
      rw [he] at ht' ⊢
      exact hm.pcs t' ht'
  | step _ t h =>
    obtain ⟨p', hp, hc⟩ := step_ids h
    by_cases hid : (σ.pc t).id = some id
    · -- the Get itself makes a step
      obtain ⟨buf, hb⟩ := hm.pcs t hid
      have fin : σ'.rets = σ.rets → (p' = .gone ∨ (∃ i, i ≤ j ∧ p' = .gProbe id k buf i) ∨ p' = .r id k buf x .load1) → Mute l id k x j σ' := by
        intro hr hp'
        refine ⟨hkey, hlt, by rw [hr]; exact hm.none, ?_⟩
        intro t' ht'
        by_cases e : t' = t
        · subst e
          rw [hp, upd_same] at ht' ⊢
          rcases hp' with rfl | h
          · simp [PC.id] at ht'
          · exact ⟨buf, h⟩
        · rw [hp, upd_other _ _ e] at ht'
          exact absurd (hI.ids.uniq t' t id ht' hid) e
      have pick : ∀ {q : PC}, σ'.pc = upd σ.pc t q → q = p' := by
        intro q hq
        have := congrFun (hq.symm.trans hp) t
        rwa [upd_same, upd_same] at this
      unfold step at h
      rcases hb with ⟨i, hij, hpc⟩ | hpc
      · rw [hpc] at h
        simp only at h
        unfold lookStep at h
        by_cases e : i = j
        · subst e
          rw [if_pos (by rw [hx]; exact hm.key)] at h
          simp only at h
          have h := Option.some.inj h
          refine fin (by rw [← h]) (.inr (.inr ?_))
          rw [← pick (by rw [← h]), hx]
        · rw [if_neg ((hpass i (by omega)).2), if_neg (by omega)] at h
          simp only at h
          have h := Option.some.inj h
          refine fin (by rw [← h]) (.inr (.inl ⟨i + 1, by omega, ?_⟩))
          rw [← pick (by rw [← h])]
      · rw [hpc] at h
        simp only at h
        by_cases e : (σ.cells.seq x).toNat % 2 = 0
        · rw [if_pos ⟨trivial, e, hhigh⟩] at h
          have h := Option.some.inj h
          refine fin (by rw [← h]) (.inl ?_)
          rw [← pick (by rw [← h])]
        · rw [if_neg (fun h => e h.2.1)] at h
          unfold rstep at h
          rw [if_pos e] at h
          simp only at h
          have h := Option.some.inj h
          refine fin (by rw [← h]) (.inr (.inr ?_))
          rw [← pick (by rw [← h])]
    · refine ⟨hkey, hlt, ?_, ?_⟩
      · intro r hr
        rcases hc with ⟨_, h2, _⟩ | ⟨id', r', h1, h2, _⟩ | ⟨_, h2, _⟩
        · rw [h2] at hr; exact hm.none r hr
        · rw [h2, List.mem_append, List.mem_singleton, Prod.mk.injEq] at hr
          rcases hr with hr | hr
          · exact hm.none r hr
          · rw [hr.1] at hid; exact hid h1
        · rw [h2] at hr; exact hm.none r hr
      · intro t' ht'
        rw [hp] at ht' ⊢
        by_cases e : t' = t
        · subst e
          rw [upd_same] at ht'
          rcases hc with ⟨h1, _, _⟩ | ⟨_, _, _, _, h3⟩ | ⟨h1, _, _⟩
          · rw [h1] at ht'; exact absurd ht' hid
          · rw [h3] at ht'; simp [PC.id] at ht'
          · rw [h1] at ht'; simp [PC.id] at ht'
        · rw [upd_other _ _ e] at ht' ⊢
          exact hm.pcs t' ht'

theorem mute_steps {l s : Nat} (hl : 0 < l) {id : Nat} {k : U64} {x j : Nat} (hk : k ≠ 0) (hj : j ≤ maxReprobe) (hx : pos l k j = x)
    (hhigh : l * s < x * (s + 1)) {σ σ' : State} (hI : Inv l s σ) (hpass : Passed l k σ.keys j) (hm : Mute l id k x j σ) (h : Steps l s σ σ') :
    Mute l id k x j σ' := by
  induction h with
  | refl => exact hm
  | tail h0 h1 ih =>
    exact mute_step hl hk hj hx hhigh (inv_steps hl hI h0) (hpass.mono (Props.BufmapConc.steps_mono hl hI h0).1) ih h1

/-- at first -/
theorem mute_call {l s : Nat} {σ : State} (hI : Inv l s σ) {k : U64} {x : Nat} (hkey : σ.keys x = k) (j : Nat) {t : Nat} {buf : Bytes} :
    Mute l σ.invs.length k x j (call σ t (.get k buf)) := by
  refine ⟨hkey, ?_, ?_, ?_⟩
  · simp [call]
  · intro r hr
    have := hI.ids.dlt _ (List.mem_map.2 ⟨_, hr, rfl⟩)
    omega
  · intro t' ht'
    simp only [call] at ht' ⊢
    by_cases e : t' = t
    · subst e; rw [upd_same]; exact ⟨buf, .inl ⟨0, Nat.zero_le _, rfl⟩⟩
    · rw [upd_other _ _ e] at ht'
      have := hI.ids.lt t' _ ht'
      omega

end Starbow.BufmapConc

namespace Starbow.Props
open Starbow.Probe Starbow.Cell Starbow.Spec Starbow.BufmapConc

/-- **C30 fails** for the last slots, in every interleaving: a Get of a key that is stored in a slot `x` with `x*(s+1) > l*s` never returns,
whatever the other goroutines do (it panics; `C74_bufmap_partial`: all other Gets return). -/
theorem C30_silent (l s : Nat) (hl : 0 < l) (σ : State) (hr : Steps l s Starbow.BufmapConc.init σ) (k : U64) (hk : k ≠ 0) (x : Nat) (hx : x < l)
    (hkey : σ.keys x = k) (hhigh : l * s < x * (s + 1)) (t : Nat) (ht : σ.pc t = .idle) (buf : Bytes) (σ' : State)
    (hs : Steps l s (call σ t (.get k buf)) σ') : ∀ r, (σ.invs.length, r) ∉ σ'.rets := by
  have hI := inv_reach hl hr
  obtain ⟨j, hj, hpx, hpass⟩ := hI.keys x hx (by rw [hkey]; exact hk)
  rw [hkey] at hpx hpass
  have hI' : Inv l s (call σ t (.get k buf)) := inv_reach hl (.tail hr (.call σ t _ ht))
  exact (mute_steps (id := σ.invs.length) hl hk hj hpx hhigh hI' hpass (mute_call hI hkey j) hs).none

/-- the hypotheses are met: a map of four slots of one byte, a key in slot 3 -/
example : ∃ σ, Steps 4 1 Starbow.BufmapConc.init σ ∧ σ.keys 3 = 3 ∧ 4 * 1 < 3 * (1 + 1) ∧ σ.pc 1 = .idle := by
  have h : ∃ σ, Starbow.Props.BufmapConc.runSched 4 1 Starbow.BufmapConc.init ([(0, some (.upd 3 Starbow.Props.BufmapConc.bump))] ++ BufmapConc.steps 0 5) = some σ ∧ σ.keys 3 = 3 ∧
      (σ.pc 1 = .idle) := ⟨_, rfl, by decide, rfl⟩
  obtain ⟨σ, h1, h2, h3⟩ := h
  exact ⟨σ, Starbow.Props.BufmapConc.runSched_steps _ h1, h2, by decide, h3⟩

end Starbow.Props
