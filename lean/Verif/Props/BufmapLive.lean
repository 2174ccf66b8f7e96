import Verif.Proof.BufmapLive
import Verif.Props.BufmapConc
/-
Property C74: every call of a bufmap returns.
-/
namespace Starbow.BufmapConc
open Starbow.Probe Starbow.Cell Starbow.Spec

/-- what a step does to the call in progress -/
theorem step_ids {l s : Nat} {σ σ' : State} {t : Nat} (h : step l s σ t = some σ') : ∃ p', σ'.pc = upd σ.pc t p' ∧
    ((p'.id = (σ.pc t).id ∧ σ'.rets = σ.rets ∧ p' ≠ .gone) ∨ (∃ id r, (σ.pc t).id = some id ∧ σ'.rets = σ.rets ++ [(id, r)] ∧ p' = .idle) ∨
     (p' = .gone ∧ σ'.rets = σ.rets ∧ ∃ id k buf x p, σ.pc t = .r id k buf x p ∧ l * s < x * (s + 1))) := by
  unfold step at h
  cases hpc : σ.pc t with
  | idle => rw [hpc] at h; simp at h
  | gone => rw [hpc] at h; simp at h
  | uProbe id k fn ini p =>
    rw [hpc] at h
    simp only at h
    generalize hps : probeStep l k σ.keys ini p = ps at h
    obtain ⟨keys, res⟩ := ps
    cases res with
    | go p' i => have h := Option.some.inj h; subst h; exact ⟨_, rfl, .inl ⟨rfl, rfl, by simp⟩⟩
    | found x i => have h := Option.some.inj h; subst h; exact ⟨_, rfl, .inl ⟨rfl, rfl, by simp⟩⟩
    | full => have h := Option.some.inj h; subst h; exact ⟨_, rfl, .inr (.inl ⟨_, _, rfl, rfl, rfl⟩)⟩
  | w k x e p =>
    rw [hpc] at h
    simp only at h
    cases hst : wstep s t x e σ.cells p with
    | none => rw [hst] at h; simp at h
    | some cr =>
      obtain ⟨c, r⟩ := cr
      rw [hst] at h
      cases r with
      | go q => have h := Option.some.inj h; subst h; exact ⟨_, rfl, .inl ⟨rfl, rfl, by simp⟩⟩
      | ret err => have h := Option.some.inj h; subst h; exact ⟨_, rfl, .inr (.inl ⟨_, _, rfl, rfl, rfl⟩)⟩
  | gProbe id k buf i =>
    rw [hpc] at h
    simp only at h
    split at h
    · have h := Option.some.inj h; subst h; exact ⟨_, rfl, .inl ⟨rfl, rfl, by simp⟩⟩
    · have h := Option.some.inj h; subst h; exact ⟨_, rfl, .inr (.inl ⟨_, _, rfl, rfl, rfl⟩)⟩
    · have h := Option.some.inj h; subst h; exact ⟨_, rfl, .inl ⟨rfl, rfl, by simp⟩⟩
  | r id k buf x p =>
    rw [hpc] at h
    simp only at h
    split at h
    · next hp =>
      have h := Option.some.inj h; subst h
      exact ⟨_, rfl, .inr (.inr ⟨rfl, rfl, _, _, _, _, _, rfl, hp.2.2⟩)⟩
    · split at h
      · have h := Option.some.inj h; subst h; exact ⟨_, rfl, .inl ⟨rfl, rfl, by simp⟩⟩
      · have h := Option.some.inj h; subst h; exact ⟨_, rfl, .inr (.inl ⟨_, _, rfl, rfl, rfl⟩)⟩

/-- a call has returned, is in progress, or was a Get that panicked at its slot -/
def Tracked (l s : Nat) (σ : State) : Prop := ∀ id op, σ.invs[id]? = some op →
  (∃ r, (id, r) ∈ σ.rets) ∨ (∃ t, (σ.pc t).id = some id) ∨
    ∃ k buf x, op = .get k buf ∧ x < l ∧ (k = 0 ∧ x ≤ 10 ∨ k ≠ 0 ∧ σ.keys x = k) ∧ l * s < x * (s + 1)

theorem tracked_step {l s : Nat} (hl : 0 < l) {σ σ' : State} {t : Nat} (hI : Inv l s σ) (ht : Tracked l s σ) (h : step l s σ t = some σ') :
    Tracked l s σ' := by
  intro id op hop
  rw [(step_cases h).1] at hop
  obtain ⟨p', hp, hc⟩ := step_ids h
  have stay : ∀ t', t' ≠ t → σ'.pc t' = σ.pc t' := fun t' e => by rw [hp, upd_other _ _ e]
  have now : σ'.pc t = p' := by rw [hp, upd_same]
  have hrets : ∀ x, x ∈ σ.rets → x ∈ σ'.rets := by
    intro x hx
    rcases hc with ⟨_, h2, _⟩ | ⟨_, _, _, h2, _⟩ | ⟨_, h2, _⟩ <;> rw [h2] <;> simp [hx]
  have hgrow := (Props.BufmapConc.step_mono hl hI (.step σ σ' t h)).1
  have keep : ∀ {k : U64} {x : Nat}, (k = 0 ∧ x ≤ 10 ∨ k ≠ 0 ∧ σ.keys x = k) → (k = 0 ∧ x ≤ 10 ∨ k ≠ 0 ∧ σ'.keys x = k) := by
    intro k x hk
    rcases hk with hk | hk
    · exact .inl hk
    · exact .inr ⟨hk.1, by rw [hgrow x (by rw [hk.2]; exact hk.1)]; exact hk.2⟩
  rcases ht id op hop with ⟨r, hr⟩ | ⟨t', ht'⟩ | ⟨k, buf, x, h1, h2, h3, h4⟩
  · exact .inl ⟨r, hrets _ hr⟩
  · by_cases e : t' = t
    · subst e
      rcases hc with ⟨h1, h2, h3⟩ | ⟨id', r, h1, h2, h3⟩ | ⟨h1, h2, id', k, buf, x, p, h3, h4⟩
      · exact .inr (.inl ⟨t', by rw [now, h1]; exact ht'⟩)
      · rw [ht'] at h1
        obtain rfl := Option.some.inj h1
        exact .inl ⟨r, by rw [h2]; simp⟩
      · right; right
        have := hI.thr t'
        rw [h3] at this ht'
        obtain rfl := Option.some.inj ht'
        have hg := this.1
        rw [hop] at hg
        exact ⟨k, buf, x, Option.some.inj hg, this.2.1, keep this.2.2.1, h4⟩
    · exact .inr (.inl ⟨t', by rw [stay t' e]; exact ht'⟩)
  · exact .inr (.inr ⟨k, buf, x, h1, h2, keep h3, h4⟩)

theorem tracked_call {l s : Nat} {σ : State} {t : Nat} (ht : Tracked l s σ) (hi : σ.pc t = .idle) (op : Op) : Tracked l s (call σ t op) := by
  intro id op' hop
  have hinvs : (call σ t op).invs = σ.invs ++ [op] := by unfold call; cases op <;> simp only <;> (try split) <;> rfl
  have hkeys : (call σ t op).keys = σ.keys := by unfold call; cases op <;> simp only <;> (try split) <;> rfl
  rw [hinvs, List.getElem?_append] at hop
  have hpc : ∀ t', σ.pc t' ≠ .idle → (call σ t op).pc t' = σ.pc t' := by
    intro t' hne
    have : t' ≠ t := by rintro rfl; exact hne hi
    unfold call
    cases op with
    | upd k fn => simp only; split <;> simp [upd_other _ _ this]
    | get k buf => simp only; rw [upd_other _ _ this]
  have hrets : ∀ x, x ∈ σ.rets → x ∈ (call σ t op).rets := by
    intro x hx
    unfold call
    cases op with
    | upd k fn => simp only; split <;> simp [hx]
    | get k buf => exact hx
  split at hop
  · rcases ht id op' hop with ⟨r, hr⟩ | ⟨t', ht'⟩ | ⟨k, buf, x, h1, h2, h3, h4⟩
    · exact .inl ⟨r, hrets _ hr⟩
    · exact .inr (.inl ⟨t', by rw [hpc t' (by intro e; rw [e] at ht'; simp [PC.id] at ht')]; exact ht'⟩)
    · exact .inr (.inr ⟨k, buf, x, h1, h2, by rw [hkeys]; exact h3, h4⟩)
  · next hge =>
    have hid : id = σ.invs.length := by
      by_contra hne
      rw [List.getElem?_eq_none (by simp; omega)] at hop
      simp at hop
    subst hid
    simp only [Nat.sub_self, List.getElem?_cons_zero, Option.some.injEq] at hop
    subst hop
    unfold call
    cases op with
    | upd k fn =>
      simp only
      split
      · exact .inl ⟨.invalidKey, by simp⟩
      · exact .inr (.inl ⟨t, by simp [upd_same, PC.id]⟩)
    | get k buf => exact .inr (.inl ⟨t, by simp [upd_same, PC.id]⟩)

/-- what has returned has returned -/
theorem run_rets {l s : Nat} {sched : Nat → Nat} {σ : State} {y : Nat × Ret} {i : Nat} (d : Nat) (h : y ∈ (runFrom (step l s) sched σ i).rets) :
    y ∈ (runFrom (step l s) sched σ (i + d)).rets := by
  induction d with
  | zero => exact h
  | succ d ih =>
    rw [show i + (d + 1) = i + d + 1 from rfl, runFrom]
    cases hst : step l s (runFrom (step l s) sched σ (i + d)) (sched (i + d)) with
    | none => exact ih
    | some τ =>
      obtain ⟨p', _, hc⟩ := step_ids hst
      show y ∈ τ.rets
      rcases hc with ⟨_, h2, _⟩ | ⟨_, _, _, h2, _⟩ | ⟨_, h2, _⟩ <;> rw [h2]
      · exact ih
      · exact List.mem_append_left _ ih
      · exact ih

theorem tracked_reach {l s : Nat} (hl : 0 < l) {σ : State} (h : Steps l s init σ) : Tracked l s σ := by
  generalize hi : init = σ₀ at h
  induction h with
  | refl => subst hi; intro id op h; simp [init] at h
  | tail h0 h1 ih =>
    have hI := inv_reach hl (hi ▸ h0)
    cases h1 with
    | call t op h => exact tracked_call ih h op
    | step _ t h => exact tracked_step hl hI ih h

end Starbow.BufmapConc

namespace Starbow.Props
open Starbow.Probe Starbow.Cell Starbow.Spec Starbow.BufmapConc Starbow.Props.BufmapConc

/-- all Updates return, and all Gets unless they panic -/
theorem returns_of_calm (l s : Nat) (hl : 0 < l) (σ : State) (hr : Steps l s Starbow.BufmapConc.init σ) (hb : AllCalm l s σ.invs)
    (sched : Nat → Nat) (hf : Fair sched) :
    ∃ N, ∀ n, N ≤ n → ∀ id op, σ.invs[id]? = some op →
      (∀ k buf, op = .get k buf → Readable l s (runFrom (step l s) sched σ n).keys k) → ∃ r, (id, r) ∈ (runFrom (step l s) sched σ n).rets := by
  have hL := live_reach hl hr hb
  obtain ⟨N, τ, hN, hd⟩ := all_done hl hr hL hb hf
  refine ⟨N, fun n hn id op hop hcase => ?_⟩
  have hinv := (run_live (sched := sched) hl hr hL hb n).2
  have hsteps := run_steps (sched := sched) hr
  have := hN n hn
  rcases tracked_reach hl (hsteps n) id op (by rw [hinv]; exact hop) with h | ⟨t, h⟩ | ⟨k, buf, x, h1, h2, h3, h4⟩
  · exact h
  · rw [this] at h
    rcases hd t with e | e <;> rw [e] at h <;> simp [PC.id] at h
  · have := hcase k buf h1 x h2 h3
    omega

/-- **C74** (bufmap), partial. Let any calls of Update and Get be in progress or done, in any interleaving so far, with functions that do not
panic, and let no more calls be made. Then under every fair schedule all Updates return, from some moment on, and so do all Gets of a
key whose slot can be sliced (which is every key, if the map has no more slots than bytes in a slot plus one: `readable_small`).
Missing: functions that panic (C36) and Gets of keys in the other, last slots: such a Get panics (C30_panics, C30_silent). -/
theorem C74_bufmap_partial (l s : Nat) (hl : 0 < l) (σ : State) (hr : Steps l s Starbow.BufmapConc.init σ)
    (hb : ∀ k fn, Op.upd k fn ∈ σ.invs → Benign s fn) (sched : Nat → Nat) (hf : Fair sched) :
    ∃ N, ∀ n, N ≤ n → ∀ id op, σ.invs[id]? = some op →
      (∀ k buf, op = .get k buf → Readable l s (runFrom (step l s) sched σ n).keys k) → ∃ r, (id, r) ∈ (runFrom (step l s) sched σ n).rets :=
  returns_of_calm l s hl σ hr (allCalm_benign hl hb) sched hf

/-- in a map with no more slots than bytes in a slot plus one, every key can be read -/
theorem readable_small {l s : Nat} (h : l ≤ s + 1) (keys : Nat → U64) (k : U64) : Readable l s keys k := by
  intro x hx _
  have h1 : x * (s + 1) = x * s + x := Nat.mul_succ x s
  have h2 := Nat.mul_le_mul_right s (show x + 1 ≤ l from hx)
  rw [Nat.add_mul, Nat.one_mul] at h2
  omega

/-- so can a key whose home slot is not among the last, since it is not put further away than ten slots -/
theorem readable_home {l s : Nat} (hl : 0 < l) {σ : State} (hr : Steps l s Starbow.BufmapConc.init σ) {k : U64}
    (h : (k.toNat % l + 10) * (s + 1) ≤ l * s) : Readable l s σ.keys k := by
  intro x hx h0
  rcases h0 with ⟨rfl, h1⟩ | ⟨hk, hkx⟩
  · refine Nat.le_trans (Nat.mul_le_mul_right _ ?_) h
    simpa using h1
  obtain ⟨j, hj, hp, _⟩ := (inv_reach hl hr).keys x hx (by rw [hkx]; exact hk)
  rw [hkx] at hp
  have h1 : x ≤ k.toNat % l + 10 := by
    rw [← hp]
    unfold pos
    have := Nat.mod_le (k.toNat % l + j) l
    unfold maxReprobe at hj
    omega
  exact Nat.le_trans (Nat.mul_le_mul_right _ h1) h

/-- the hypotheses are met: two Updates of one key and a Get, all in the middle (the second Update waits for the mutex) -/
example : ∃ σ, Steps 4 4 Starbow.BufmapConc.init σ ∧ σ.invs.length = 3 ∧ σ.rets = [] ∧ (∀ k fn, Op.upd k fn ∈ σ.invs → Benign 4 fn) ∧
    step 4 4 σ 1 = none ∧ ∃ sched, Fair sched := by
  have h : ∃ σ, runSched 4 4 Starbow.BufmapConc.init ([(0, some (.upd 2 bump))] ++ BufmapConc.steps 0 5 ++ [(1, some (.upd 2 bump))] ++
      BufmapConc.steps 1 1 ++ [(2, some (.get 2 [5, 6]))] ++ BufmapConc.steps 2 2) = some σ ∧ σ.rets = [] ∧
      σ.invs = [.upd 2 bump, .upd 2 bump, .get 2 [5, 6]] ∧ (step 4 4 σ 1).isNone = true := by
    refine ⟨_, rfl, by decide, rfl, by decide⟩
  obtain ⟨σ, h1, h2, h3, h4⟩ := h
  refine ⟨σ, runSched_steps _ h1, by rw [h3]; rfl, h2, ?_, Option.isNone_iff_eq_none.1 h4, _, fair_unpair⟩
  intro k fn hm
  rw [h3] at hm
  have : fn = bump := by simp only [List.mem_cons, Op.upd.injEq, reduceCtorEq, List.not_mem_nil, or_false] at hm; tauto
  subst this
  intro d ini hd
  simp [bump]

end Starbow.Props
