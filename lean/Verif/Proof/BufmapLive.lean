import Verif.Proof.CellLive
import Verif.Proof.BufmapConc
/- bufmap: every call returns under a fair schedule. -/
namespace Starbow.BufmapConc
open Starbow.Probe Starbow.Cell Starbow.Spec

/-- in Update -/
def isW : PC → Prop
  | .uProbe .. => True
  | .w .. => True
  | _ => False

def stageOf : PC → Nat
  | .uProbe .. => 1
  | .w _ _ _ p => wstage p
  | _ => 0

def leftOf : PC → Nat
  | .uProbe _ _ _ _ p => pleft p + 3
  | .w _ _ _ p => wleft p
  | _ => 0

/-- steps a Get needs if nobody writes -/
def getLeft (c : Cells) : PC → Nat
  | .gProbe _ _ buf i => (maxReprobe + 1 - i) + (buf.length + 3)
  | .r _ _ buf x p => rleft (min buf.length x) (c.seq x) p
  | _ => 0

/-- what a step does to the measures -/
theorem step_cases {l s : Nat} {σ σ' : State} {t : Nat} (h : step l s σ t = some σ') :
    σ'.invs = σ.invs ∧ ∃ p', σ'.pc = upd σ.pc t p' ∧
      ((isW (σ.pc t) ∧ (stageOf p' < stageOf (σ.pc t) ∨ (stageOf p' = stageOf (σ.pc t) ∧ leftOf p' < leftOf (σ.pc t)))) ∨
       (¬ isW (σ.pc t) ∧ ¬ isW p' ∧ σ'.keys = σ.keys ∧ σ'.cells = σ.cells ∧ stageOf p' = stageOf (σ.pc t) ∧ leftOf p' = leftOf (σ.pc t) ∧
        ((∀ x, (σ.cells.seq x).toNat % 2 = 0) → getLeft σ.cells p' < getLeft σ.cells (σ.pc t)))) := by
  unfold step at h
  cases hpc : σ.pc t with
  | idle => rw [hpc] at h; simp at h
  | gone => rw [hpc] at h; simp at h
  | uProbe id k fn ini p =>
    rw [hpc] at h
    simp only at h
    generalize hps : probeStep l k σ.keys ini p = ps at h
    obtain ⟨keys, res⟩ := ps
    cases res with
    | go p' i =>
      have h := Option.some.inj h
      subst h
      refine ⟨rfl, _, rfl, .inl ⟨trivial, .inr ⟨rfl, ?_⟩⟩⟩
      have := probe_left hps
      simp only [leftOf]; omega
    | found x i =>
      have h := Option.some.inj h
      subst h
      refine ⟨rfl, _, rfl, .inl ⟨trivial, .inr ⟨rfl, ?_⟩⟩⟩
      simp only [leftOf, wleft]; omega
    | full =>
      have h := Option.some.inj h
      subst h
      exact ⟨rfl, _, rfl, .inl ⟨trivial, .inl (by simp [stageOf])⟩⟩
  | w k x e p =>
    rw [hpc] at h
    simp only at h
    cases hst : wstep s t x e σ.cells p with
    | none => rw [hst] at h; simp at h
    | some cr =>
      obtain ⟨c, r⟩ := cr
      rw [hst] at h
      cases r with
      | go q =>
        have h := Option.some.inj h
        subst h
        exact ⟨rfl, _, rfl, .inl ⟨trivial, wstep_left hst⟩⟩
      | ret err =>
        have h := Option.some.inj h
        subst h
        obtain ⟨h1, h2⟩ := wstep_last hst
        exact ⟨rfl, _, rfl, .inl ⟨trivial, .inr ⟨by simp [stageOf, h1], by simp [leftOf, h2]⟩⟩⟩
  | gProbe id' k buf i =>
    rw [hpc] at h
    simp only at h
    unfold lookStep at h
    by_cases h1 : σ.keys (pos l k i) = k
    · rw [if_pos h1] at h
      have h := Option.some.inj h
      subst h
      refine ⟨rfl, _, rfl, .inr ⟨id, id, rfl, rfl, rfl, rfl, fun _ => ?_⟩⟩
      simp only [getLeft, rleft]; omega
    · rw [if_neg h1] at h
      by_cases h2 : i + 1 > maxReprobe
      · rw [if_pos h2] at h
        have h := Option.some.inj h
        subst h
        refine ⟨rfl, _, rfl, .inr ⟨id, id, rfl, rfl, rfl, rfl, fun _ => ?_⟩⟩
        simp only [getLeft]; omega
      · rw [if_neg h2] at h
        have h := Option.some.inj h
        subst h
        refine ⟨rfl, _, rfl, .inr ⟨id, id, rfl, rfl, rfl, rfl, fun _ => ?_⟩⟩
        simp only [getLeft]; omega
  | r id' k buf x p =>
    rw [hpc] at h
    simp only at h
    split at h
    · next hp =>
      have h := Option.some.inj h
      subst h
      refine ⟨rfl, _, rfl, .inr ⟨id, id, rfl, rfl, rfl, rfl, fun _ => ?_⟩⟩
      rw [hp.1]; simp only [getLeft, rleft]; omega
    · cases hst : rstep s x (min buf.length x) σ.cells p with
      | go p' =>
        rw [hst] at h
        have h := Option.some.inj h
        subst h
        exact ⟨rfl, _, rfl, .inr ⟨id, id, rfl, rfl, rfl, rfl, fun he => rstep_left (he x) hst⟩⟩
      | done got during =>
        rw [hst] at h
        have h := Option.some.inj h
        subst h
        refine ⟨rfl, _, rfl, .inr ⟨id, id, rfl, rfl, rfl, rfl, fun _ => ?_⟩⟩
        cases p with
        | load1 => simp only [getLeft, rleft]; omega
        | copy sq ct g => simp only [getLeft, rleft]; omega

theorem step_idle {l s : Nat} {σ : State} {t : Nat} (h : σ.pc t = .idle) : step l s σ t = none := by
  unfold step; rw [h]

theorem step_gone {l s : Nat} {σ : State} {t : Nat} (h : σ.pc t = .gone) : step l s σ t = none := by
  unfold step; rw [h]

/-- whether a goroutine can move depends on its place and the shared memory -/
theorem step_congr {l s : Nat} {σ σ' : State} {t : Nat} (hp : σ'.pc t = σ.pc t) (hk : σ'.keys = σ.keys) (hc : σ'.cells = σ.cells)
    (h : step l s σ t ≠ none) : step l s σ' t ≠ none := by
  unfold step at h ⊢
  rw [hp, hk, hc]
  cases hpc : σ.pc t with
  | uProbe id k fn ini p =>
    simp only
    generalize probeStep l k σ.keys ini p = ps
    obtain ⟨keys, res⟩ := ps
    cases res <;> simp
  | w k x e p =>
    rw [hpc] at h
    simp only at h ⊢
    cases hst : wstep s t x e σ.cells p with
    | none => rw [hst] at h; exact absurd rfl h
    | some cr => obtain ⟨c, r⟩ := cr; cases r <;> simp
  | idle => rw [hpc] at h; exact absurd rfl h
  | gone => rw [hpc] at h; exact absurd rfl h
  | gProbe id k buf i =>
    simp only [lookStep]
    split
    · simp
    · simp
    · simp
  | r id k buf x p =>
    simp only
    split
    · simp
    · split <;> simp

/-- a Get can always move -/
theorem step_reader {l s : Nat} {σ : State} {t : Nat} (hw : ¬ isW (σ.pc t)) (h : step l s σ t = none) : σ.pc t = .idle ∨ σ.pc t = .gone := by
  cases hp : σ.pc t with
  | idle => exact .inl rfl
  | gone => exact .inr rfl
  | uProbe => exact absurd (by rw [hp]; trivial) hw
  | w => exact absurd (by rw [hp]; trivial) hw
  | gProbe id k buf i =>
    unfold step at h
    rw [hp] at h
    simp only [lookStep] at h
    split at h
    · simp at h
    · simp at h
    · simp at h
  | r id k buf x p =>
    unfold step at h
    rw [hp] at h
    simp only at h
    split at h
    · simp at h
    · split at h <;> simp at h

/-- no writer has panicked or is going to -/
def Safe (s : Nat) (σ : State) : Prop := ∀ t k x e p, σ.pc t = .w k x e p → Sane s p

/-- the functions that are about to be called will not panic on what they find -/
def Calm (s : Nat) (σ : State) : Prop := ∀ t k x e, σ.pc t = .w k x e .add1 →
  Sane s (.run (e.fn (bytesOf s σ.cells x) e.init).1 (e.fn (bytesOf s σ.cells x) e.init).2)

theorem safe_step {l s : Nat} {σ σ' : State} {t : Nat} (hs : Safe s σ) (h : step l s σ t = some σ')
    (hb : Calm s σ) : Safe s σ' := by
  obtain ⟨_, q, hq, _⟩ := step_cases h
  have key : (∀ k x e p, q = .w k x e p → Sane s p) → Safe s σ' := by
    intro hk t' k x e p hp
    rw [hq] at hp
    by_cases e : t' = t
    · subst e; rw [upd_same] at hp; exact hk _ _ _ _ hp
    · rw [upd_other _ _ e] at hp; exact hs _ _ _ _ _ hp
  apply key
  intro k x e p hp
  subst hp
  unfold step at h
  cases hpc : σ.pc t with
  | idle => rw [hpc] at h; simp at h
  | gone => rw [hpc] at h; simp at h
  | uProbe id k' fn ini p' =>
    rw [hpc] at h
    simp only at h
    generalize hps : probeStep l k' σ.keys ini p' = ps at h
    obtain ⟨keys, res⟩ := ps
    have hh : ∀ a, upd σ.pc t a = upd σ.pc t (PC.w k x e p) → a = PC.w k x e p := by
      intro a ha; have := congrFun ha t; rwa [upd_same, upd_same] at this
    cases res with
    | go p' i => have h := Option.some.inj h; subst h; have := hh _ hq; simp at this
    | found x i =>
      have h := Option.some.inj h; subst h; have := hh _ hq
      simp only [PC.w.injEq] at this; rw [← this.2.2.2]; trivial
    | full => have h := Option.some.inj h; subst h; have := hh _ hq; simp at this
  | w k' x' e' p' =>
    rw [hpc] at h
    simp only at h
    have hh : ∀ a, upd σ.pc t a = upd σ.pc t (PC.w k x e p) → a = PC.w k x e p := by
      intro a ha; have := congrFun ha t; rwa [upd_same, upd_same] at this
    cases hst : wstep s t x' e' σ.cells p' with
    | none => rw [hst] at h; simp at h
    | some cr =>
      obtain ⟨c, r⟩ := cr
      rw [hst] at h
      cases r with
      | go q =>
        have h := Option.some.inj h
        subst h
        have := hh _ hq
        simp only [PC.w.injEq] at this
        rw [← this.2.2.2]
        exact wstep_sane hst (hs _ _ _ _ _ hpc) (fun ha => hb _ _ _ _ (ha ▸ hpc))
      | ret err => have h := Option.some.inj h; subst h; have := hh _ hq; simp at this
  | gProbe id' k' buf i =>
    have := step_cases (l := l) (s := s) (σ := σ) (σ' := σ') (t := t) (by unfold step; exact h)
    obtain ⟨_, q', hq', hc⟩ := this
    have e1 : q' = .w k x e p := by
      have := congrFun (hq'.symm.trans hq) t; rwa [upd_same, upd_same] at this
    subst e1
    rcases hc with ⟨hw, _⟩ | ⟨_, hw, _⟩
    · rw [hpc] at hw; exact absurd hw id
    · exact absurd trivial hw
  | r id' k' buf x' p' =>
    have := step_cases (l := l) (s := s) (σ := σ) (σ' := σ') (t := t) (by unfold step; exact h)
    obtain ⟨_, q', hq', hc⟩ := this
    have e1 : q' = .w k x e p := by
      have := congrFun (hq'.symm.trans hq) t; rwa [upd_same, upd_same] at this
    subst e1
    rcases hc with ⟨hw, _⟩ | ⟨_, hw, _⟩
    · rw [hpc] at hw; exact absurd hw id
    · exact absurd trivial hw

/-- everything that holds in a reachable state whose calls have benign functions -/
structure Live (l s : Nat) (σ : State) : Prop where
  inv : Inv l s σ
  safe : Safe s σ
  few : ∃ T, ∀ t, T ≤ t → σ.pc t = .idle

theorem few_upd {pc : Nat → PC} (h : ∃ T, ∀ t, T ≤ t → pc t = .idle) (t : Nat) (p : PC) : ∃ T, ∀ t', T ≤ t' → upd pc t p t' = .idle := by
  obtain ⟨T, hT⟩ := h
  exact ⟨max T (t + 1), fun t' ht' => by rw [upd_other _ _ (by omega)]; exact hT _ (by omega)⟩

theorem live_step {l s : Nat} (hl : 0 < l) {σ σ' : State} {t : Nat} (hL : Live l s σ) (h : step l s σ t = some σ')
    (hb : Calm s σ) : Live l s σ' := by
  refine ⟨inv_step hl hL.inv h, safe_step hL.safe h hb, ?_⟩
  obtain ⟨_, q, hq, _⟩ := step_cases h
  rw [hq]; exact few_upd hL.few _ _

theorem live_call {l s : Nat} {σ : State} {t : Nat} (hL : Live l s σ) (hi : σ.pc t = .idle) (op : Op) : Live l s (call σ t op) := by
  refine ⟨inv_call hL.inv hi op, ?_, ?_⟩
  · intro t' k x e p hp
    unfold call at hp
    cases op with
    | upd k' fn =>
      simp only at hp
      split at hp
      · exact hL.safe _ _ _ _ _ hp
      · simp only at hp
        by_cases e : t' = t
        · subst e; rw [upd_same] at hp; simp at hp
        · rw [upd_other _ _ e] at hp; exact hL.safe _ _ _ _ _ hp
    | get k' buf =>
      simp only at hp
      by_cases e : t' = t
      · subst e; rw [upd_same] at hp; simp at hp
      · rw [upd_other _ _ e] at hp; exact hL.safe _ _ _ _ _ hp
  · unfold call
    cases op with
    | upd k' fn =>
      simp only
      split
      · exact hL.few
      · exact few_upd hL.few _ _
    | get k' buf => exact few_upd hL.few _ _

theorem invs_grow {l s : Nat} {σ σ' : State} (h : Step l s σ σ') : σ.invs <+: σ'.invs := by
  cases h with
  | call t op h => unfold call; cases op <;> simp only <;> (try split) <;> simp
  | step _ t h => rw [(step_cases h).1]

/-- in every state that can be reached by these calls, the functions that are about to be called will not panic -/
def AllCalm (l s : Nat) (invs : List Op) : Prop := ∀ τ, Steps l s init τ → τ.invs <+: invs → Calm s τ

theorem allCalm_benign {l s : Nat} (hl : 0 < l) {invs : List Op} (hb : ∀ k fn, Op.upd k fn ∈ invs → Benign s fn) : AllCalm l s invs := by
  intro τ hr hp t k x e hpc
  have := (inv_reach hl hr).thr t
  rw [hpc] at this
  exact hb _ _ (hp.subset (List.mem_of_getElem? this.1)) _ _ (bytesOf_length ..)

theorem live_reach {l s : Nat} (hl : 0 < l) {σ : State} (h : Steps l s init σ) (hb : AllCalm l s σ.invs) : Live l s σ := by
  generalize hi : init = σ₀ at h
  induction h with
  | refl => subst hi; exact ⟨inv_init l s, by intro t k x e p h; simp [init] at h, 0, fun _ _ => rfl⟩
  | tail h0 h1 ih =>
    have hg := invs_grow h1
    have hL := ih (fun τ hr hp => hb τ hr (hp.trans hg))
    cases h1 with
    | call t op h => exact live_call hL h op
    | step _ t h => exact live_step hl hL h (hb _ (hi ▸ h0) hg)

theorem run_steps {l s : Nat} {σ : State} {sched : Nat → Nat} (hr : Steps l s init σ) (i : Nat) :
    Steps l s init (runFrom (step l s) sched σ i) := by
  induction i with
  | zero => exact hr
  | succ i ih =>
    rw [runFrom]
    cases h : step l s (runFrom (step l s) sched σ i) (sched i) with
    | none => exact ih
    | some σ' => exact .tail ih (.step _ _ _ h)

section
variable {l s : Nat} {σ : State} {sched : Nat → Nat}

theorem run_live (hl : 0 < l) (hr : Steps l s init σ) (hL : Live l s σ) (hb : AllCalm l s σ.invs) (i : Nat) :
    Live l s (runFrom (step l s) sched σ i) ∧ (runFrom (step l s) sched σ i).invs = σ.invs := by
  induction i with
  | zero => exact ⟨hL, rfl⟩
  | succ i ih =>
    rw [runFrom]
    cases h : step l s (runFrom (step l s) sched σ i) (sched i) with
    | none => exact ih
    | some σ' => exact ⟨live_step hl ih.1 h (hb _ (run_steps hr i) (by rw [ih.2])), (step_cases h).1.trans ih.2⟩

theorem run_idle {T : Nat} (hT : ∀ t, T ≤ t → σ.pc t = .idle) (i : Nat) : ∀ t, T ≤ t → (runFrom (step l s) sched σ i).pc t = .idle := by
  induction i with
  | zero => exact hT
  | succ i ih =>
    intro t ht
    rw [runFrom]
    cases h : step l s (runFrom (step l s) sched σ i) (sched i) with
    | none => exact ih t ht
    | some σ' =>
      obtain ⟨_, q, hq, _⟩ := step_cases h
      simp only [Option.getD_some, hq]
      rw [upd_other]
      · exact ih t ht
      · intro e
        subst e
        rw [step_idle (ih _ ht)] at h
        simp at h

/-- somebody in Update can move -/
theorem writer_moves (hL : Live l s σ) {t : Nat} (h : isW (σ.pc t)) : ∃ t', isW (σ.pc t') ∧ step l s σ t' ≠ none := by
  cases hpc : σ.pc t with
  | uProbe id k fn ini p =>
    refine ⟨t, h, ?_⟩
    unfold step
    rw [hpc]
    simp only
    generalize probeStep l k σ.keys ini p = ps
    obtain ⟨keys, res⟩ := ps
    cases res <;> simp
  | w k x e p =>
    have hmove : ∀ t k x e p, σ.pc t = .w k x e p → wstep s t x e σ.cells p ≠ none → step l s σ t ≠ none := by
      intro t k x e p hpc hne
      unfold step
      rw [hpc]
      simp only
      cases hst : wstep s t x e σ.cells p with
      | none => exact absurd hst hne
      | some cr => obtain ⟨c, r⟩ := cr; cases r <;> simp
    cases hst : wstep s t x e σ.cells p with
    | some cr => exact ⟨t, h, hmove t k x e p hpc (by rw [hst]; simp)⟩
    | none =>
      rcases wstep_none hst with ⟨_, hlock⟩ | hd
      · obtain ⟨t', ht'⟩ := Option.ne_none_iff_exists'.1 hlock
        obtain ⟨e', p', h1, h2⟩ := hL.inv.cells.holder x t' ht'
        unfold wOf PC.w? at h1
        cases hpc' : σ.pc t' with
        | w k2 x2 e2 p2 =>
          rw [hpc'] at h1
          simp only [Option.some.injEq, Prod.mk.injEq] at h1
          obtain ⟨rfl, rfl, rfl⟩ := h1
          refine ⟨t', by rw [hpc']; trivial, hmove _ _ _ _ _ hpc' ?_⟩
          intro hn
          rcases wstep_none hn with ⟨rfl, _⟩ | rfl
          · simp [WPC.inside] at h2
          · exact hL.safe _ _ _ _ _ hpc'
        | idle => rw [hpc'] at h1; simp at h1
        | gone => rw [hpc'] at h1; simp at h1
        | uProbe => rw [hpc'] at h1; simp at h1
        | gProbe => rw [hpc'] at h1; simp at h1
        | r => rw [hpc'] at h1; simp at h1
      · subst hd; exact absurd (hL.safe _ _ _ _ _ hpc) id
  | idle => rw [hpc] at h; exact absurd h id
  | gone => rw [hpc] at h; exact absurd h id
  | gProbe => rw [hpc] at h; exact absurd h id
  | r => rw [hpc] at h; exact absurd h id

/-- first the Updates return -/
theorem writers_done (hl : 0 < l) (hr : Steps l s init σ) (hL : Live l s σ) (hb : AllCalm l s σ.invs) (hf : Fair sched) :
    ∃ n, ∀ t, ¬ isW ((runFrom (step l s) sched σ n).pc t) := by
  obtain ⟨T, hT⟩ := hL.few
  have hdrop : ∀ i, (isW ((runFrom (step l s) sched σ i).pc (sched i)) ∧ step l s (runFrom (step l s) sched σ i) (sched i) ≠ none) →
      Prod.Lex (· < ·) (· < ·)
        (∑ t ∈ Finset.range T, stageOf ((runFrom (step l s) sched σ (i + 1)).pc t), ∑ t ∈ Finset.range T, leftOf ((runFrom (step l s) sched σ (i + 1)).pc t))
        (∑ t ∈ Finset.range T, stageOf ((runFrom (step l s) sched σ i).pc t), ∑ t ∈ Finset.range T, leftOf ((runFrom (step l s) sched σ i).pc t)) := by
    rintro i ⟨hw, hne⟩
    obtain ⟨σ', h⟩ := Option.ne_none_iff_exists'.1 hne
    have hlt : sched i < T := by
      by_contra hge
      rw [run_idle hT i _ (by omega)] at hw
      exact hw
    obtain ⟨_, q, hq, hc⟩ := step_cases h
    rw [runFrom, h]
    simp only [Option.getD_some, hq]
    have e1 := sum_upd stageOf (runFrom (step l s) sched σ i).pc (sched i) q T hlt
    have e2 := sum_upd leftOf (runFrom (step l s) sched σ i).pc (sched i) q T hlt
    rcases hc with ⟨_, h1 | ⟨h1, h2⟩⟩ | ⟨h1, _⟩
    · exact Prod.Lex.left _ _ (by omega)
    · rw [show ∑ x ∈ Finset.range T, stageOf (upd (runFrom (step l s) sched σ i).pc (sched i) q x) =
        ∑ x ∈ Finset.range T, stageOf ((runFrom (step l s) sched σ i).pc x) by omega]
      exact Prod.Lex.right _ (by omega)
    · exact absurd hw h1
  have hwf : WellFounded (Prod.Lex (· < ·) (· < ·) : Nat × Nat → Nat × Nat → Prop) := (Prod.lex ⟨_, Nat.lt_wfRel.wf⟩ ⟨_, Nat.lt_wfRel.wf⟩).wf
  -- a step that is not of an Update changes nothing the Updates depend on
  have hstay : ∀ i, ¬ (isW ((runFrom (step l s) sched σ i).pc (sched i)) ∧ step l s (runFrom (step l s) sched σ i) (sched i) ≠ none) →
      (runFrom (step l s) sched σ (i + 1)).keys = (runFrom (step l s) sched σ i).keys ∧
      (runFrom (step l s) sched σ (i + 1)).cells = (runFrom (step l s) sched σ i).cells ∧
      (∀ t, isW ((runFrom (step l s) sched σ i).pc t) → (runFrom (step l s) sched σ (i + 1)).pc t = (runFrom (step l s) sched σ i).pc t) ∧
      (∀ t, stageOf ((runFrom (step l s) sched σ (i + 1)).pc t) = stageOf ((runFrom (step l s) sched σ i).pc t)) ∧
      (∀ t, leftOf ((runFrom (step l s) sched σ (i + 1)).pc t) = leftOf ((runFrom (step l s) sched σ i).pc t)) := by
    intro i hn
    rw [runFrom]
    cases h : step l s (runFrom (step l s) sched σ i) (sched i) with
    | none => exact ⟨rfl, rfl, fun _ _ => rfl, fun _ => rfl, fun _ => rfl⟩
    | some σ' =>
      have hnw : ¬ isW ((runFrom (step l s) sched σ i).pc (sched i)) := fun hw => hn ⟨hw, by rw [h]; simp⟩
      obtain ⟨_, q, hq, hc⟩ := step_cases h
      rcases hc with ⟨hw, _⟩ | ⟨_, hw, h1, h2, h3, h4, _⟩
      · exact absurd hw hnw
      · simp only [Option.getD_some]
        refine ⟨h1, h2, ?_, ?_, ?_⟩
        · intro t ht
          rw [hq, upd_other]
          rintro rfl
          exact hnw ht
        · intro t
          rw [hq]
          by_cases e : t = sched i
          · rw [e, upd_same]; exact h3
          · rw [upd_other _ _ e]
        · intro t
          rw [hq]
          by_cases e : t = sched i
          · rw [e, upd_same]; exact h4
          · rw [upd_other _ _ e]
  obtain ⟨n, hn⟩ := fair_done hwf (runFrom (step l s) sched σ) sched hf
    (fun σ => (∑ t ∈ Finset.range T, stageOf (σ.pc t), ∑ t ∈ Finset.range T, leftOf (σ.pc t)))
    (fun σ t => isW (σ.pc t) ∧ step l s σ t ≠ none) (by
      intro i
      by_cases hw : isW ((runFrom (step l s) sched σ i).pc (sched i)) ∧ step l s (runFrom (step l s) sched σ i) (sched i) ≠ none
      · exact .inr (hdrop i hw)
      · obtain ⟨_, _, _, h4, h5⟩ := hstay i hw
        left
        simp only [h4, h5]) (by
      intro i t he ht
      by_cases hw : isW ((runFrom (step l s) sched σ i).pc (sched i)) ∧ step l s (runFrom (step l s) sched σ i) (sched i) ≠ none
      · have := hdrop i hw
        rw [he] at this
        exact absurd this (hwf.irrefl.irrefl _)
      · obtain ⟨h1, h2, h3, _, _⟩ := hstay i hw
        refine ⟨by rw [h3 t ht.1]; exact ht.1, ?_⟩
        exact step_congr (h3 t ht.1) h1 h2 ht.2) (fun i h => hdrop i h)
  refine ⟨n, fun t ht => ?_⟩
  obtain ⟨t', h⟩ := writer_moves (run_live (sched := sched) hl hr hL hb n).1 ht
  exact hn t' h

/-- then the Gets return -/
theorem readers_done (hL : Live l s σ) (hf : Fair sched)
    (hno : ∀ t, ¬ isW (σ.pc t)) : ∃ n, ∀ t, (runFrom (step l s) sched σ n).pc t = .idle ∨ (runFrom (step l s) sched σ n).pc t = .gone := by
  obtain ⟨T, hT⟩ := hL.few
  have heven : ∀ x, (σ.cells.seq x).toNat % 2 = 0 := by
    intro x
    apply hL.inv.cells.even
    cases hk : σ.cells.lock x with
    | none => rfl
    | some t =>
      obtain ⟨e, p, h1, _⟩ := hL.inv.cells.holder x t hk
      exfalso
      apply hno t
      unfold wOf PC.w? at h1
      cases hp : σ.pc t with
      | w => trivial
      | idle => rw [hp] at h1; simp at h1
      | gone => rw [hp] at h1; simp at h1
      | uProbe => trivial
      | gProbe => rw [hp] at h1; simp at h1
      | r => rw [hp] at h1; simp at h1
  have hsame : ∀ i, (∀ t, ¬ isW ((runFrom (step l s) sched σ i).pc t)) ∧ (runFrom (step l s) sched σ i).cells = σ.cells ∧
      (runFrom (step l s) sched σ i).keys = σ.keys := by
    intro i
    induction i with
    | zero => exact ⟨hno, rfl, rfl⟩
    | succ i ih =>
      rw [runFrom]
      cases h : step l s (runFrom (step l s) sched σ i) (sched i) with
      | none => exact ih
      | some σ' =>
        obtain ⟨_, q, hq, hc⟩ := step_cases h
        rcases hc with ⟨hw, _⟩ | ⟨_, hw, h1, h2, _⟩
        · exact absurd hw (ih.1 _)
        · simp only [Option.getD_some]
          refine ⟨?_, h2.trans ih.2.1, h1.trans ih.2.2⟩
          intro t
          rw [hq]
          by_cases e : t = sched i
          · rw [e, upd_same]; exact hw
          · rw [upd_other _ _ e]; exact ih.1 t
  have hdrop : ∀ i σ', step l s (runFrom (step l s) sched σ i) (sched i) = some σ' →
      (∑ t ∈ Finset.range T, getLeft σ.cells (σ'.pc t)) < ∑ t ∈ Finset.range T, getLeft σ.cells ((runFrom (step l s) sched σ i).pc t) := by
    intro i σ' h
    have hlt : sched i < T := by
      by_contra hge
      rw [step_idle (run_idle hT i _ (by omega))] at h
      simp at h
    obtain ⟨_, q, hq, hc⟩ := step_cases h
    rcases hc with ⟨hw, _⟩ | ⟨_, _, _, _, _, _, hd⟩
    · exact absurd hw ((hsame i).1 _)
    · rw [(hsame i).2.1] at hd
      have := hd heven
      have e1 := sum_upd (getLeft σ.cells) (runFrom (step l s) sched σ i).pc (sched i) q T hlt
      rw [hq]
      omega
  obtain ⟨n, hn⟩ := fair_done Nat.lt_wfRel.wf (runFrom (step l s) sched σ) sched hf
    (fun τ => ∑ t ∈ Finset.range T, getLeft σ.cells (τ.pc t)) (fun τ t => step l s τ t ≠ none) (by
      intro i
      rw [runFrom]
      cases h : step l s (runFrom (step l s) sched σ i) (sched i) with
      | none => exact .inl rfl
      | some σ' => exact .inr (hdrop i σ' h)) (by
      intro i t he ht
      rw [runFrom] at he ⊢
      cases h : step l s (runFrom (step l s) sched σ i) (sched i) with
      | none => exact ht
      | some σ' =>
        rw [h] at he
        have := hdrop i σ' h
        simp only [Option.getD_some] at he
        omega) (by
      intro i h
      obtain ⟨σ', h⟩ := Option.ne_none_iff_exists'.1 h
      have := hdrop i σ' h
      rw [runFrom, h]
      exact this)
  refine ⟨n, fun t => ?_⟩
  have := hn t
  simp only [ne_eq, Classical.not_not] at this
  exact step_reader ((hsame n).1 t) this

/-- all calls end -/
theorem all_done (hl : 0 < l) (hr : Steps l s init σ) (hL : Live l s σ) (hb : AllCalm l s σ.invs) (hf : Fair sched) :
    ∃ N τ, (∀ n, N ≤ n → runFrom (step l s) sched σ n = τ) ∧ ∀ t, τ.pc t = .idle ∨ τ.pc t = .gone := by
  obtain ⟨n, hn⟩ := writers_done hl hr hL hb hf
  obtain ⟨hL', hi⟩ := run_live (sched := sched) hl hr hL hb n
  obtain ⟨m, hm⟩ := readers_done hL' (hf.shift n) hn
  refine ⟨n + m, _, ?_, hm⟩
  intro k hk
  rw [show k = n + (m + (k - (n + m))) by omega, runFrom_add, runFrom_add]
  apply runFrom_stuck
  intro t
  rcases hm t with h | h
  · exact step_idle h
  · exact step_gone h

end

end Starbow.BufmapConc
