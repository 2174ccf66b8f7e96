import Verif.Proof.CellLive
import Verif.Proof.Seqlock
/- seqlock: every call returns under a fair schedule. -/
namespace Starbow.Seqlock
open Starbow.Probe Starbow.Cell Starbow.Spec

/-- in Put or Update -/
def isW : PC → Prop
  | .w .. => True
  | _ => False

def stageOf : PC → Nat
  | .w _ p => wstage p
  | _ => 0

def leftOf : PC → Nat
  | .w _ p => wleft p
  | _ => 0

/-- steps a Get needs if nobody writes -/
def getLeft (n : Nat) (c : Cells) : PC → Nat
  | .r _ p => rleft n (c.seq 0) p
  | _ => 0

/-- what a step does to the measures -/
theorem step_cases {n : Nat} {σ σ' : State} {t : Nat} (h : step n σ t = some σ') :
    σ'.invs = σ.invs ∧ ∃ p', σ'.pc = upd σ.pc t p' ∧
      ((isW (σ.pc t) ∧ (stageOf p' < stageOf (σ.pc t) ∨ (stageOf p' = stageOf (σ.pc t) ∧ leftOf p' < leftOf (σ.pc t)))) ∨
       (¬ isW (σ.pc t) ∧ ¬ isW p' ∧ σ'.cells = σ.cells ∧ stageOf p' = stageOf (σ.pc t) ∧ leftOf p' = leftOf (σ.pc t) ∧
        ((∀ x, (σ.cells.seq x).toNat % 2 = 0) → getLeft n σ.cells p' < getLeft n σ.cells (σ.pc t)))) := by
  unfold step at h
  cases hpc : σ.pc t with
  | idle => rw [hpc] at h; simp at h
  | w e p =>
    rw [hpc] at h
    simp only at h
    cases hst : wstep n t 0 e σ.cells p with
    | none => rw [hst] at h; simp at h
    | some cr =>
      obtain ⟨c, r⟩ := cr
      rw [hst] at h
      cases r with
      | go q =>
        have h := Option.some.inj h
        subst h
        exact ⟨rfl, _, rfl, .inl ⟨trivial, wstep_left hst⟩⟩
      | ret err =>
        have h := Option.some.inj h
        subst h
        obtain ⟨h1, h2⟩ := wstep_last hst
        exact ⟨rfl, _, rfl, .inl ⟨trivial, .inr ⟨by simp [stageOf, h1], by simp [leftOf, h2]⟩⟩⟩
  | r id' p =>
    rw [hpc] at h
    simp only at h
    cases hst : rstep n 0 n σ.cells p with
    | go p' =>
      rw [hst] at h
      have h := Option.some.inj h
      subst h
      exact ⟨rfl, _, rfl, .inr ⟨id, id, rfl, rfl, rfl, fun he => rstep_left (he 0) hst⟩⟩
    | done got during =>
      rw [hst] at h
      have h := Option.some.inj h
      subst h
      refine ⟨rfl, _, rfl, .inr ⟨id, id, rfl, rfl, rfl, fun _ => ?_⟩⟩
      cases p with
      | load1 => simp only [getLeft, rleft]; omega
      | copy sq ct g => simp only [getLeft, rleft]; omega

theorem step_idle {n : Nat} {σ : State} {t : Nat} (h : σ.pc t = .idle) : step n σ t = none := by
  unfold step; rw [h]

/-- whether a goroutine can move depends on its place and the shared memory -/
theorem step_congr {n : Nat} {σ σ' : State} {t : Nat} (hp : σ'.pc t = σ.pc t) (hc : σ'.cells = σ.cells)
    (h : step n σ t ≠ none) : step n σ' t ≠ none := by
  unfold step at h ⊢
  rw [hp, hc]
  cases hpc : σ.pc t with
  | w e p =>
    rw [hpc] at h
    simp only at h ⊢
    cases hst : wstep n t 0 e σ.cells p with
    | none => rw [hst] at h; exact absurd rfl h
    | some cr => obtain ⟨c, r⟩ := cr; cases r <;> simp
  | idle => rw [hpc] at h; exact absurd rfl h
  | r id p =>
    simp only
    split <;> simp

/-- a Get can always move -/
theorem step_reader {n : Nat} {σ : State} {t : Nat} (hw : ¬ isW (σ.pc t)) (h : step n σ t = none) : σ.pc t = .idle := by
  cases hp : σ.pc t with
  | idle => rfl
  | w => exact absurd (by rw [hp]; trivial) hw
  | r id p =>
    unfold step at h
    rw [hp] at h
    simp only at h
    split at h <;> simp at h

/-- the functions passed to the Updates so far do not panic -/
def Good (n : Nat) (invs : List Op) : Prop := ∀ fn, Op.update fn ∈ invs → ∀ d, d.length = n → (fn d).2 ≠ .panic

theorem copyOf_lt {n : Nat} {v : Bytes} : ∀ w ∈ copyOf n v, w.1 < n := by
  intro w hw
  unfold copyOf at hw
  obtain ⟨i, hi, rfl⟩ := List.mem_map.1 hw
  exact List.mem_range.1 hi

theorem good_benign {n : Nat} {invs : List Op} (hb : Good n invs) {e : Entry} (he : EntryOk n invs e) : Benign n e.fn := by
  obtain ⟨op, h1, h2, h3, _⟩ := he
  intro d ini hd
  rw [h3]
  cases op with
  | get => exact absurd rfl h2
  | put v => exact ⟨copyOf_lt, by simp [writer]⟩
  | update fn =>
    have := hb fn (List.mem_of_getElem? h1) d hd
    simp only [writer]
    generalize hr : fn d = r at this
    obtain ⟨d', o⟩ := r
    cases o with
    | panic => exact absurd rfl this
    | val e =>
      cases e with
      | none => exact ⟨copyOf_lt, by simp⟩
      | some e => exact ⟨by simp, by simp⟩

/-- no writer has panicked or is going to -/
def Safe (n : Nat) (σ : State) : Prop := ∀ t e p, σ.pc t = .w e p → Sane n p

theorem safe_step {n : Nat} {σ σ' : State} {t : Nat} (hI : Inv n σ) (hs : Safe n σ) (h : step n σ t = some σ')
    (hb : Good n σ.invs) : Safe n σ' := by
  have ht := hI.thr t
  obtain ⟨_, q, hq, hc⟩ := step_cases h
  intro t' e p hp
  rw [hq] at hp
  by_cases et : t' = t
  · subst et
    rw [upd_same] at hp
    subst hp
    have hh : ∀ a, upd σ.pc t' a = upd σ.pc t' (PC.w e p) → a = PC.w e p := by
      intro a ha; have := congrFun ha t'; rwa [upd_same, upd_same] at this
    rcases hc with ⟨hw, _⟩ | ⟨_, hw, _⟩
    · cases hpc : σ.pc t' with
      | idle => rw [hpc] at hw; exact absurd hw id
      | r => rw [hpc] at hw; exact absurd hw id
      | w e' p' =>
        unfold step at h
        rw [hpc] at h ht
        simp only at h
        cases hst : wstep n t' 0 e' σ.cells p' with
        | none => rw [hst] at h; simp at h
        | some cr =>
          obtain ⟨c, r⟩ := cr
          rw [hst] at h
          cases r with
          | go q =>
            have h := Option.some.inj h
            subst h
            have := hh _ hq
            simp only [PC.w.injEq] at this
            rw [← this.2]
            exact wstep_sane hst (hs _ _ _ hpc) (fun _ => good_benign hb ht _ _ (bytesOf_length ..))
          | ret err => have h := Option.some.inj h; subst h; have := hh _ hq; simp at this
    · exact absurd trivial hw
  · rw [upd_other _ _ et] at hp; exact hs _ _ _ hp

/-- everything that holds in a reachable state whose functions do not panic -/
structure Live (n : Nat) (σ : State) : Prop where
  inv : Inv n σ
  safe : Safe n σ
  few : ∃ T, ∀ t, T ≤ t → σ.pc t = .idle

theorem few_upd {pc : Nat → PC} (h : ∃ T, ∀ t, T ≤ t → pc t = .idle) (t : Nat) (p : PC) : ∃ T, ∀ t', T ≤ t' → upd pc t p t' = .idle := by
  obtain ⟨T, hT⟩ := h
  exact ⟨max T (t + 1), fun t' ht' => by rw [upd_other _ _ (by omega)]; exact hT _ (by omega)⟩

theorem live_step {n : Nat} {σ σ' : State} {t : Nat} (hL : Live n σ) (h : step n σ t = some σ')
    (hb : Good n σ.invs) : Live n σ' := by
  refine ⟨inv_step hL.inv h, safe_step hL.inv hL.safe h hb, ?_⟩
  obtain ⟨_, q, hq, _⟩ := step_cases h
  rw [hq]; exact few_upd hL.few _ _

theorem live_call {n : Nat} {σ : State} {t : Nat} (hL : Live n σ) (hi : σ.pc t = .idle) (op : Op) : Live n (call n σ t op) := by
  refine ⟨inv_call hL.inv hi op, ?_, ?_⟩
  · intro t' e p hp
    unfold call at hp
    simp only at hp
    by_cases et : t' = t
    · subst et
      rw [upd_same] at hp
      cases op <;> simp only [PC.w.injEq, reduceCtorEq] at hp <;> rw [← hp.2] <;> trivial
    · rw [upd_other _ _ et] at hp; exact hL.safe _ _ _ hp
  · unfold call
    exact few_upd hL.few _ _

theorem invs_grow {n : Nat} {σ σ' : State} (h : Step n σ σ') : σ.invs <+: σ'.invs := by
  cases h with
  | call t op h => unfold call; simp
  | step _ t h => rw [(step_cases h).1]

theorem live_reach {n : Nat} {σ : State} (h : Steps n init σ) (hb : Good n σ.invs) : Live n σ := by
  generalize hi : init = σ₀ at h
  induction h with
  | refl => subst hi; exact ⟨inv_init n, by intro t e p h; simp [init] at h, 0, fun _ _ => rfl⟩
  | tail _ h1 ih =>
    have hg := invs_grow h1
    have hL := ih (fun fn hm => hb fn (hg.subset hm))
    cases h1 with
    | call t op h => exact live_call hL h op
    | step _ t h => exact live_step hL h fun fn hm => hb fn (hg.subset hm)

section
variable {s : Nat} {σ : State} {sched : Nat → Nat}

theorem run_live (hL : Live s σ) (hb : Good s σ.invs) (i : Nat) :
    Live s (runFrom (step s) sched σ i) ∧ (runFrom (step s) sched σ i).invs = σ.invs := by
  induction i with
  | zero => exact ⟨hL, rfl⟩
  | succ i ih =>
    rw [runFrom]
    cases h : step s (runFrom (step s) sched σ i) (sched i) with
    | none => exact ih
    | some σ' => exact ⟨live_step ih.1 h (by rw [ih.2]; exact hb), (step_cases h).1.trans ih.2⟩

theorem run_idle {T : Nat} (hT : ∀ t, T ≤ t → σ.pc t = .idle) (i : Nat) : ∀ t, T ≤ t → (runFrom (step s) sched σ i).pc t = .idle := by
  induction i with
  | zero => exact hT
  | succ i ih =>
    intro t ht
    rw [runFrom]
    cases h : step s (runFrom (step s) sched σ i) (sched i) with
    | none => exact ih t ht
    | some σ' =>
      obtain ⟨_, q, hq, _⟩ := step_cases h
      simp only [Option.getD_some, hq]
      rw [upd_other]
      · exact ih t ht
      · intro e
        subst e
        rw [step_idle (ih _ ht)] at h
        simp at h

/-- somebody in Put or Update can move -/
theorem writer_moves (hL : Live s σ) {t : Nat} (h : isW (σ.pc t)) : ∃ t', isW (σ.pc t') ∧ step s σ t' ≠ none := by
  cases hpc : σ.pc t with
  | w e p =>
    have hmove : ∀ t e p, σ.pc t = .w e p → wstep s t 0 e σ.cells p ≠ none → step s σ t ≠ none := by
      intro t e p hpc hne
      unfold step
      rw [hpc]
      simp only
      cases hst : wstep s t 0 e σ.cells p with
      | none => exact absurd hst hne
      | some cr => obtain ⟨c, r⟩ := cr; cases r <;> simp
    cases hst : wstep s t 0 e σ.cells p with
    | some cr => exact ⟨t, h, hmove t e p hpc (by rw [hst]; simp)⟩
    | none =>
      rcases wstep_none hst with ⟨_, hlock⟩ | hd
      · obtain ⟨t', ht'⟩ := Option.ne_none_iff_exists'.1 hlock
        obtain ⟨e', p', h1, h2⟩ := hL.inv.cells.holder 0 t' ht'
        unfold wOf PC.w? at h1
        cases hpc' : σ.pc t' with
        | w e2 p2 =>
          rw [hpc'] at h1
          simp only [Option.some.injEq, Prod.mk.injEq, true_and] at h1
          obtain ⟨rfl, rfl⟩ := h1
          refine ⟨t', by rw [hpc']; trivial, hmove _ _ _ hpc' ?_⟩
          intro hn
          rcases wstep_none hn with ⟨rfl, _⟩ | rfl
          · simp [WPC.inside] at h2
          · exact hL.safe _ _ _ hpc'
        | idle => rw [hpc'] at h1; simp at h1
        | r => rw [hpc'] at h1; simp at h1
      · subst hd; exact absurd (hL.safe _ _ _ hpc) id
  | idle => rw [hpc] at h; exact absurd h id
  | r => rw [hpc] at h; exact absurd h id

/-- first the writers return -/
theorem writers_done (hL : Live s σ) (hb : Good s σ.invs) (hf : Fair sched) :
    ∃ n, ∀ t, ¬ isW ((runFrom (step s) sched σ n).pc t) := by
  obtain ⟨T, hT⟩ := hL.few
  have hdrop : ∀ i, (isW ((runFrom (step s) sched σ i).pc (sched i)) ∧ step s (runFrom (step s) sched σ i) (sched i) ≠ none) →
      Prod.Lex (· < ·) (· < ·)
        (∑ t ∈ Finset.range T, stageOf ((runFrom (step s) sched σ (i + 1)).pc t), ∑ t ∈ Finset.range T, leftOf ((runFrom (step s) sched σ (i + 1)).pc t))
        (∑ t ∈ Finset.range T, stageOf ((runFrom (step s) sched σ i).pc t), ∑ t ∈ Finset.range T, leftOf ((runFrom (step s) sched σ i).pc t)) := by
    rintro i ⟨hw, hne⟩
    obtain ⟨σ', h⟩ := Option.ne_none_iff_exists'.1 hne
    have hlt : sched i < T := by
      by_contra hge
      rw [run_idle hT i _ (by omega)] at hw
      exact hw
    obtain ⟨_, q, hq, hc⟩ := step_cases h
    rw [runFrom, h]
    simp only [Option.getD_some, hq]
    have e1 := sum_upd stageOf (runFrom (step s) sched σ i).pc (sched i) q T hlt
    have e2 := sum_upd leftOf (runFrom (step s) sched σ i).pc (sched i) q T hlt
    rcases hc with ⟨_, h1 | ⟨h1, h2⟩⟩ | ⟨h1, _⟩
    · exact Prod.Lex.left _ _ (by omega)
    · rw [show ∑ x ∈ Finset.range T, stageOf (upd (runFrom (step s) sched σ i).pc (sched i) q x) =
        ∑ x ∈ Finset.range T, stageOf ((runFrom (step s) sched σ i).pc x) by omega]
      exact Prod.Lex.right _ (by omega)
    · exact absurd hw h1
  have hwf : WellFounded (Prod.Lex (· < ·) (· < ·) : Nat × Nat → Nat × Nat → Prop) := (Prod.lex ⟨_, Nat.lt_wfRel.wf⟩ ⟨_, Nat.lt_wfRel.wf⟩).wf
  -- a step that is not of an Update changes nothing the Updates depend on
  have hstay : ∀ i, ¬ (isW ((runFrom (step s) sched σ i).pc (sched i)) ∧ step s (runFrom (step s) sched σ i) (sched i) ≠ none) →
      (runFrom (step s) sched σ (i + 1)).cells = (runFrom (step s) sched σ i).cells ∧
      (∀ t, isW ((runFrom (step s) sched σ i).pc t) → (runFrom (step s) sched σ (i + 1)).pc t = (runFrom (step s) sched σ i).pc t) ∧
      (∀ t, stageOf ((runFrom (step s) sched σ (i + 1)).pc t) = stageOf ((runFrom (step s) sched σ i).pc t)) ∧
      (∀ t, leftOf ((runFrom (step s) sched σ (i + 1)).pc t) = leftOf ((runFrom (step s) sched σ i).pc t)) := by
    intro i hn
    rw [runFrom]
    cases h : step s (runFrom (step s) sched σ i) (sched i) with
    | none => exact ⟨rfl, fun _ _ => rfl, fun _ => rfl, fun _ => rfl⟩
    | some σ' =>
      have hnw : ¬ isW ((runFrom (step s) sched σ i).pc (sched i)) := fun hw => hn ⟨hw, by rw [h]; simp⟩
      obtain ⟨_, q, hq, hc⟩ := step_cases h
      rcases hc with ⟨hw, _⟩ | ⟨_, hw, h2, h3, h4, _⟩
      · exact absurd hw hnw
      · simp only [Option.getD_some]
        refine ⟨h2, ?_, ?_, ?_⟩
        · intro t ht
          rw [hq, upd_other]
          rintro rfl
          exact hnw ht
        · intro t
          rw [hq]
          by_cases e : t = sched i
          · rw [e, upd_same]; exact h3
          · rw [upd_other _ _ e]
        · intro t
          rw [hq]
          by_cases e : t = sched i
          · rw [e, upd_same]; exact h4
          · rw [upd_other _ _ e]
  obtain ⟨n, hn⟩ := fair_done hwf (runFrom (step s) sched σ) sched hf
    (fun σ => (∑ t ∈ Finset.range T, stageOf (σ.pc t), ∑ t ∈ Finset.range T, leftOf (σ.pc t)))
    (fun σ t => isW (σ.pc t) ∧ step s σ t ≠ none) (by
      intro i
      by_cases hw : isW ((runFrom (step s) sched σ i).pc (sched i)) ∧ step s (runFrom (step s) sched σ i) (sched i) ≠ none
      · exact .inr (hdrop i hw)
      · obtain ⟨_, _, h4, h5⟩ := hstay i hw
        left
        simp only [h4, h5]) (by
      intro i t he ht
      by_cases hw : isW ((runFrom (step s) sched σ i).pc (sched i)) ∧ step s (runFrom (step s) sched σ i) (sched i) ≠ none
      · have := hdrop i hw
        rw [he] at this
        exact absurd this (hwf.irrefl.irrefl _)
      · obtain ⟨h2, h3, _, _⟩ := hstay i hw
        refine ⟨by rw [h3 t ht.1]; exact ht.1, ?_⟩
        exact step_congr (h3 t ht.1) h2 ht.2) (fun i h => hdrop i h)
  refine ⟨n, fun t ht => ?_⟩
  obtain ⟨t', h⟩ := writer_moves (run_live (sched := sched) hL hb n).1 ht
  exact hn t' h

/-- then the Gets return -/
theorem readers_done (hL : Live s σ) (hb : Good s σ.invs) (hf : Fair sched)
    (hno : ∀ t, ¬ isW (σ.pc t)) : ∃ n, ∀ t, (runFrom (step s) sched σ n).pc t = .idle := by
  obtain ⟨T, hT⟩ := hL.few
  have heven : ∀ x, (σ.cells.seq x).toNat % 2 = 0 := by
    intro x
    apply hL.inv.cells.even
    cases hk : σ.cells.lock x with
    | none => rfl
    | some t =>
      obtain ⟨e, p, h1, _⟩ := hL.inv.cells.holder x t hk
      exfalso
      apply hno t
      unfold wOf PC.w? at h1
      cases hp : σ.pc t with
      | w => trivial
      | idle => rw [hp] at h1; simp at h1
      | r => rw [hp] at h1; simp at h1
  have hsame : ∀ i, (∀ t, ¬ isW ((runFrom (step s) sched σ i).pc t)) ∧ (runFrom (step s) sched σ i).cells = σ.cells := by
    intro i
    induction i with
    | zero => exact ⟨hno, rfl⟩
    | succ i ih =>
      rw [runFrom]
      cases h : step s (runFrom (step s) sched σ i) (sched i) with
      | none => exact ih
      | some σ' =>
        obtain ⟨_, q, hq, hc⟩ := step_cases h
        rcases hc with ⟨hw, _⟩ | ⟨_, hw, h2, _⟩
        · exact absurd hw (ih.1 _)
        · simp only [Option.getD_some]
          refine ⟨?_, h2.trans ih.2⟩
          intro t
          rw [hq]
          by_cases e : t = sched i
          · rw [e, upd_same]; exact hw
          · rw [upd_other _ _ e]; exact ih.1 t
  have hdrop : ∀ i σ', step s (runFrom (step s) sched σ i) (sched i) = some σ' →
      (∑ t ∈ Finset.range T, getLeft s σ.cells (σ'.pc t)) < ∑ t ∈ Finset.range T, getLeft s σ.cells ((runFrom (step s) sched σ i).pc t) := by
    intro i σ' h
    have hlt : sched i < T := by
      by_contra hge
      rw [step_idle (run_idle hT i _ (by omega))] at h
      simp at h
    obtain ⟨_, q, hq, hc⟩ := step_cases h
    rcases hc with ⟨hw, _⟩ | ⟨_, _, _, _, _, hd⟩
    · exact absurd hw ((hsame i).1 _)
    · rw [(hsame i).2] at hd
      have := hd heven
      have e1 := sum_upd (getLeft s σ.cells) (runFrom (step s) sched σ i).pc (sched i) q T hlt
      rw [hq]
      omega
  obtain ⟨n, hn⟩ := fair_done Nat.lt_wfRel.wf (runFrom (step s) sched σ) sched hf
    (fun τ => ∑ t ∈ Finset.range T, getLeft s σ.cells (τ.pc t)) (fun τ t => step s τ t ≠ none) (by
      intro i
      rw [runFrom]
      cases h : step s (runFrom (step s) sched σ i) (sched i) with
      | none => exact .inl rfl
      | some σ' => exact .inr (hdrop i σ' h)) (by
      intro i t he ht
      rw [runFrom] at he ⊢
      cases h : step s (runFrom (step s) sched σ i) (sched i) with
      | none => exact ht
      | some σ' =>
        rw [h] at he
        have := hdrop i σ' h
        simp only [Option.getD_some] at he
        omega) (by
      intro i h
      obtain ⟨σ', h⟩ := Option.ne_none_iff_exists'.1 h
      have := hdrop i σ' h
      rw [runFrom, h]
      exact this)
  refine ⟨n, fun t => ?_⟩
  have := hn t
  simp only [ne_eq, Classical.not_not] at this
  exact step_reader ((hsame n).1 t) this

/-- all calls end -/
theorem all_done (hL : Live s σ) (hb : Good s σ.invs) (hf : Fair sched) :
    ∃ N τ, (∀ n, N ≤ n → runFrom (step s) sched σ n = τ) ∧ ∀ t, τ.pc t = .idle := by
  obtain ⟨n, hn⟩ := writers_done hL hb hf
  obtain ⟨hL', hi⟩ := run_live (sched := sched) hL hb n
  obtain ⟨m, hm⟩ := readers_done hL' (by rw [hi]; exact hb) (hf.shift n) hn
  refine ⟨n + m, _, ?_, hm⟩
  intro k hk
  rw [show k = n + (m + (k - (n + m))) by omega, runFrom_add, runFrom_add]
  apply runFrom_stuck
  intro t
  exact step_idle (hm t)

end

end Starbow.Seqlock
