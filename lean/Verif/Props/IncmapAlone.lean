import Verif.Props.IncmapSeq
/-
A goroutine that runs alone does in the concurrent model of incmap what the sequential model says.
-/
namespace Starbow.IncmapConc
open Starbow.Probe

/-- goroutine `t` moves, the others do not -/
inductive Alone (l t : Nat) : State → State → Prop where
  | refl (σ : State) : Alone l t σ σ
  | head {σ σ' σ'' : State} : step l σ t = some σ' → Alone l t σ' σ'' → Alone l t σ σ''

/-- the shared memory is that of the sequential map -/
structure Same (l : Nat) (σ : State) (m : Incmap.Map) : Prop where
  hl : m.l = l
  klen : m.keys.length = l
  vlen : m.values.length = l
  keys : ∀ x, x < l → σ.keys x = m.keyAt x
  vals : ∀ x, x < l → σ.vals x = m.values.getD x 0

theorem upd_same {α : Type} (f : Nat → α) (i : Nat) (v : α) : upd f i v i = v := by unfold upd; rw [if_pos rfl]
theorem upd_upd {α : Type} (f : Nat → α) (i : Nat) (v w : α) : upd (upd f i v) i w = upd f i w := by
  funext j; unfold upd; split <;> rfl
theorem upd_id {α : Type} (f : Nat → α) (i : Nat) (v : α) (h : f i = v) : upd f i v = f := by
  funext j; unfold upd; split
  · rename_i e; rw [e, h]
  · rfl

/-- the loop of Inc -/
theorem probe_alone {l t : Nat} (hl : 0 < l) {m : Incmap.Map} {id : Nat} {k d : U64} : ∀ (n i : Nat) (ini : Bool) (σ : State), Same l σ m →
    i + (n + 1) = maxReprobe + 1 → σ.pc t = .probe id k d (.load i) →
    match claim m.keyAt l k (n + 1) i ini with
    | .full => Alone l t σ { σ with pc := upd σ.pc t .idle, rets := σ.rets ++ [(id, .inc false)] }
    | .at x _ => Alone l t σ { σ with keys := upd σ.keys x k, pc := upd σ.pc t (.add id k d x) } := by
  intro n
  induction n with
  | zero =>
    intro i ini σ hs hi hpc
    have hk := hs.keys _ (pos_lt hl k i)
    rw [claim, claim]
    by_cases h1 : m.keyAt (pos l k i) = k
    · rw [if_pos h1]
      refine .head (σ' := { σ with pc := upd σ.pc t (.add id k d (pos l k i)) }) ?_ ?_
      · simp only [step, hpc, probeStep, hk, h1, if_true]
      · rw [upd_id σ.keys _ _ (hk.trans h1)]; exact .refl _
    · rw [if_neg h1]
      by_cases h0 : m.keyAt (pos l k i) = 0
      · rw [if_pos h0]
        refine .head (σ' := { σ with pc := upd σ.pc t (.probe id k d (.cas i)) }) ?_ (.head (σ' := { σ with keys := upd σ.keys (pos l k i) k, pc := upd σ.pc t (.add id k d (pos l k i)) }) ?_ (.refl _))
        · have h1' : ¬ (0 : U64) = k := fun e => h1 (h0.trans e)
          simp only [step, hpc, probeStep, hk, h0, if_true, if_neg h1']
        · simp only [step, probeStep, hk, h0, if_true, upd_same, upd_upd]
      · rw [if_neg h0]
        refine .head (σ' := { σ with pc := upd σ.pc t (.probe id k d (.reload i)) }) ?_ (.head (σ' := { σ with pc := upd σ.pc t .idle, rets := σ.rets ++ [(id, .inc false)] }) ?_ (.refl _))
        · simp only [step, hpc, probeStep, hk, if_neg h1, if_neg h0]
        · simp only [step, probeStep, hk, if_neg h1, upd_same, upd_upd]
          rw [if_pos (by omega)]
  | succ n ih =>
    intro i ini σ hs hi hpc
    have hk := hs.keys _ (pos_lt hl k i)
    rw [claim]
    by_cases h1 : m.keyAt (pos l k i) = k
    · rw [if_pos h1]
      refine .head (σ' := { σ with pc := upd σ.pc t (.add id k d (pos l k i)) }) ?_ ?_
      · simp only [step, hpc, probeStep, hk, h1, if_true]
      · rw [upd_id σ.keys _ _ (hk.trans h1)]; exact .refl _
    · rw [if_neg h1]
      by_cases h0 : m.keyAt (pos l k i) = 0
      · rw [if_pos h0]
        refine .head (σ' := { σ with pc := upd σ.pc t (.probe id k d (.cas i)) }) ?_ (.head (σ' := { σ with keys := upd σ.keys (pos l k i) k, pc := upd σ.pc t (.add id k d (pos l k i)) }) ?_ (.refl _))
        · have h1' : ¬ (0 : U64) = k := fun e => h1 (h0.trans e)
          simp only [step, hpc, probeStep, hk, h0, if_true, if_neg h1']
        · simp only [step, probeStep, hk, h0, if_true, upd_same, upd_upd]
      · rw [if_neg h0]
        have h2 := ih (i + 1) true { σ with pc := upd σ.pc t (.probe id k d (.load (i + 1))) }
          ⟨hs.hl, hs.klen, hs.vlen, hs.keys, hs.vals⟩ (by omega) (upd_same _ _ _)
        have pre : ∀ {σ''}, Alone l t { σ with pc := upd σ.pc t (.probe id k d (.load (i + 1))) } σ'' → Alone l t σ σ'' := by
          intro σ'' ha
          refine .head (σ' := { σ with pc := upd σ.pc t (.probe id k d (.reload i)) }) ?_ (.head (σ' := { σ with pc := upd σ.pc t (.probe id k d (.load (i + 1))) }) ?_ ha)
          · simp only [step, hpc, probeStep, hk, if_neg h1, if_neg h0]
          · simp only [step, probeStep, hk, if_neg h1, upd_same, upd_upd]
            rw [if_neg (by omega)]
        cases hc : claim m.keyAt l k (n + 1) (i + 1) true with
        | full => rw [hc] at h2; simp only [upd_upd] at h2; exact pre h2
        | «at» x ini' => rw [hc] at h2; simp only [upd_upd] at h2; exact pre h2

theorem Alone.trans {l t : Nat} {a b c : State} (h : Alone l t a b) (h' : Alone l t b c) : Alone l t a c := by
  induction h with
  | refl _ => exact h'
  | head h1 _ ih => exact .head h1 (ih h')

/-- the loop of Get -/
theorem look_alone {l t : Nat} (hl : 0 < l) {m : Incmap.Map} {id : Nat} {k : U64} : ∀ (n i : Nat) (σ : State), Same l σ m →
    i + (n + 1) = maxReprobe + 1 → σ.pc t = .look id k i →
    match lookup m.keyAt l k (n + 1) i with
    | none => Alone l t σ { σ with pc := upd σ.pc t .idle, rets := σ.rets ++ [(id, .get 0 false)] }
    | some x => Alone l t σ { σ with pc := upd σ.pc t (.load id k x) } := by
  intro n
  induction n with
  | zero =>
    intro i σ hs hi hpc
    have hk := hs.keys _ (pos_lt hl k i)
    rw [lookup, lookup]
    by_cases h1 : m.keyAt (pos l k i) = k
    · rw [if_pos h1]
      refine .head ?_ (.refl _)
      simp only [step, hpc, lookStep, hk, h1, if_true]
    · rw [if_neg h1]
      refine .head ?_ (.refl _)
      simp only [step, hpc, lookStep, hk, if_neg h1]
      rw [if_pos (by omega)]
  | succ n ih =>
    intro i σ hs hi hpc
    have hk := hs.keys _ (pos_lt hl k i)
    rw [lookup]
    by_cases h1 : m.keyAt (pos l k i) = k
    · rw [if_pos h1]
      refine .head ?_ (.refl _)
      simp only [step, hpc, lookStep, hk, h1, if_true]
    · rw [if_neg h1]
      have h2 := ih (i + 1) { σ with pc := upd σ.pc t (.look id k (i + 1)) }
        ⟨hs.hl, hs.klen, hs.vlen, hs.keys, hs.vals⟩ (by omega) (upd_same _ _ _)
      have pre : step l σ t = some { σ with pc := upd σ.pc t (.look id k (i + 1)) } := by
        simp only [step, hpc, lookStep, hk, if_neg h1]
        rw [if_neg (by omega)]
      cases hc : lookup m.keyAt l k (n + 1) (i + 1) with
      | none => rw [hc] at h2; simp only [upd_upd] at h2; exact .head pre h2
      | some x => rw [hc] at h2; simp only [upd_upd] at h2; exact .head pre h2

end Starbow.IncmapConc

namespace Starbow.Props
open Starbow Starbow.Probe Starbow.IncmapConc

/-- **C39/C40**, the two models agree on Inc: if the shared memory is that of the sequential map `m` and goroutine `t` calls Inc and is the
only one to move, it returns what the sequential `inc` says and leaves the memory of the sequential result. -/
theorem C39_inc_alone (l t : Nat) (hl : 0 < l) (σ : State) (m m' : Incmap.Map) (hs : Same l σ m) (hpc : σ.pc t = .idle) (k d : U64)
    (ok : Bool) (h : Incmap.inc m k d = .val (m', ok)) :
    ∃ σ', Alone l t (call σ t (.inc k d)) σ' ∧ σ'.pc = σ.pc ∧ σ'.rets = σ.rets ++ [(σ.invs.length, .inc ok)] ∧ Same l σ' m' := by
  by_cases hk : k = 0
  · unfold Incmap.inc at h
    rw [if_pos hk] at h
    obtain ⟨rfl, rfl⟩ := Prod.mk.inj (Out.val.inj h)
    refine ⟨_, .refl _, ?_, ?_, ?_⟩
    · simp only [call, if_pos hk]
    · simp only [call, if_pos hk]
    · simp only [call, if_pos hk]; exact ⟨hs.hl, hs.klen, hs.vlen, hs.keys, hs.vals⟩
  · unfold Incmap.inc at h
    rw [if_neg hk, if_neg (by rw [hs.hl]; omega)] at h
    have e : call σ t (.inc k d) = { σ with invs := σ.invs ++ [.inc k d], pc := upd σ.pc t (.probe σ.invs.length k d (.load 0)) } := by
      simp only [call, if_neg hk]
    rw [e]
    have hp := probe_alone (t := t) hl (m := m) (id := σ.invs.length) (k := k) (d := d) maxReprobe 0 false
      { σ with invs := σ.invs ++ [.inc k d], pc := upd σ.pc t (.probe σ.invs.length k d (.load 0)) }
      ⟨hs.hl, hs.klen, hs.vlen, hs.keys, hs.vals⟩ (by omega) (upd_same _ _ _)
    rw [hs.hl] at h
    cases hc : claim m.keyAt l k (maxReprobe + 1) 0 false with
    | full =>
      rw [hc] at h hp
      obtain ⟨rfl, rfl⟩ := Prod.mk.inj (Out.val.inj h)
      simp only [upd_upd] at hp
      refine ⟨_, hp, ?_, rfl, ⟨hs.hl, hs.klen, hs.vlen, hs.keys, hs.vals⟩⟩
      exact upd_id _ _ _ hpc
    | «at» x ini =>
      rw [hc] at h hp
      obtain ⟨rfl, rfl⟩ := Prod.mk.inj (Out.val.inj h)
      simp only [upd_upd] at hp
      obtain ⟨j, _, _, hpx, _⟩ := claim_at hc
      have hx : x < l := by rw [← hpx]; exact pos_lt hl _ _
      refine ⟨_, hp.trans (.head (by simp only [step, upd_same]; rfl) (.refl _)), ?_, rfl, ?_⟩
      · simp only [upd_upd]; exact upd_id _ _ _ hpc
      · refine ⟨rfl, by simp [hs.klen], by simp [hs.vlen], ?_, ?_⟩
        · intro y hy
          show upd σ.keys x k y = (m.keys.set x k).getD y 0
          rw [Incmap.getD_set _ _ _ (by rw [hs.klen]; exact hx)]
          unfold upd
          split
          · rfl
          · exact hs.keys y hy
        · intro y hy
          show upd σ.vals x (σ.vals x + d) y = (m.values.set x (m.values.getD x 0 + d)).getD y 0
          rw [Incmap.getD_set _ _ _ (by rw [hs.vlen]; exact hx), hs.vals x hx]
          unfold upd
          split
          · rfl
          · exact hs.vals y hy

/-- **C39/C40**, the two models agree on Get. -/
theorem C39_get_alone (l t : Nat) (hl : 0 < l) (σ : State) (m : Incmap.Map) (hs : Same l σ m) (hpc : σ.pc t = .idle) (k v : U64)
    (found : Bool) (h : Incmap.get m k = .val (v, found)) :
    ∃ σ', Alone l t (call σ t (.get k)) σ' ∧ σ'.pc = σ.pc ∧ σ'.rets = σ.rets ++ [(σ.invs.length, .get v found)] ∧ Same l σ' m := by
  unfold Incmap.get at h
  rw [if_neg (by rw [hs.hl]; omega), hs.hl] at h
  have e : call σ t (.get k) = { σ with invs := σ.invs ++ [.get k], pc := upd σ.pc t (.look σ.invs.length k 0) } := rfl
  rw [e]
  have hp := look_alone (t := t) hl (m := m) (id := σ.invs.length) (k := k) maxReprobe 0
    { σ with invs := σ.invs ++ [.get k], pc := upd σ.pc t (.look σ.invs.length k 0) }
    ⟨hs.hl, hs.klen, hs.vlen, hs.keys, hs.vals⟩ (by omega) (upd_same _ _ _)
  cases hc : lookup m.keyAt l k (maxReprobe + 1) 0 with
  | none =>
    rw [hc] at h hp
    obtain ⟨rfl, rfl⟩ := Prod.mk.inj (Out.val.inj h)
    simp only [upd_upd] at hp
    refine ⟨_, hp, ?_, rfl, ⟨hs.hl, hs.klen, hs.vlen, hs.keys, hs.vals⟩⟩
    exact upd_id _ _ _ hpc
  | some x =>
    rw [hc] at h hp
    obtain ⟨rfl, rfl⟩ := Prod.mk.inj (Out.val.inj h)
    simp only [upd_upd] at hp
    obtain ⟨j, _, _, hpx, _⟩ := lookup_some hc
    have hx : x < l := by rw [← hpx]; exact pos_lt hl _ _
    refine ⟨_, hp.trans (Alone.head
      (σ' := { σ with invs := σ.invs ++ [.get k], pc := upd (upd σ.pc t (.load σ.invs.length k x)) t .idle,
                      rets := σ.rets ++ [(σ.invs.length, .get (σ.vals x) true)] })
      (by simp only [step, upd_same]) (.refl _)), ?_, ?_, ⟨hs.hl, hs.klen, hs.vlen, hs.keys, hs.vals⟩⟩
    · simp only [upd_upd]; exact upd_id _ _ _ hpc
    · show σ.rets ++ _ = _
      rw [hs.vals x hx]

/-- the fresh maps correspond -/
example (l : Nat) : Same l IncmapConc.init (Incmap.new l) :=
  ⟨rfl, by simp [Incmap.new], by simp [Incmap.new], fun x _ => (Incmap.getD_replicate l x).symm, fun x _ => (Incmap.getD_replicate l x).symm⟩

end Starbow.Props
