import Verif.Proof.Cell
/- Call numbers: every call has its own, and it is in progress in at most one goroutine or has returned once. -/
namespace Starbow.Cell
open Starbow.Probe Starbow.Spec

structure IdInv (n : Nat) (cur : Nat → Option Nat) (done : List Nat) : Prop where
  lt : ∀ t id, cur t = some id → id < n
  dlt : ∀ id, id ∈ done → id < n
  nodup : done.Nodup
  fresh : ∀ t id, cur t = some id → id ∉ done
  uniq : ∀ t t' id, cur t = some id → cur t' = some id → t = t'

theorem IdInv.init (cur : Nat → Option Nat) (h : ∀ t, cur t = none) : IdInv 0 cur [] where
  lt := by intro t id e; rw [h] at e; simp at e
  dlt := by intro id e; simp at e
  nodup := List.nodup_nil
  fresh := by intro t id e; rw [h] at e; simp at e
  uniq := by intro t t' id e; rw [h] at e; simp at e

theorem IdInv.call {n : Nat} {cur cur' : Nat → Option Nat} {done : List Nat} (h : IdInv n cur done) (t : Nat)
    (ht : cur' t = some n) (ho : ∀ t', t' ≠ t → cur' t' = cur t') : IdInv (n + 1) cur' done where
  lt := by
    intro t' id e
    by_cases he : t' = t
    · subst he; rw [ht] at e; have := Option.some.inj e; omega
    · rw [ho t' he] at e; have := h.lt t' id e; omega
  dlt := by intro id e; have := h.dlt id e; omega
  nodup := h.nodup
  fresh := by
    intro t' id e hm
    by_cases he : t' = t
    · subst he; rw [ht] at e; have := Option.some.inj e; have := h.dlt id hm; omega
    · rw [ho t' he] at e; exact h.fresh t' id e hm
  uniq := by
    intro t1 t2 id e1 e2
    by_cases h1 : t1 = t <;> by_cases h2 : t2 = t
    · rw [h1, h2]
    · subst h1; rw [ht] at e1; rw [ho t2 h2] at e2
      have := h.lt t2 id e2; have := Option.some.inj e1; omega
    · subst h2; rw [ht] at e2; rw [ho t1 h1] at e1
      have := h.lt t1 id e1; have := Option.some.inj e2; omega
    · rw [ho t1 h1] at e1; rw [ho t2 h2] at e2; exact h.uniq t1 t2 id e1 e2

theorem IdInv.callRet {n : Nat} {cur : Nat → Option Nat} {done : List Nat} (h : IdInv n cur done) :
    IdInv (n + 1) cur (done ++ [n]) where
  lt := by intro t id e; have := h.lt t id e; omega
  dlt := by
    intro id e
    rcases List.mem_append.mp e with e | e
    · have := h.dlt id e; omega
    · have := List.mem_singleton.mp e; omega
  nodup := by
    rw [List.nodup_append]
    refine ⟨h.nodup, by simp, ?_⟩
    intro a ha b hb hab
    have := h.dlt a ha
    have := List.mem_singleton.mp hb
    omega
  fresh := by
    intro t id e hm
    rcases List.mem_append.mp hm with hm | hm
    · exact h.fresh t id e hm
    · have := h.lt t id e; have := List.mem_singleton.mp hm; omega
  uniq := h.uniq

theorem IdInv.same {n : Nat} {cur cur' : Nat → Option Nat} {done : List Nat} (h : IdInv n cur done)
    (hs : ∀ t, cur' t = cur t) : IdInv n cur' done := by
  have : cur' = cur := funext hs
  rw [this]; exact h

theorem IdInv.stop {n : Nat} {cur cur' : Nat → Option Nat} {done : List Nat} (h : IdInv n cur done) {t : Nat}
    (ht : cur' t = none) (ho : ∀ t', t' ≠ t → cur' t' = cur t') : IdInv n cur' done := by
  have conv : ∀ t' id, cur' t' = some id → cur t' = some id := by
    intro t' id e
    by_cases he : t' = t
    · subst he; rw [ht] at e; simp at e
    · rw [ho t' he] at e; exact e
  exact {
    lt := fun t' id e => h.lt t' id (conv _ _ e)
    dlt := h.dlt
    nodup := h.nodup
    fresh := fun t' id e => h.fresh t' id (conv _ _ e)
    uniq := fun t1 t2 id e1 e2 => h.uniq t1 t2 id (conv _ _ e1) (conv _ _ e2) }

theorem IdInv.ret {n : Nat} {cur cur' : Nat → Option Nat} {done : List Nat} (h : IdInv n cur done) {t id : Nat}
    (hid : cur t = some id) (ht : cur' t = none) (ho : ∀ t', t' ≠ t → cur' t' = cur t') :
    IdInv n cur' (done ++ [id]) := by
  have conv : ∀ t' i, cur' t' = some i → t' ≠ t ∧ cur t' = some i := by
    intro t' i e
    by_cases he : t' = t
    · subst he; rw [ht] at e; simp at e
    · rw [ho t' he] at e; exact ⟨he, e⟩
  exact {
    lt := fun t' i e => h.lt t' i (conv _ _ e).2
    dlt := by
      intro i e
      rcases List.mem_append.mp e with e | e
      · exact h.dlt i e
      · rw [List.mem_singleton.mp e]; exact h.lt t id hid
    nodup := by
      rw [List.nodup_append]
      refine ⟨h.nodup, by simp, ?_⟩
      intro a ha b hb hab
      rw [hab, List.mem_singleton.mp hb] at ha
      exact h.fresh t id hid ha
    fresh := by
      intro t' i e hm
      obtain ⟨hne, e⟩ := conv _ _ e
      rcases List.mem_append.mp hm with hm | hm
      · exact h.fresh t' i e hm
      · rw [List.mem_singleton.mp hm] at e
        exact hne (h.uniq t' t id e hid)
    uniq := fun t1 t2 i e1 e2 => h.uniq t1 t2 i (conv _ _ e1).2 (conv _ _ e2).2 }

/-- call numbers of completed writes -/
def logIds (c : Cells) : List Nat := c.log.map (·.2.id)

/-- a writer that has completed its write but not yet unlocked -/
def WPC.committed : WPC → Bool
  | .unlock _ => true
  | _ => false

/-- Completed writes are those that returned, plus those about to. `ran` lists the calls that returned from their
function. -/
structure LInv (c : Cells) (W : Nat → Option (Nat × Entry × WPC)) (cur : Nat → Option Nat) (ran : List Nat) : Prop where
  nodup : (logIds c).Nodup
  src : ∀ id, id ∈ logIds c → id ∈ ran ∨ ∃ t x e p, W t = some (x, e, p) ∧ p.committed = true ∧ e.id = id
  fresh : ∀ t id, cur t = some id → (∀ x e p, W t = some (x, e, p) → p.committed = false) → id ∉ logIds c
  has : ∀ t x e p, W t = some (x, e, p) → p.committed = true → e.id ∈ logIds c
  ran : ∀ id, id ∈ ran → id ∈ logIds c
  curW : ∀ t x e p, W t = some (x, e, p) → cur t = some e.id

theorem LInv.init (W : Nat → Option (Nat × Entry × WPC)) (cur : Nat → Option Nat) (hW : ∀ t, W t = none) :
    LInv Cell.init W cur [] where
  nodup := by simp [logIds, Cell.init]
  src := by intro id h; simp [logIds, Cell.init] at h
  fresh := by intro t id _ _; simp [logIds, Cell.init]
  has := by intro t x e p h; rw [hW] at h; simp at h
  ran := by intro id h; simp at h
  curW := by intro t x e p h; rw [hW] at h; simp at h

/-- the new call is not in the log -/
theorem LInv.call {c : Cells} {W W' : Nat → Option (Nat × Entry × WPC)} {cur cur' : Nat → Option Nat} {ran : List Nat}
    (h : LInv c W cur ran) {n t : Nat} (hlog : ∀ id, id ∈ logIds c → id < n) (hW : W t = none)
    (ht : cur' t = some n) (hW't : ∀ x e p, W' t = some (x, e, p) → p.committed = false ∧ e.id = n)
    (ho : ∀ t', t' ≠ t → cur' t' = cur t' ∧ W' t' = W t') : LInv c W' cur' ran where
  nodup := h.nodup
  src := by
    intro id hm
    rcases h.src id hm with h1 | ⟨t', x, e, p, h1, h2, h3⟩
    · exact Or.inl h1
    · refine Or.inr ⟨t', x, e, p, ?_, h2, h3⟩
      rw [(ho t' ?_).2]; exact h1
      rintro rfl; rw [hW] at h1; simp at h1
  fresh := by
    intro t' id hc hp
    by_cases he : t' = t
    · subst he
      rw [ht] at hc
      intro hm
      have := hlog id hm
      have := Option.some.inj hc
      omega
    · rw [(ho t' he).1] at hc
      rw [(ho t' he).2] at hp
      exact h.fresh t' id hc hp
  has := by
    intro t' x e p h1 h2
    by_cases he : t' = t
    · subst he; rw [(hW't x e p h1).1] at h2; simp at h2
    · rw [(ho t' he).2] at h1; exact h.has t' x e p h1 h2
  ran := h.ran
  curW := by
    intro t' x e p h1
    by_cases he : t' = t
    · subst he; rw [ht, (hW't x e p h1).2]
    · rw [(ho t' he).2] at h1; rw [(ho t' he).1]; exact h.curW t' x e p h1

/-- a step that neither completes nor starts a write of `t` -/
theorem LInv.same {c c' : Cells} {W W' : Nat → Option (Nat × Entry × WPC)} {cur cur' : Nat → Option Nat} {ran : List Nat}
    (h : LInv c W cur ran) (hlog : c'.log = c.log) {t : Nat}
    (ht : cur' t = cur t ∨ cur' t = none)
    (hWt : ∀ x e p, W t = some (x, e, p) → p.committed = false)
    (hW't : ∀ x e p, W' t = some (x, e, p) → p.committed = false ∧ cur t = some e.id ∧ cur' t = cur t)
    (ho : ∀ t', t' ≠ t → cur' t' = cur t' ∧ W' t' = W t') : LInv c' W' cur' ran := by
  have hids : logIds c' = logIds c := by unfold logIds; rw [hlog]
  exact {
    nodup := by rw [hids]; exact h.nodup
    src := by
      intro id hm
      rw [hids] at hm
      rcases h.src id hm with h1 | ⟨t', x, e, p, h1, h2, h3⟩
      · exact Or.inl h1
      · refine Or.inr ⟨t', x, e, p, ?_, h2, h3⟩
        rw [(ho t' ?_).2]; exact h1
        rintro rfl; rw [hWt x e p h1] at h2; simp at h2
    fresh := by
      intro t' id hc hp
      rw [hids]
      by_cases he : t' = t
      · subst he
        rcases ht with ht | ht
        · rw [ht] at hc; exact h.fresh t' id hc hWt
        · rw [ht] at hc; simp at hc
      · rw [(ho t' he).1] at hc
        rw [(ho t' he).2] at hp
        exact h.fresh t' id hc hp
    has := by
      intro t' x e p h1 h2
      rw [hids]
      by_cases he : t' = t
      · subst he; rw [(hW't x e p h1).1] at h2; simp at h2
      · rw [(ho t' he).2] at h1; exact h.has t' x e p h1 h2
    ran := by intro id hm; rw [hids]; exact h.ran id hm
    curW := by
      intro t' x e p h1
      by_cases he : t' = t
      · subst he
        obtain ⟨_, h3, h4⟩ := hW't x e p h1
        rw [h4, h3]
      · rw [(ho t' he).2] at h1; rw [(ho t' he).1]; exact h.curW t' x e p h1 }

/-- a writer step -/
theorem LInv.wstep {s : Nat} {c c' : Cells} {W W' : Nat → Option (Nat × Entry × WPC)} {cur cur' : Nat → Option Nat}
    {ran : List Nat} {t x : Nat} {e : Entry} {p : WPC} {r : WRes} (h : LInv c W cur ran)
    (hu : ∀ t1 t2 id, cur t1 = some id → cur t2 = some id → t1 = t2)
    (hW : W t = some (x, e, p)) (hst : Cell.wstep s t x e c p = some (c', r))
    (hW't : W' t = wnext x e r)
    (hcur : (∃ p', r = .go p') → cur' t = cur t) (hcur' : (∃ err, r = .ret err) → cur' t = none)
    (ho : ∀ t', t' ≠ t → cur' t' = cur t' ∧ W' t' = W t') :
    LInv c' W' cur' (match r with | .go _ => ran | .ret _ => ran ++ [e.id]) := by
  have hct := h.curW t x e p hW
  -- either nothing completes, or the write completes, or the call returns
  have hcase : (c'.log = c.log ∧ p.committed = false ∧ ∃ p', r = .go p' ∧ p'.committed = false) ∨
      (c'.log = c.log ++ [(x, e)] ∧ p.committed = false ∧ ∃ p', r = .go p' ∧ p'.committed = true) ∨
      (c'.log = c.log ∧ p.committed = true ∧ ∃ err, r = .ret err) := by
    cases p with
    | lock =>
      rw [Cell.wstep] at hst
      split at hst
      · have hst := Option.some.inj hst
        have hc : _ = c' := congrArg Prod.fst hst
        have hr : _ = r := congrArg Prod.snd hst
        left; rw [← hc, ← hr]; exact ⟨rfl, rfl, _, rfl, rfl⟩
      · simp at hst
    | add1 =>
      rw [Cell.wstep] at hst
      have hst := Option.some.inj hst
      have hc : _ = c' := congrArg Prod.fst hst
      have hr : _ = r := congrArg Prod.snd hst
      left; rw [← hc, ← hr]; exact ⟨rfl, rfl, _, rfl, rfl⟩
    | run ws rr =>
      cases ws with
      | nil =>
        cases rr with
        | ret err =>
          rw [Cell.wstep] at hst
          have hst := Option.some.inj hst
          have hc : _ = c' := congrArg Prod.fst hst
          have hr : _ = r := congrArg Prod.snd hst
          left; rw [← hc, ← hr]; exact ⟨rfl, rfl, _, rfl, rfl⟩
        | panic =>
          rw [Cell.wstep] at hst
          have hst := Option.some.inj hst
          have hc : _ = c' := congrArg Prod.fst hst
          have hr : _ = r := congrArg Prod.snd hst
          left; rw [← hc, ← hr]; exact ⟨rfl, rfl, _, rfl, rfl⟩
      | cons w ws =>
        obtain ⟨o, v⟩ := w
        rw [Cell.wstep] at hst
        split at hst
        · have hst := Option.some.inj hst
          have hc : _ = c' := congrArg Prod.fst hst
          have hr : _ = r := congrArg Prod.snd hst
          left; rw [← hc, ← hr]; exact ⟨rfl, rfl, _, rfl, rfl⟩
        · have hst := Option.some.inj hst
          have hc : _ = c' := congrArg Prod.fst hst
          have hr : _ = r := congrArg Prod.snd hst
          left; rw [← hc, ← hr]; exact ⟨rfl, rfl, _, rfl, rfl⟩
    | add2 err =>
      rw [Cell.wstep] at hst
      have hst := Option.some.inj hst
      have hc : _ = c' := congrArg Prod.fst hst
      have hr : _ = r := congrArg Prod.snd hst
      right; left; rw [← hc, ← hr]; exact ⟨rfl, rfl, _, rfl, rfl⟩
    | unlock err =>
      rw [Cell.wstep] at hst
      have hst := Option.some.inj hst
      have hc : _ = c' := congrArg Prod.fst hst
      have hr : _ = r := congrArg Prod.snd hst
      right; right; rw [← hc, ← hr]; exact ⟨rfl, rfl, _, rfl⟩
    | dead => rw [Cell.wstep] at hst; simp at hst
  rcases hcase with ⟨hlog, hpc, p', hr, hpc'⟩ | ⟨hlog, hpc, p', hr, hpc'⟩ | ⟨hlog, hpc, err, hr⟩
  · subst hr
    refine h.same (t := t) hlog (Or.inl (hcur ⟨_, rfl⟩)) ?_ ?_ ho
    · intro x1 e1 p1 h1
      rw [hW] at h1
      have := Option.some.inj h1
      simp only [Prod.mk.injEq] at this
      rw [← this.2.2]; exact hpc
    · intro x1 e1 p1 h1
      rw [hW't] at h1
      have := Option.some.inj h1
      simp only [Prod.mk.injEq] at this
      rw [← this.2.2, ← this.2.1]
      exact ⟨hpc', hct, hcur ⟨_, rfl⟩⟩
  · subst hr
    have hids : logIds c' = logIds c ++ [e.id] := by unfold logIds; rw [hlog]; simp
    have hnew : e.id ∉ logIds c := by
      apply h.fresh t e.id hct
      intro x1 e1 p1 h1
      rw [hW] at h1
      have := Option.some.inj h1
      simp only [Prod.mk.injEq] at this
      rw [← this.2.2]; exact hpc
    exact {
      nodup := by
        rw [hids, List.nodup_append]
        refine ⟨h.nodup, by simp, ?_⟩
        intro a ha b hb hab
        rw [hab, List.mem_singleton.mp hb] at ha
        exact hnew ha
      src := by
        intro id hm
        rw [hids] at hm
        rcases List.mem_append.mp hm with hm | hm
        · rcases h.src id hm with h1 | ⟨t', x', e', p1, h1, h2, h3⟩
          · exact Or.inl h1
          · by_cases he : t' = t
            · subst he
              rw [hW] at h1
              have := Option.some.inj h1
              simp only [Prod.mk.injEq] at this
              rw [← this.2.2, hpc] at h2; simp at h2
            · exact Or.inr ⟨t', x', e', p1, by rw [(ho t' he).2]; exact h1, h2, h3⟩
        · exact Or.inr ⟨t, x, e, p', hW't, hpc', (List.mem_singleton.mp hm).symm⟩
      fresh := by
        intro t' id hc hp
        by_cases he : t' = t
        · subst he
          have := hp x e p' hW't
          rw [hpc'] at this; simp at this
        · rw [(ho t' he).1] at hc
          rw [(ho t' he).2] at hp
          rw [hids]
          intro hm
          rcases List.mem_append.mp hm with hm | hm
          · exact h.fresh t' id hc hp hm
          · rw [List.mem_singleton.mp hm] at hc
            exact he (hu t' t _ hc hct)
      has := by
        intro t' x1 e1 p1 h1 h2
        rw [hids]
        by_cases he : t' = t
        · subst he
          rw [hW't] at h1
          have := Option.some.inj h1
          simp only [Prod.mk.injEq] at this
          rw [← this.2.1]; simp
        · rw [(ho t' he).2] at h1
          exact List.mem_append_left _ (h.has t' x1 e1 p1 h1 h2)
      ran := by intro id hm; rw [hids]; exact List.mem_append_left _ (h.ran id hm)
      curW := by
        intro t' x1 e1 p1 h1
        by_cases he : t' = t
        · subst he
          rw [hW't] at h1
          have := Option.some.inj h1
          simp only [Prod.mk.injEq] at this
          rw [← this.2.1, hcur ⟨_, rfl⟩]; exact hct
        · rw [(ho t' he).2] at h1; rw [(ho t' he).1]; exact h.curW t' x1 e1 p1 h1 }
  · subst hr
    have hids : logIds c' = logIds c := by unfold logIds; rw [hlog]
    have hcn := hcur' ⟨_, rfl⟩
    exact {
      nodup := by rw [hids]; exact h.nodup
      src := by
        intro id hm
        rw [hids] at hm
        rcases h.src id hm with h1 | ⟨t', x', e', p1, h1, h2, h3⟩
        · exact Or.inl (List.mem_append_left _ h1)
        · by_cases he : t' = t
          · subst he
            rw [hW] at h1
            have := Option.some.inj h1
            simp only [Prod.mk.injEq] at this
            left
            rw [← h3, ← this.2.1]; simp
          · exact Or.inr ⟨t', x', e', p1, by rw [(ho t' he).2]; exact h1, h2, h3⟩
      fresh := by
        intro t' id hc hp
        rw [hids]
        by_cases he : t' = t
        · subst he; rw [hcn] at hc; simp at hc
        · rw [(ho t' he).1] at hc
          rw [(ho t' he).2] at hp
          exact h.fresh t' id hc hp
      has := by
        intro t' x1 e1 p1 h1 h2
        rw [hids]
        by_cases he : t' = t
        · subst he; rw [hW't] at h1; simp [wnext] at h1
        · rw [(ho t' he).2] at h1; exact h.has t' x1 e1 p1 h1 h2
      ran := by
        intro id hm
        rw [hids]
        rcases List.mem_append.mp hm with hm | hm
        · exact h.ran id hm
        · rw [List.mem_singleton.mp hm]; exact h.has t x e p hW hpc
      curW := by
        intro t' x1 e1 p1 h1
        by_cases he : t' = t
        · subst he; rw [hW't] at h1; simp [wnext] at h1
        · rw [(ho t' he).2] at h1; rw [(ho t' he).1]; exact h.curW t' x1 e1 p1 h1 }

end Starbow.Cell
