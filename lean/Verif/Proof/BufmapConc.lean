import Verif.Model.BufmapConc
import Verif.Proof.Ids
namespace Starbow.BufmapConc
open Starbow.Probe Starbow.Cell Starbow.Spec

/-- what a goroutine is writing -/
def PC.w? : PC → Option (Nat × Entry × WPC)
  | .w _ x e p => some (x, e, p)
  | _ => none

/-- the call a goroutine is executing -/
def PC.id : PC → Option Nat
  | .idle => none
  | .gone => none
  | .uProbe id _ _ _ _ => some id
  | .w _ _ e _ => some e.id
  | .gProbe id _ _ _ => some id
  | .r id _ _ _ _ => some id

def wOf (pc : Nat → PC) : Nat → Option (Nat × Entry × WPC) := fun t => (pc t).w?
def curOf (pc : Nat → PC) : Nat → Option Nat := fun t => (pc t).id

def ranId (r : Nat × Ret) : Option Nat :=
  match r.2 with
  | .ran _ => some r.1
  | _ => none
/-- calls that returned from their function -/
def ranIds (rets : List (Nat × Ret)) : List Nat := rets.filterMap ranId

def TOk (l s : Nat) (keys : Nat → U64) (c : Cells) (invs : List Op) : PC → Prop
  | .idle => True
  | .gone => True
  | .uProbe id k fn _ p => invs[id]? = some (.upd k fn) ∧ k ≠ 0 ∧ ProbeOk l k keys p
  | .w k x e _ => invs[e.id]? = some (.upd k e.fn) ∧ k ≠ 0 ∧ x < l ∧ keys x = k
  | .gProbe id k buf i => invs[id]? = some (.get k buf) ∧ i ≤ maxReprobe
  | .r id k buf x p => invs[id]? = some (.get k buf) ∧ x < l ∧ (k = 0 ∧ x ≤ 10 ∨ k ≠ 0 ∧ keys x = k) ∧ ROk s c x (min buf.length x) p

/-- facts about returned calls -/
def RetOk (l s : Nat) (keys : Nat → U64) (c : Cells) (invs : List Op) (id : Nat) : Ret → Prop
  | .ran err => ∃ x e es rest, e.id = id ∧ x < l ∧ writesOf c.log x = es ++ e :: rest ∧
      (e.fn (runAll s es) e.init).2 = .ret err
  | .invalidKey => ∃ fn, invs[id]? = some (.upd 0 fn)
  | .outOfSlots => ∃ (k : U64) (fn : CFn), invs[id]? = some (.upd k fn) ∧ k ≠ 0 ∧ Passed l k keys (maxReprobe + 1)
  | .got _ _ _ => ∃ (k : U64) (buf : Bytes), invs[id]? = some (.get k buf)

structure Inv (l s : Nat) (σ : State) : Prop where
  keys : KeyInv l σ.keys
  thr : ∀ t, TOk l s σ.keys σ.cells σ.invs (σ.pc t)
  cells : CInv l s σ.cells (wOf σ.pc)
  logok : ∀ x e, (x, e) ∈ σ.cells.log → x < l ∧ σ.keys x ≠ 0 ∧ σ.invs[e.id]? = some (.upd (σ.keys x) e.fn)
  ids : IdInv σ.invs.length (curOf σ.pc) (σ.rets.map (·.1))
  lg : LInv σ.cells (wOf σ.pc) (curOf σ.pc) (ranIds σ.rets)
  rok : ∀ id r, (id, r) ∈ σ.rets → RetOk l s σ.keys σ.cells σ.invs id r

theorem inv_init (l s : Nat) : Inv l s init where
  keys := KeyInv.empty l
  thr := fun _ => trivial
  cells := cinv_init l s _ (fun _ => rfl)
  logok := by intro x e h; simp [init, Cell.init] at h
  ids := IdInv.init _ (fun _ => rfl)
  lg := LInv.init _ _ (fun _ => rfl)
  rok := by intro id r h; simp [init] at h

theorem wOf_other (pc : Nat → PC) (t : Nat) (p : PC) (t' : Nat) (h : t' ≠ t) : wOf (upd pc t p) t' = wOf pc t' := by
  unfold wOf; rw [upd_other _ _ h]
theorem wOf_same (pc : Nat → PC) (t : Nat) (p : PC) : wOf (upd pc t p) t = p.w? := by
  unfold wOf; rw [upd_same]
theorem curOf_other (pc : Nat → PC) (t : Nat) (p : PC) (t' : Nat) (h : t' ≠ t) : curOf (upd pc t p) t' = curOf pc t' := by
  unfold curOf; rw [upd_other _ _ h]
theorem curOf_same (pc : Nat → PC) (t : Nat) (p : PC) : curOf (upd pc t p) t = p.id := by
  unfold curOf; rw [upd_same]

/-- the invs grow -/
def InvsLe (a b : List Op) : Prop := ∀ (id : Nat) (op : Op), a[id]? = some op → b[id]? = some op
theorem InvsLe.refl (a : List Op) : InvsLe a a := fun _ _ h => h
theorem InvsLe.snoc (a : List Op) (op : Op) : InvsLe a (a ++ [op]) := by
  intro i o h
  have hi : i < a.length := by
    by_cases hi : i < a.length
    · exact hi
    · rw [List.getElem?_eq_none (by omega)] at h; simp at h
  rw [List.getElem?_append_left hi]; exact h

/-- the cells move on: the log grows, readers are not disturbed -/
structure CellsLe (s : Nat) (c c' : Cells) : Prop where
  log : ∃ more, c'.log = c.log ++ more
  rok : ∀ x n p, ROk s c x n p → ROk s c' x n p

theorem CellsLe.refl (s : Nat) (c : Cells) : CellsLe s c c := ⟨⟨[], by simp⟩, fun _ _ _ h => h⟩
theorem Guar.le {s t x : Nat} {c c' : Cells} (g : Guar s t x c c') : CellsLe s c c' :=
  ⟨g.log, fun _ _ _ h => h.stable g⟩

theorem keep_key {keys keys' : Nat → U64} (g : Grow keys keys') {x : Nat} {k : U64} (h : k = 0 ∧ x ≤ 10 ∨ k ≠ 0 ∧ keys x = k) :
    k = 0 ∧ x ≤ 10 ∨ k ≠ 0 ∧ keys' x = k := by
  rcases h with h | h
  · exact Or.inl h
  · exact Or.inr ⟨h.1, by rw [g x (by rw [h.2]; exact h.1)]; exact h.2⟩

/-- where a lookup ends: key 0 ends in one of the first slots -/
theorem found_at {l : Nat} {keys : Nat → U64} {k : U64} {i : Nat} (hi : i ≤ maxReprobe) (h : keys (pos l k i) = k) :
    k = 0 ∧ pos l k i ≤ 10 ∨ k ≠ 0 ∧ keys (pos l k i) = k := by
  by_cases h0 : k = 0
  · subst h0
    refine Or.inl ⟨rfl, ?_⟩
    unfold pos
    unfold maxReprobe at hi
    have h1 : (0 : U64).toNat % l + i = i := by simp
    rw [h1]
    exact Nat.le_trans (Nat.mod_le _ _) hi
  · exact Or.inr ⟨h0, h⟩

theorem TOk.mono {l s : Nat} {keys keys' : Nat → U64} {c c' : Cells} {invs invs' : List Op} {p : PC}
    (h : TOk l s keys c invs p) (g : Grow keys keys') (hc : CellsLe s c c') (hi : InvsLe invs invs') :
    TOk l s keys' c' invs' p := by
  cases p with
  | idle => trivial
  | gone => trivial
  | uProbe id k fn i p => exact ⟨hi _ _ h.1, h.2.1, h.2.2.mono g⟩
  | w k x e p => exact ⟨hi _ _ h.1, h.2.1, h.2.2.1, ((keep_key g (Or.inr ⟨h.2.1, h.2.2.2⟩)).resolve_left (fun e => h.2.1 e.1)).2⟩
  | gProbe id k buf i => exact ⟨hi _ _ h.1, h.2⟩
  | r id k buf x p => exact ⟨hi _ _ h.1, h.2.1, keep_key g h.2.2.1, hc.rok _ _ _ h.2.2.2⟩

theorem writesOf_append (a b : List (Nat × Entry)) (x : Nat) : writesOf (a ++ b) x = writesOf a x ++ writesOf b x := by
  unfold writesOf; rw [List.filter_append, List.map_append]

theorem RetOk.mono {l s : Nat} {keys keys' : Nat → U64} {c c' : Cells} {invs invs' : List Op} {id : Nat} {r : Ret}
    (h : RetOk l s keys c invs id r) (g : Grow keys keys') (hc : CellsLe s c c') (hi : InvsLe invs invs') :
    RetOk l s keys' c' invs' id r := by
  cases r with
  | ran err =>
    obtain ⟨x, e, es, rest, h1, h2, h3, h4⟩ := h
    obtain ⟨more, hm⟩ := hc.log
    refine ⟨x, e, es, rest ++ writesOf more x, h1, h2, ?_, h4⟩
    rw [hm, writesOf_append, h3]; simp
  | invalidKey => obtain ⟨fn, h⟩ := h; exact ⟨fn, hi _ _ h⟩
  | outOfSlots => obtain ⟨k, fn, h1, h2, h3⟩ := h; exact ⟨k, fn, hi _ _ h1, h2, h3.mono g⟩
  | got f b d => obtain ⟨k, buf, h⟩ := h; exact ⟨k, buf, hi _ _ h⟩

theorem inv_lt {invs : List Op} {id : Nat} {op : Op} (h : invs[id]? = some op) : id < invs.length := by
  by_cases hi : id < invs.length
  · exact hi
  · rw [List.getElem?_eq_none (by omega)] at h; simp at h

theorem Inv.logIds_lt {l s : Nat} {σ : State} (h : Inv l s σ) {id : Nat} (hm : id ∈ logIds σ.cells) :
    id < σ.invs.length := by
  unfold logIds at hm
  obtain ⟨a, ha, rfl⟩ := List.mem_map.mp hm
  exact inv_lt (h.logok a.1 a.2 ha).2.2

theorem ranIds_snoc (rets : List (Nat × Ret)) (r : Nat × Ret) :
    ranIds (rets ++ [r]) = ranIds rets ++ (ranId r).toList := by
  unfold ranIds
  rw [List.filterMap_append]
  congr 1

/-- starting a call keeps the invariant -/
theorem inv_call {l s : Nat} {σ : State} (h : Inv l s σ) {t : Nat} (ht : σ.pc t = .idle) (op : Op) :
    Inv l s (call σ t op) := by
  have hWt : wOf σ.pc t = none := by unfold wOf; rw [ht]; rfl
  have hnew : (σ.invs ++ [op])[σ.invs.length]? = some op := by simp
  have hle := InvsLe.snoc σ.invs op
  -- a call that goes on to do something
  have go : ∀ p : PC, p.w? = none → p.id = some σ.invs.length → TOk l s σ.keys σ.cells (σ.invs ++ [op]) p →
      Inv l s { σ with invs := σ.invs ++ [op], pc := upd σ.pc t p } := by
    intro p hw hid hp
    exact {
      keys := h.keys
      thr := by
        intro t'
        show TOk l s σ.keys σ.cells (σ.invs ++ [op]) (upd σ.pc t p t')
        by_cases he : t' = t
        · subst he; rw [upd_same]; exact hp
        · rw [upd_other _ _ he]; exact (h.thr t').mono (Grow.refl _) (CellsLe.refl _ _) hle
      cells := by
        apply cinv_congr h.cells
        intro t'
        by_cases he : t' = t
        · subst he; rw [wOf_same, hWt, hw]
        · exact wOf_other _ _ _ _ he
      logok := by
        intro x e hm
        obtain ⟨h1, h2, h3⟩ := h.logok x e hm
        exact ⟨h1, h2, hle _ _ h3⟩
      ids := by
        show IdInv (σ.invs ++ [op]).length _ _
        rw [List.length_append, List.length_singleton]
        exact h.ids.call t (by rw [curOf_same, hid]) (fun t' he => curOf_other _ _ _ _ he)
      lg := by
        refine h.lg.call (n := σ.invs.length) (t := t) (fun id hm => h.logIds_lt hm) hWt
          (by rw [curOf_same, hid]) ?_ (fun t' he => ⟨curOf_other _ _ _ _ he, wOf_other _ _ _ _ he⟩)
        intro x e q hq
        rw [wOf_same, hw] at hq; simp at hq
      rok := by
        intro id r hm
        exact (h.rok id r hm).mono (Grow.refl _) (CellsLe.refl _ _) hle }
  cases op with
  | get k buf =>
    exact go _ rfl rfl ⟨hnew, by simp [maxReprobe]⟩
  | upd k fn =>
    unfold call
    simp only
    by_cases hk : k = 0
    · rw [if_pos hk]
      subst hk
      exact {
        keys := h.keys
        thr := fun t' => (h.thr t').mono (Grow.refl _) (CellsLe.refl _ _) hle
        cells := h.cells
        logok := by
          intro x e hm
          obtain ⟨h1, h2, h3⟩ := h.logok x e hm
          exact ⟨h1, h2, hle _ _ h3⟩
        ids := by
          show IdInv (σ.invs ++ [_]).length _ ((σ.rets ++ [_]).map _)
          rw [List.length_append, List.length_singleton, List.map_append]
          exact h.ids.callRet
        lg := by
          show LInv _ _ _ (ranIds (σ.rets ++ [_]))
          rw [ranIds_snoc]
          simpa [ranId] using h.lg
        rok := by
          intro id r hm
          rcases List.mem_append.mp hm with hm | hm
          · exact (h.rok id r hm).mono (Grow.refl _) (CellsLe.refl _ _) hle
          · have hm := List.mem_singleton.mp hm
            have e1 : id = σ.invs.length := congrArg Prod.fst hm
            have e2 : r = .invalidKey := congrArg Prod.snd hm
            subst e1; subst e2
            exact ⟨fn, hnew⟩ }
    · rw [if_neg hk]
      exact go _ rfl rfl ⟨hnew, hk, by simp [maxReprobe], fun j hj => by omega⟩

/-- a goroutine that is not writing moves on within its call (or dies), possibly storing its key, possibly starting
to write -/
theorem inv_move {l s : Nat} {σ : State} (h : Inv l s σ) (t : Nat) (keys : Nat → U64) (p : PC)
    (hw : (σ.pc t).w? = none) (hid : p.id = (σ.pc t).id ∨ p = .gone)
    (hw' : p.w? = none ∨ ∃ x e, p.w? = some (x, e, .lock))
    (hkeys : KeyInv l keys) (hgrow : Grow σ.keys keys) (hp : TOk l s keys σ.cells σ.invs p) :
    Inv l s { σ with keys := keys, pc := upd σ.pc t p } where
  keys := hkeys
  thr := by
    intro t'
    show TOk l s keys σ.cells σ.invs (upd σ.pc t p t')
    by_cases he : t' = t
    · subst he; rw [upd_same]; exact hp
    · rw [upd_other _ _ he]; exact (h.thr t').mono hgrow (CellsLe.refl _ _) (InvsLe.refl _)
  cells := by
    rcases hw' with hw' | ⟨x, e, hw'⟩
    · apply cinv_congr h.cells
      intro t'
      by_cases he : t' = t
      · subst he; rw [wOf_same, hw']; exact hw.symm
      · exact wOf_other _ _ _ _ he
    · exact cinv_begin h.cells (t := t) hw (by rw [wOf_same]; exact hw') (fun t' he => wOf_other _ _ _ _ he)
  logok := by
    intro x e hm
    obtain ⟨h1, h2, h3⟩ := h.logok x e hm
    show x < l ∧ keys x ≠ 0 ∧ σ.invs[e.id]? = some (.upd (keys x) e.fn)
    rw [hgrow x h2]; exact ⟨h1, h2, h3⟩
  ids := by
    rcases hid with hid | hid
    · apply h.ids.same
      intro t'
      by_cases he : t' = t
      · subst he; rw [curOf_same, hid]; rfl
      · exact curOf_other _ _ _ _ he
    · exact h.ids.stop (t := t) (by rw [curOf_same, hid]; rfl) (fun t' he => curOf_other _ _ _ _ he)
  lg := by
    refine h.lg.same (t := t) rfl ?_ ?_ ?_ (fun t' he => ⟨curOf_other _ _ _ _ he, wOf_other _ _ _ _ he⟩)
    · rcases hid with hid | hid
      · left; rw [curOf_same, hid]; rfl
      · right; rw [curOf_same, hid]; rfl
    · intro x e q hq
      have : (σ.pc t).w? = some (x, e, q) := hq
      rw [hw] at this; simp at this
    · intro x e q hq
      rw [wOf_same] at hq
      cases p with
      | w k x' e' p' =>
        have hq := Option.some.inj hq
        simp only [Prod.mk.injEq] at hq
        obtain ⟨rfl, rfl, rfl⟩ := hq
        have hid : (PC.w k x' e' p').id = (σ.pc t).id := hid.resolve_right (by simp)
        refine ⟨?_, hid.symm, ?_⟩
        · rcases hw' with hw' | ⟨x, e, hw'⟩
          · simp [PC.w?] at hw'
          · simp only [PC.w?, Option.some.injEq, Prod.mk.injEq] at hw'
            rw [hw'.2.2]; rfl
        · rw [curOf_same]; exact hid
      | _ => simp [PC.w?] at hq
  rok := by
    intro id r hm
    exact (h.rok id r hm).mono hgrow (CellsLe.refl _ _) (InvsLe.refl _)

/-- a goroutine that is not writing returns -/
theorem inv_return {l s : Nat} {σ : State} (h : Inv l s σ) (t id : Nat) (r : Ret)
    (hw : (σ.pc t).w? = none) (hid : (σ.pc t).id = some id)
    (hr : RetOk l s σ.keys σ.cells σ.invs id r) (hran : ranId (id, r) = none) :
    Inv l s { σ with pc := upd σ.pc t .idle, rets := σ.rets ++ [(id, r)] } where
  keys := h.keys
  thr := by
    intro t'
    show TOk l s σ.keys σ.cells σ.invs (upd σ.pc t .idle t')
    by_cases he : t' = t
    · subst he; rw [upd_same]; trivial
    · rw [upd_other _ _ he]; exact h.thr t'
  cells := by
    apply cinv_congr h.cells
    intro t'
    by_cases he : t' = t
    · subst he; rw [wOf_same]; exact hw.symm
    · exact wOf_other _ _ _ _ he
  logok := h.logok
  ids := by
    show IdInv _ _ ((σ.rets ++ [_]).map _)
    rw [List.map_append]
    exact h.ids.ret (t := t) hid (by rw [curOf_same]; rfl) (fun t' he => curOf_other _ _ _ _ he)
  lg := by
    show LInv _ _ _ (ranIds (σ.rets ++ [_]))
    rw [ranIds_snoc, hran]
    show LInv _ _ _ (ranIds σ.rets ++ [])
    rw [List.append_nil]
    refine h.lg.same (t := t) rfl (Or.inr (by rw [curOf_same]; rfl)) ?_ ?_
      (fun t' he => ⟨curOf_other _ _ _ _ he, wOf_other _ _ _ _ he⟩)
    · intro x e q hq
      have : (σ.pc t).w? = some (x, e, q) := hq
      rw [hw] at this; simp at this
    · intro x e q hq
      rw [wOf_same] at hq; simp [PC.w?] at hq
  rok := by
    intro i r' hm
    rcases List.mem_append.mp hm with hm | hm
    · exact h.rok i r' hm
    · have hm := List.mem_singleton.mp hm
      have e1 : i = id := congrArg Prod.fst hm
      have e2 : r' = r := congrArg Prod.snd hm
      subst e1; subst e2
      exact hr

/-- the log of a writer step: nothing, or its own entry -/
theorem wstep_log {s t x : Nat} {e : Entry} {c c' : Cells} {p : WPC} {r : WRes}
    (h : wstep s t x e c p = some (c', r)) : c'.log = c.log ∨ c'.log = c.log ++ [(x, e)] := by
  cases p with
  | lock =>
    rw [wstep] at h
    split at h
    · have h := Option.some.inj h
      have hc : _ = c' := congrArg Prod.fst h
      rw [← hc]; exact Or.inl rfl
    · simp at h
  | add1 =>
    rw [wstep] at h
    have h := Option.some.inj h
    have hc : _ = c' := congrArg Prod.fst h
    rw [← hc]; exact Or.inl rfl
  | run ws rr =>
    cases ws with
    | nil =>
      cases rr <;> (rw [wstep] at h; have h := Option.some.inj h; have hc : _ = c' := congrArg Prod.fst h; rw [← hc]; exact Or.inl rfl)
    | cons w ws =>
      obtain ⟨o, v⟩ := w
      rw [wstep] at h
      split at h <;> (have h := Option.some.inj h; have hc : _ = c' := congrArg Prod.fst h; rw [← hc]; exact Or.inl rfl)
  | add2 err =>
    rw [wstep] at h
    have h := Option.some.inj h
    have hc : _ = c' := congrArg Prod.fst h
    rw [← hc]; exact Or.inr rfl
  | unlock err =>
    rw [wstep] at h
    have h := Option.some.inj h
    have hc : _ = c' := congrArg Prod.fst h
    rw [← hc]; exact Or.inl rfl
  | dead => rw [wstep] at h; simp at h

/-- only the last step of a writer returns -/
theorem wstep_ret {s t x : Nat} {e : Entry} {c c' : Cells} {p : WPC} {err : Option Err}
    (h : wstep s t x e c p = some (c', .ret err)) : p = .unlock err ∧ c'.log = c.log := by
  cases p with
  | lock =>
    rw [wstep] at h
    split at h
    · have h := congrArg Prod.snd (Option.some.inj h); simp at h
    · simp at h
  | add1 => rw [wstep] at h; have h := congrArg Prod.snd (Option.some.inj h); simp at h
  | run ws rr =>
    cases ws with
    | nil => cases rr <;> (rw [wstep] at h; have h := congrArg Prod.snd (Option.some.inj h); simp at h)
    | cons w ws =>
      obtain ⟨o, v⟩ := w
      rw [wstep] at h
      split at h <;> (have h := congrArg Prod.snd (Option.some.inj h); simp at h)
  | add2 err => rw [wstep] at h; have h := congrArg Prod.snd (Option.some.inj h); simp at h
  | unlock err' =>
    rw [wstep] at h
    have h := Option.some.inj h
    have hc : _ = c' := congrArg Prod.fst h
    have hr : WRes.ret err' = .ret err := congrArg Prod.snd h
    rw [WRes.ret.inj hr, ← hc]; exact ⟨rfl, rfl⟩
  | dead => rw [wstep] at h; simp at h

/-- a writer's step -/
theorem inv_w {l s : Nat} {σ : State} (h : Inv l s σ) (t : Nat) {k : U64} {x : Nat} {e : Entry} {p : WPC}
    (hpc : σ.pc t = .w k x e p) {c : Cells} {r : WRes} (hst : wstep s t x e σ.cells p = some (c, r)) (p' : PC)
    (rets : List (Nat × Ret))
    (hr : (∃ q, r = .go q ∧ p' = .w k x e q ∧ rets = σ.rets) ∨
      (∃ err, r = .ret err ∧ p' = .idle ∧ rets = σ.rets ++ [(e.id, .ran err)])) :
    Inv l s { σ with cells := c, pc := upd σ.pc t p', rets := rets } := by
  have hW : wOf σ.pc t = some (x, e, p) := by unfold wOf; rw [hpc]; rfl
  have hid : curOf σ.pc t = some e.id := by unfold curOf; rw [hpc]; rfl
  have hwok := h.cells.wok t x e p hW
  have hg := wstep_guar hwok hst
  have hle := Guar.le hg
  have ht := h.thr t
  rw [hpc] at ht
  have hW' : wOf (upd σ.pc t p') t = wnext x e r := by
    rw [wOf_same]
    rcases hr with ⟨q, h1, h2, _⟩ | ⟨err, h1, h2, _⟩ <;> (rw [h1, h2]; rfl)
  have hlg := h.lg.wstep (W' := wOf (upd σ.pc t p')) (cur' := curOf (upd σ.pc t p')) h.ids.uniq hW hst hW'
      (by
        rintro ⟨q, h1⟩
        rcases hr with ⟨q', h2, h3, _⟩ | ⟨err, h2, _⟩
        · rw [curOf_same, h3, hid]; rfl
        · rw [h1] at h2; simp at h2)
      (by
        rintro ⟨err, h1⟩
        rcases hr with ⟨q', h2, _⟩ | ⟨err, h2, h3, _⟩
        · rw [h1] at h2; simp at h2
        · rw [curOf_same, h3]; rfl)
      (fun t' he => ⟨curOf_other _ _ _ _ he, wOf_other _ _ _ _ he⟩)
  have hcells := cinv_wstep (W' := wOf (upd σ.pc t p')) h.cells hW hst hW' (fun t' he => wOf_other _ _ _ _ he)
  exact {
    keys := h.keys
    thr := by
      intro t'
      show TOk l s σ.keys c σ.invs (upd σ.pc t p' t')
      by_cases he : t' = t
      · subst he; rw [upd_same]
        rcases hr with ⟨q, _, h2, _⟩ | ⟨err, _, h2, _⟩
        · rw [h2]; exact ht
        · rw [h2]; trivial
      · rw [upd_other _ _ he]; exact (h.thr t').mono (Grow.refl _) hle (InvsLe.refl _)
    cells := hcells
    logok := by
      intro x' e' hm
      have hm : (x', e') ∈ c.log := hm
      rcases wstep_log hst with hl | hl
      · rw [hl] at hm; exact h.logok x' e' hm
      · rw [hl] at hm
        rcases List.mem_append.mp hm with hm | hm
        · exact h.logok x' e' hm
        · have hm := List.mem_singleton.mp hm
          have e1 : x' = x := congrArg Prod.fst hm
          have e2 : e' = e := congrArg Prod.snd hm
          subst e1; subst e2
          show x' < l ∧ σ.keys x' ≠ 0 ∧ σ.invs[e'.id]? = some (.upd (σ.keys x') e'.fn)
          obtain ⟨h1, h2, h3, h4⟩ := ht
          rw [h4]; exact ⟨h3, h2, h1⟩
    ids := by
      show IdInv _ _ (rets.map _)
      rcases hr with ⟨q, _, h2, h3⟩ | ⟨err, _, h2, h3⟩
      · rw [h3]
        apply h.ids.same
        intro t'
        by_cases he : t' = t
        · subst he; rw [curOf_same, h2, hid]; rfl
        · exact curOf_other _ _ _ _ he
      · rw [h3, List.map_append]
        exact h.ids.ret (t := t) hid (by rw [curOf_same, h2]; rfl) (fun t' he => curOf_other _ _ _ _ he)
    lg := by
      show LInv _ _ _ (ranIds rets)
      rcases hr with ⟨q, h1, h2, h3⟩ | ⟨err, h1, h2, h3⟩
      · subst h1; rw [h3]; exact hlg
      · subst h1; rw [h3, ranIds_snoc]; exact hlg
    rok := by
      intro id r' hm
      have hm : (id, r') ∈ rets := hm
      rcases hr with ⟨q, _, _, h3⟩ | ⟨err, h1, _, h3⟩
      · rw [h3] at hm; exact (h.rok id r' hm).mono (Grow.refl _) hle (InvsLe.refl _)
      · rw [h3] at hm
        rcases List.mem_append.mp hm with hm | hm
        · exact (h.rok id r' hm).mono (Grow.refl _) hle (InvsLe.refl _)
        · have hm := List.mem_singleton.mp hm
          have e1 : id = e.id := congrArg Prod.fst hm
          have e2 : r' = .ran err := congrArg Prod.snd hm
          subst e1; subst e2; subst h1
          obtain ⟨hp, hl⟩ := wstep_ret hst
          subst hp
          obtain ⟨_, _, es, hes, hres⟩ := hwok
          refine ⟨x, e, es, [], rfl, ht.2.2.1, ?_, hres⟩
          show writesOf c.log x = _
          rw [hl, hes] }

theorem inv_step {l s : Nat} (hl : 0 < l) {σ σ' : State} (h : Inv l s σ) {t : Nat} (hs : step l s σ t = some σ') :
    Inv l s σ' := by
  have ht := h.thr t
  unfold step at hs
  cases hpc : σ.pc t with
  | idle => rw [hpc] at hs; simp at hs
  | gone => rw [hpc] at hs; simp at hs
  | uProbe id k fn ini p =>
    rw [hpc] at hs ht
    simp only at hs
    obtain ⟨hinv, hk, hp⟩ := ht
    obtain ⟨k1, k2, k3, k4⟩ := probeStep_ok hl hk h.keys ini hp
    generalize hps : probeStep l k σ.keys ini p = ps at *
    obtain ⟨keys, res⟩ := ps
    simp only at k1 k2 k3 k4
    have hw : (σ.pc t).w? = none := by rw [hpc]; rfl
    have hid : (σ.pc t).id = some id := by rw [hpc]; rfl
    cases res with
    | go p' i =>
      have hs := Option.some.inj hs
      subst hs
      exact inv_move h t keys _ hw (Or.inl hid.symm) (Or.inl rfl) k1 k2 ⟨hinv, hk, k4.2⟩
    | found x i =>
      have hs := Option.some.inj hs
      subst hs
      exact inv_move h t keys _ hw (Or.inl hid.symm) (Or.inr ⟨_, _, rfl⟩) k1 k2 ⟨hinv, hk, k4.1, k4.2⟩
    | full =>
      have hs := Option.some.inj hs
      subst hs
      have hkk : keys = σ.keys := k4.1
      subst hkk
      exact inv_return h t id _ hw hid ⟨k, fn, hinv, hk, k4.2⟩ rfl
  | w k x e p =>
    rw [hpc] at hs
    simp only at hs
    cases hst : wstep s t x e σ.cells p with
    | none => rw [hst] at hs; simp at hs
    | some cr =>
      obtain ⟨c, r⟩ := cr
      rw [hst] at hs
      cases r with
      | go q =>
        have hs := Option.some.inj hs
        subst hs
        exact inv_w h t hpc hst _ _ (Or.inl ⟨q, rfl, rfl, rfl⟩)
      | ret err =>
        have hs := Option.some.inj hs
        subst hs
        exact inv_w h t hpc hst _ _ (Or.inr ⟨err, rfl, rfl, rfl⟩)
  | gProbe id k buf i =>
    rw [hpc] at hs ht
    simp only at hs
    have hw : (σ.pc t).w? = none := by rw [hpc]; rfl
    have hid : (σ.pc t).id = some id := by rw [hpc]; rfl
    obtain ⟨hinv, hi⟩ := ht
    unfold lookStep at hs
    by_cases h1 : σ.keys (pos l k i) = k
    · rw [if_pos h1] at hs
      have hs := Option.some.inj hs
      subst hs
      exact inv_move h t σ.keys _ hw (Or.inl hid.symm) (Or.inl rfl) h.keys (Grow.refl _)
        ⟨hinv, pos_lt hl _ _, found_at hi h1, trivial⟩
    · rw [if_neg h1] at hs
      by_cases h2 : i + 1 > maxReprobe
      · rw [if_pos h2] at hs
        have hs := Option.some.inj hs
        subst hs
        exact inv_return h t id _ hw hid ⟨k, buf, hinv⟩ rfl
      · rw [if_neg h2] at hs
        have hs := Option.some.inj hs
        subst hs
        exact inv_move h t σ.keys _ hw (Or.inl hid.symm) (Or.inl rfl) h.keys (Grow.refl _) ⟨hinv, by omega⟩
  | r id k buf x p =>
    rw [hpc] at hs ht
    simp only at hs
    have hw : (σ.pc t).w? = none := by rw [hpc]; rfl
    have hid : (σ.pc t).id = some id := by rw [hpc]; rfl
    obtain ⟨hinv, hx, hkx, hr⟩ := ht
    split at hs
    · have hs := Option.some.inj hs
      subst hs
      exact inv_move h t σ.keys _ hw (Or.inr rfl) (Or.inl rfl) h.keys (Grow.refl _) trivial
    · cases hst : rstep s x (min buf.length x) σ.cells p with
      | go p' =>
        rw [hst] at hs
        have hs := Option.some.inj hs
        subst hs
        exact inv_move h t σ.keys _ hw (Or.inl hid.symm) (Or.inl rfl) h.keys (Grow.refl _)
          ⟨hinv, hx, hkx, rstep_ok h.cells hr hst⟩
      | done got during =>
        rw [hst] at hs
        have hs := Option.some.inj hs
        subst hs
        exact inv_return h t id _ hw hid ⟨k, buf, hinv⟩ rfl

theorem inv_one {l s : Nat} (hl : 0 < l) {σ σ' : State} (h : Inv l s σ) (hs : Step l s σ σ') : Inv l s σ' := by
  cases hs with
  | call t op ht => exact inv_call h ht op
  | step _ t hs => exact inv_step hl h hs

theorem inv_steps {l s : Nat} (hl : 0 < l) {σ σ' : State} (h : Inv l s σ) (hs : Steps l s σ σ') : Inv l s σ' := by
  induction hs with
  | refl => exact h
  | tail _ h1 ih => exact inv_one hl ih h1

theorem inv_reach {l s : Nat} (hl : 0 < l) {σ : State} (hs : Steps l s init σ) : Inv l s σ :=
  inv_steps hl (inv_init l s) hs

end Starbow.BufmapConc
