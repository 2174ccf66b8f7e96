import Verif.Spec.Seqlock
import Verif.Proof.Ids
namespace Starbow.Seqlock
open Starbow.Probe Starbow.Cell Starbow.Spec

def PC.w? : PC → Option (Nat × Entry × WPC)
  | .w e p => some (0, e, p)
  | _ => none
def PC.id : PC → Option Nat
  | .idle => none
  | .w e _ => some e.id
  | .r id _ => some id

def wOf (pc : Nat → PC) : Nat → Option (Nat × Entry × WPC) := fun t => (pc t).w?
def curOf (pc : Nat → PC) : Nat → Option Nat := fun t => (pc t).id

def ranId (r : Nat × Ret) : Option Nat :=
  match r.2 with
  | .wrote _ => some r.1
  | _ => none
def ranIds (rets : List (Nat × Ret)) : List Nat := rets.filterMap ranId

/-- the entry belongs to the call -/
def EntryOk (n : Nat) (invs : List Op) (e : Entry) : Prop :=
  ∃ op, invs[e.id]? = some op ∧ op ≠ .get ∧ e.fn = writer n op ∧ e.init = false

def TOk (n : Nat) (c : Cells) (invs : List Op) : PC → Prop
  | .idle => True
  | .w e _ => EntryOk n invs e
  | .r id p => invs[id]? = some .get ∧ ROk n c 0 n p

def RetOk (n : Nat) (c : Cells) (invs : List Op) (id : Nat) : Ret → Prop
  | .wrote err => ∃ e es rest, e.id = id ∧ writesOf c.log 0 = es ++ e :: rest ∧
      (e.fn (runAll n es) e.init).2 = .ret err
  | .got _ _ => invs[id]? = some .get

structure Inv (n : Nat) (σ : State) : Prop where
  thr : ∀ t, TOk n σ.cells σ.invs (σ.pc t)
  cells : CInv 1 n σ.cells (wOf σ.pc)
  logok : ∀ x e, (x, e) ∈ σ.cells.log → x = 0 ∧ EntryOk n σ.invs e
  ids : IdInv σ.invs.length (curOf σ.pc) (σ.rets.map (·.1))
  lg : LInv σ.cells (wOf σ.pc) (curOf σ.pc) (ranIds σ.rets)
  rok : ∀ id r, (id, r) ∈ σ.rets → RetOk n σ.cells σ.invs id r

theorem inv_init (n : Nat) : Inv n init where
  thr := fun _ => trivial
  cells := cinv_init 1 n _ (fun _ => rfl)
  logok := by intro x e h; simp [init, Cell.init] at h
  ids := IdInv.init _ (fun _ => rfl)
  lg := LInv.init _ _ (fun _ => rfl)
  rok := by intro id r h; simp [init] at h

theorem wOf_other (pc : Nat → PC) (t : Nat) (p : PC) (t' : Nat) (h : t' ≠ t) : wOf (upd pc t p) t' = wOf pc t' := by
  unfold wOf; rw [upd_other _ _ h]
theorem wOf_same (pc : Nat → PC) (t : Nat) (p : PC) : wOf (upd pc t p) t = p.w? := by
  unfold wOf; rw [upd_same]
theorem curOf_other (pc : Nat → PC) (t : Nat) (p : PC) (t' : Nat) (h : t' ≠ t) : curOf (upd pc t p) t' = curOf pc t' := by
  unfold curOf; rw [upd_other _ _ h]
theorem curOf_same (pc : Nat → PC) (t : Nat) (p : PC) : curOf (upd pc t p) t = p.id := by
  unfold curOf; rw [upd_same]

def InvsLe (a b : List Op) : Prop := ∀ (id : Nat) (op : Op), a[id]? = some op → b[id]? = some op
theorem InvsLe.refl (a : List Op) : InvsLe a a := fun _ _ h => h
theorem inv_lt {invs : List Op} {id : Nat} {op : Op} (h : invs[id]? = some op) : id < invs.length := by
  by_cases hi : id < invs.length
  · exact hi
  · rw [List.getElem?_eq_none (by omega)] at h; simp at h
theorem InvsLe.snoc (a : List Op) (op : Op) : InvsLe a (a ++ [op]) := by
  intro i o h
  rw [List.getElem?_append_left (inv_lt h)]; exact h

theorem EntryOk.mono {n : Nat} {invs invs' : List Op} {e : Entry} (h : EntryOk n invs e) (hi : InvsLe invs invs') :
    EntryOk n invs' e := by
  obtain ⟨op, h1, h2⟩ := h
  exact ⟨op, hi _ _ h1, h2⟩

/-- the cells move on: the log grows, readers are not disturbed -/
structure CellsLe (s : Nat) (c c' : Cells) : Prop where
  log : ∃ more, c'.log = c.log ++ more
  rok : ∀ x n p, ROk s c x n p → ROk s c' x n p

theorem CellsLe.refl (s : Nat) (c : Cells) : CellsLe s c c := ⟨⟨[], by simp⟩, fun _ _ _ h => h⟩
theorem Guar.le {s t x : Nat} {c c' : Cells} (g : Guar s t x c c') : CellsLe s c c' :=
  ⟨g.log, fun _ _ _ h => h.stable g⟩

theorem TOk.mono {n : Nat} {c c' : Cells} {invs invs' : List Op} {p : PC} (h : TOk n c invs p) (hc : CellsLe n c c')
    (hi : InvsLe invs invs') : TOk n c' invs' p := by
  cases p with
  | idle => trivial
  | w e p => exact EntryOk.mono h hi
  | r id p => exact ⟨hi _ _ h.1, hc.rok _ _ _ h.2⟩

theorem writesOf_append (a b : List (Nat × Entry)) (x : Nat) : writesOf (a ++ b) x = writesOf a x ++ writesOf b x := by
  unfold writesOf; rw [List.filter_append, List.map_append]

theorem RetOk.mono {n : Nat} {c c' : Cells} {invs invs' : List Op} {id : Nat} {r : Ret} (h : RetOk n c invs id r)
    (hc : CellsLe n c c') (hi : InvsLe invs invs') : RetOk n c' invs' id r := by
  cases r with
  | wrote err =>
    obtain ⟨e, es, rest, h1, h3, h4⟩ := h
    obtain ⟨more, hm⟩ := hc.log
    refine ⟨e, es, rest ++ writesOf more 0, h1, ?_, h4⟩
    rw [hm, writesOf_append, h3]; simp
  | got v d => exact hi _ _ h

theorem Inv.logIds_lt {n : Nat} {σ : State} (h : Inv n σ) {id : Nat} (hm : id ∈ logIds σ.cells) : id < σ.invs.length := by
  unfold logIds at hm
  obtain ⟨a, ha, rfl⟩ := List.mem_map.mp hm
  obtain ⟨op, h1, _⟩ := (h.logok a.1 a.2 ha).2
  exact inv_lt h1

theorem ranIds_snoc (rets : List (Nat × Ret)) (r : Nat × Ret) :
    ranIds (rets ++ [r]) = ranIds rets ++ (ranId r).toList := by
  unfold ranIds
  rw [List.filterMap_append]
  congr 1

theorem inv_call {n : Nat} {σ : State} (h : Inv n σ) {t : Nat} (ht : σ.pc t = .idle) (op : Op) :
    Inv n (call n σ t op) := by
  have hWt : wOf σ.pc t = none := by unfold wOf; rw [ht]; rfl
  have hnew : (σ.invs ++ [op])[σ.invs.length]? = some op := by simp
  have hle := InvsLe.snoc σ.invs op
  have go : ∀ p : PC, (p.w? = none ∨ ∃ e, p.w? = some (0, e, .lock) ∧ e.id = σ.invs.length) → p.id = some σ.invs.length →
      TOk n σ.cells (σ.invs ++ [op]) p → Inv n { σ with invs := σ.invs ++ [op], pc := upd σ.pc t p } := by
    intro p hw hid hp
    exact {
      thr := by
        intro t'
        show TOk n σ.cells (σ.invs ++ [op]) (upd σ.pc t p t')
        by_cases he : t' = t
        · subst he; rw [upd_same]; exact hp
        · rw [upd_other _ _ he]; exact (h.thr t').mono (CellsLe.refl _ _) hle
      cells := by
        rcases hw with hw | ⟨e, hw, _⟩
        · apply cinv_congr h.cells
          intro t'
          by_cases he : t' = t
          · subst he; rw [wOf_same, hWt, hw]
          · exact wOf_other _ _ _ _ he
        · exact cinv_begin h.cells (t := t) hWt (by rw [wOf_same]; exact hw) (fun t' he => wOf_other _ _ _ _ he)
      logok := by
        intro x e hm
        obtain ⟨h1, h2⟩ := h.logok x e hm
        exact ⟨h1, h2.mono hle⟩
      ids := by
        show IdInv (σ.invs ++ [op]).length _ _
        rw [List.length_append, List.length_singleton]
        exact h.ids.call t (by rw [curOf_same, hid]) (fun t' he => curOf_other _ _ _ _ he)
      lg := by
        refine h.lg.call (n := σ.invs.length) (t := t) (fun id hm => h.logIds_lt hm) hWt
          (by rw [curOf_same, hid]) ?_ (fun t' he => ⟨curOf_other _ _ _ _ he, wOf_other _ _ _ _ he⟩)
        intro x e q hq
        rw [wOf_same] at hq
        rcases hw with hw | ⟨e', hw, he'⟩
        · rw [hw] at hq; simp at hq
        · rw [hw] at hq
          have hq := Option.some.inj hq
          simp only [Prod.mk.injEq] at hq
          rw [← hq.2.1, ← hq.2.2]
          exact ⟨rfl, he'⟩
      rok := by
        intro id r hm
        exact (h.rok id r hm).mono (CellsLe.refl _ _) hle }
  cases op with
  | get => exact go _ (Or.inl rfl) rfl ⟨hnew, trivial⟩
  | put v => exact go _ (Or.inr ⟨_, rfl, rfl⟩) rfl ⟨_, hnew, by simp, rfl, rfl⟩
  | update fn => exact go _ (Or.inr ⟨_, rfl, rfl⟩) rfl ⟨_, hnew, by simp, rfl, rfl⟩

/-- the log of a writer step: nothing, or its own entry -/
theorem wstep_log {s t x : Nat} {e : Entry} {c c' : Cells} {p : WPC} {r : WRes}
    (h : wstep s t x e c p = some (c', r)) : c'.log = c.log ∨ c'.log = c.log ++ [(x, e)] := by
  cases p with
  | lock =>
    rw [wstep] at h
    split at h
    · have h := Option.some.inj h
      have hc : _ = c' := congrArg Prod.fst h
      rw [← hc]; exact Or.inl rfl
    · simp at h
  | add1 =>
    rw [wstep] at h
    have h := Option.some.inj h
    have hc : _ = c' := congrArg Prod.fst h
    rw [← hc]; exact Or.inl rfl
  | run ws rr =>
    cases ws with
    | nil =>
      cases rr <;> (rw [wstep] at h; have h := Option.some.inj h; have hc : _ = c' := congrArg Prod.fst h; rw [← hc]; exact Or.inl rfl)
    | cons w ws =>
      obtain ⟨o, v⟩ := w
      rw [wstep] at h
      split at h <;> (have h := Option.some.inj h; have hc : _ = c' := congrArg Prod.fst h; rw [← hc]; exact Or.inl rfl)
  | add2 err =>
    rw [wstep] at h
    have h := Option.some.inj h
    have hc : _ = c' := congrArg Prod.fst h
    rw [← hc]; exact Or.inr rfl
  | unlock err =>
    rw [wstep] at h
    have h := Option.some.inj h
    have hc : _ = c' := congrArg Prod.fst h
    rw [← hc]; exact Or.inl rfl
  | dead => rw [wstep] at h; simp at h

/-- only the last step of a writer returns -/
theorem wstep_ret {s t x : Nat} {e : Entry} {c c' : Cells} {p : WPC} {err : Option Err}
    (h : wstep s t x e c p = some (c', .ret err)) : p = .unlock err ∧ c'.log = c.log := by
  cases p with
  | lock =>
    rw [wstep] at h
    split at h
    · have h := congrArg Prod.snd (Option.some.inj h); simp at h
    · simp at h
  | add1 => rw [wstep] at h; have h := congrArg Prod.snd (Option.some.inj h); simp at h
  | run ws rr =>
    cases ws with
    | nil => cases rr <;> (rw [wstep] at h; have h := congrArg Prod.snd (Option.some.inj h); simp at h)
    | cons w ws =>
      obtain ⟨o, v⟩ := w
      rw [wstep] at h
      split at h <;> (have h := congrArg Prod.snd (Option.some.inj h); simp at h)
  | add2 err => rw [wstep] at h; have h := congrArg Prod.snd (Option.some.inj h); simp at h
  | unlock err' =>
    rw [wstep] at h
    have h := Option.some.inj h
    have hc : _ = c' := congrArg Prod.fst h
    have hr : WRes.ret err' = .ret err := congrArg Prod.snd h
    rw [WRes.ret.inj hr, ← hc]; exact ⟨rfl, rfl⟩
  | dead => rw [wstep] at h; simp at h

theorem inv_w {n : Nat} {σ : State} (h : Inv n σ) (t : Nat) {e : Entry} {p : WPC}
    (hpc : σ.pc t = .w e p) {c : Cells} {r : WRes} (hst : wstep n t 0 e σ.cells p = some (c, r)) (p' : PC)
    (rets : List (Nat × Ret))
    (hr : (∃ q, r = .go q ∧ p' = .w e q ∧ rets = σ.rets) ∨
      (∃ err, r = .ret err ∧ p' = .idle ∧ rets = σ.rets ++ [(e.id, .wrote err)])) :
    Inv n { σ with cells := c, pc := upd σ.pc t p', rets := rets } := by
  have hW : wOf σ.pc t = some (0, e, p) := by unfold wOf; rw [hpc]; rfl
  have hid : curOf σ.pc t = some e.id := by unfold curOf; rw [hpc]; rfl
  have hwok := h.cells.wok t 0 e p hW
  have hg := wstep_guar hwok hst
  have hle := Guar.le hg
  have ht := h.thr t
  rw [hpc] at ht
  have hW' : wOf (upd σ.pc t p') t = wnext 0 e r := by
    rw [wOf_same]
    rcases hr with ⟨q, h1, h2, _⟩ | ⟨err, h1, h2, _⟩ <;> (rw [h1, h2]; rfl)
  have hlg := h.lg.wstep (W' := wOf (upd σ.pc t p')) (cur' := curOf (upd σ.pc t p')) h.ids.uniq hW hst hW'
      (by
        rintro ⟨q, h1⟩
        rcases hr with ⟨q', h2, h3, _⟩ | ⟨err, h2, _⟩
        · rw [curOf_same, h3, hid]; rfl
        · rw [h1] at h2; simp at h2)
      (by
        rintro ⟨err, h1⟩
        rcases hr with ⟨q', h2, _⟩ | ⟨err, h2, h3, _⟩
        · rw [h1] at h2; simp at h2
        · rw [curOf_same, h3]; rfl)
      (fun t' he => ⟨curOf_other _ _ _ _ he, wOf_other _ _ _ _ he⟩)
  have hcells := cinv_wstep (W' := wOf (upd σ.pc t p')) h.cells hW hst hW' (fun t' he => wOf_other _ _ _ _ he)
  exact {
    thr := by
      intro t'
      show TOk n c σ.invs (upd σ.pc t p' t')
      by_cases he : t' = t
      · subst he; rw [upd_same]
        rcases hr with ⟨q, _, h2, _⟩ | ⟨err, _, h2, _⟩
        · rw [h2]; exact ht
        · rw [h2]; trivial
      · rw [upd_other _ _ he]; exact (h.thr t').mono hle (InvsLe.refl _)
    cells := hcells
    logok := by
      intro x' e' hm
      have hm : (x', e') ∈ c.log := hm
      rcases wstep_log hst with hl | hl
      · rw [hl] at hm; exact h.logok x' e' hm
      · rw [hl] at hm
        rcases List.mem_append.mp hm with hm | hm
        · exact h.logok x' e' hm
        · have hm := List.mem_singleton.mp hm
          have e1 : x' = 0 := congrArg Prod.fst hm
          have e2 : e' = e := congrArg Prod.snd hm
          subst e1; subst e2
          exact ⟨rfl, ht⟩
    ids := by
      show IdInv _ _ (rets.map _)
      rcases hr with ⟨q, _, h2, h3⟩ | ⟨err, _, h2, h3⟩
      · rw [h3]
        apply h.ids.same
        intro t'
        by_cases he : t' = t
        · subst he; rw [curOf_same, h2, hid]; rfl
        · exact curOf_other _ _ _ _ he
      · rw [h3, List.map_append]
        exact h.ids.ret (t := t) hid (by rw [curOf_same, h2]; rfl) (fun t' he => curOf_other _ _ _ _ he)
    lg := by
      show LInv _ _ _ (ranIds rets)
      rcases hr with ⟨q, h1, h2, h3⟩ | ⟨err, h1, h2, h3⟩
      · subst h1; rw [h3]; exact hlg
      · subst h1; rw [h3, ranIds_snoc]; exact hlg
    rok := by
      intro id r' hm
      have hm : (id, r') ∈ rets := hm
      rcases hr with ⟨q, _, _, h3⟩ | ⟨err, h1, _, h3⟩
      · rw [h3] at hm; exact (h.rok id r' hm).mono hle (InvsLe.refl _)
      · rw [h3] at hm
        rcases List.mem_append.mp hm with hm | hm
        · exact (h.rok id r' hm).mono hle (InvsLe.refl _)
        · have hm := List.mem_singleton.mp hm
          have e1 : id = e.id := congrArg Prod.fst hm
          have e2 : r' = .wrote err := congrArg Prod.snd hm
          subst e1; subst e2; subst h1
          obtain ⟨hp, hl⟩ := wstep_ret hst
          subst hp
          obtain ⟨_, _, es, hes, hres⟩ := hwok
          refine ⟨e, es, [], rfl, ?_, hres⟩
          show writesOf c.log 0 = _
          rw [hl, hes] }

/-- a reader moves -/
theorem inv_r {n : Nat} {σ : State} (h : Inv n σ) (t : Nat) {id : Nat} {p : RPC} (hpc : σ.pc t = .r id p) (p' : PC)
    (rets : List (Nat × Ret))
    (hr : (∃ q, p' = .r id q ∧ rets = σ.rets ∧ ROk n σ.cells 0 n q) ∨
      (∃ v d, p' = .idle ∧ rets = σ.rets ++ [(id, .got v d)])) :
    Inv n { σ with pc := upd σ.pc t p', rets := rets } := by
  have ht := h.thr t
  rw [hpc] at ht
  have hw : (σ.pc t).w? = none := by rw [hpc]; rfl
  have hid : (σ.pc t).id = some id := by rw [hpc]; rfl
  have hw' : p'.w? = none := by rcases hr with ⟨q, h1, _⟩ | ⟨v, d, h1, _⟩ <;> (rw [h1]; rfl)
  exact {
    thr := by
      intro t'
      show TOk n σ.cells σ.invs (upd σ.pc t p' t')
      by_cases he : t' = t
      · subst he; rw [upd_same]
        rcases hr with ⟨q, h1, _, h2⟩ | ⟨v, d, h1, _⟩
        · rw [h1]; exact ⟨ht.1, h2⟩
        · rw [h1]; trivial
      · rw [upd_other _ _ he]; exact h.thr t'
    cells := by
      apply cinv_congr h.cells
      intro t'
      by_cases he : t' = t
      · subst he; rw [wOf_same, hw']; exact hw.symm
      · exact wOf_other _ _ _ _ he
    logok := h.logok
    ids := by
      show IdInv _ _ (rets.map _)
      rcases hr with ⟨q, h1, h2, _⟩ | ⟨v, d, h1, h2⟩
      · rw [h2]
        apply h.ids.same
        intro t'
        by_cases he : t' = t
        · subst he; rw [curOf_same, h1]; exact hid.symm
        · exact curOf_other _ _ _ _ he
      · rw [h2, List.map_append]
        exact h.ids.ret (t := t) hid (by rw [curOf_same, h1]; rfl) (fun t' he => curOf_other _ _ _ _ he)
    lg := by
      show LInv _ _ _ (ranIds rets)
      have hrr : ranIds rets = ranIds σ.rets := by
        rcases hr with ⟨q, h1, h2, _⟩ | ⟨v, d, h1, h2⟩
        · rw [h2]
        · rw [h2, ranIds_snoc]; simp [ranId]
      rw [hrr]
      refine h.lg.same (t := t) rfl ?_ ?_ ?_ (fun t' he => ⟨curOf_other _ _ _ _ he, wOf_other _ _ _ _ he⟩)
      · rcases hr with ⟨q, h1, h2, _⟩ | ⟨v, d, h1, h2⟩
        · left; rw [curOf_same, h1]; exact hid.symm
        · right; rw [curOf_same, h1]; rfl
      · intro x e q hq
        have : (σ.pc t).w? = some (x, e, q) := hq
        rw [hw] at this; simp at this
      · intro x e q hq
        rw [wOf_same, hw'] at hq; simp at hq
    rok := by
      intro i r' hm
      have hm : (i, r') ∈ rets := hm
      rcases hr with ⟨q, h1, h2, _⟩ | ⟨v, d, h1, h2⟩
      · rw [h2] at hm; exact h.rok i r' hm
      · rw [h2] at hm
        rcases List.mem_append.mp hm with hm | hm
        · exact h.rok i r' hm
        · have hm := List.mem_singleton.mp hm
          have e1 : i = id := congrArg Prod.fst hm
          have e2 : r' = .got v d := congrArg Prod.snd hm
          subst e1; subst e2
          exact ht.1 }

theorem inv_step {n : Nat} {σ σ' : State} (h : Inv n σ) {t : Nat} (hs : step n σ t = some σ') : Inv n σ' := by
  have ht := h.thr t
  unfold step at hs
  cases hpc : σ.pc t with
  | idle => rw [hpc] at hs; simp at hs
  | w e p =>
    rw [hpc] at hs
    simp only at hs
    cases hst : wstep n t 0 e σ.cells p with
    | none => rw [hst] at hs; simp at hs
    | some cr =>
      obtain ⟨c, r⟩ := cr
      rw [hst] at hs
      cases r with
      | go q =>
        have hs := Option.some.inj hs
        subst hs
        exact inv_w h t hpc hst _ _ (Or.inl ⟨q, rfl, rfl, rfl⟩)
      | ret err =>
        have hs := Option.some.inj hs
        subst hs
        exact inv_w h t hpc hst _ _ (Or.inr ⟨err, rfl, rfl, rfl⟩)
  | r id p =>
    rw [hpc] at hs ht
    simp only at hs
    cases hst : rstep n 0 n σ.cells p with
    | go p' =>
      rw [hst] at hs
      have hs := Option.some.inj hs
      subst hs
      exact inv_r h t hpc _ _ (Or.inl ⟨p', rfl, rfl, rstep_ok h.cells ht.2 hst⟩)
    | done got during =>
      rw [hst] at hs
      have hs := Option.some.inj hs
      subst hs
      exact inv_r h t hpc _ _ (Or.inr ⟨got, during, rfl, rfl⟩)

theorem inv_one {n : Nat} {σ σ' : State} (h : Inv n σ) (hs : Step n σ σ') : Inv n σ' := by
  cases hs with
  | call t op ht => exact inv_call h ht op
  | step _ t hs => exact inv_step h hs

theorem inv_steps {n : Nat} {σ σ' : State} (h : Inv n σ) (hs : Steps n σ σ') : Inv n σ' := by
  induction hs with
  | refl => exact h
  | tail _ h1 ih => exact inv_one ih h1

theorem inv_reach {n : Nat} {σ : State} (hs : Steps n init σ) : Inv n σ := inv_steps (inv_init n) hs

/-! the writer programs do what the specification says -/

theorem fit_length (n : Nat) (v : Bytes) : (fit n v).length = n := by simp [fit]

theorem copyOf_run (n : Nat) (v d : Bytes) (hd : d.length = n) :
    (copyOf n v).foldl (fun b w => b.set w.1 w.2) d = fit n v := by
  -- after copying the first m bytes
  have key : ∀ m, m ≤ n → ((List.range m).map fun i => (i, v.getD i 0)).foldl (fun b w => b.set w.1 w.2) d =
      (fit n v).take m ++ d.drop m := by
    intro m
    induction m with
    | zero => intro _; simp
    | succ m ih =>
      intro hm
      rw [List.range_succ, List.map_append, List.foldl_append, ih (by omega)]
      simp only [List.map_cons, List.map_nil, List.foldl_cons, List.foldl_nil]
      apply List.ext_getElem?
      intro i
      have hl : ((fit n v).take m).length = m := by rw [List.length_take, fit_length]; omega
      have hl' : ((fit n v).take (m + 1)).length = m + 1 := by rw [List.length_take, fit_length]; omega
      have hf : (fit n v)[m]? = some (v.getD m 0) := by
        unfold fit; rw [List.getElem?_map, List.getElem?_range (by omega)]; rfl
      rw [List.getElem?_set, List.length_append, hl, List.length_drop, hd]
      by_cases h1 : m = i
      · subst h1
        rw [if_pos rfl, if_pos (by omega), List.getElem?_append_left (by omega), List.getElem?_take, if_pos (by omega), hf]
      · rw [if_neg h1]
        by_cases h2 : i < m
        · rw [List.getElem?_append_left (by omega), List.getElem?_append_left (by omega), List.getElem?_take,
            List.getElem?_take, if_pos h2, if_pos (by omega)]
        · rw [List.getElem?_append_right (by omega), List.getElem?_append_right (by omega), hl, hl',
            List.getElem?_drop, List.getElem?_drop]
          congr 1; omega
  have := key n (Nat.le_refl n)
  unfold copyOf
  rw [this, List.take_of_length_le (by rw [fit_length]; omega), List.drop_of_length_le (by omega), List.append_nil]

theorem runAll_length (s : Nat) (es : List Entry) : (runAll s es).length = s := by
  unfold runAll
  have : ∀ (es : List Entry) (d : Bytes), (es.foldl runAlone d).length = d.length := by
    intro es
    induction es with
    | nil => intro d; rfl
    | cons e es ih =>
      intro d
      rw [List.foldl_cons, ih]
      unfold runAlone
      generalize (e.fn d e.init).1 = ws
      clear ih
      induction ws generalizing d with
      | nil => rfl
      | cons w ws ih => rw [List.foldl_cons, ih, List.length_set]
  rw [this]; simp

theorem runAlone_writer (n : Nat) (op : Op) (id : Nat) (ini : Bool) (d : Bytes) (hd : d.length = n) :
    runAlone d ⟨id, writer n op, ini⟩ = seqAfter n d op := by
  unfold runAlone
  cases op with
  | put v => exact copyOf_run n v d hd
  | get => rfl
  | update fn =>
    simp only [writer, seqAfter]
    generalize fn d = r
    obtain ⟨d', o⟩ := r
    cases o with
    | panic => rfl
    | val e =>
      cases e with
      | none => exact copyOf_run n d' d hd
      | some err => rfl

end Starbow.Seqlock
