import Verif.Props.BufmapLive
/-
Property C74, the limit: with Updates made again and again, a Get may retry for ever although every goroutine keeps having its turn.
-/
namespace Starbow.Props
open Starbow.Probe Starbow.Cell Starbow.Spec Starbow.BufmapConc Starbow.Props.BufmapConc

/-- what happens at one moment: goroutine `t` starts a call (`some op`) or has its turn (`none`) -/
def act (l s : Nat) (σ : State) : Nat × Option Op → State
  | (t, some op) => call σ t op
  | (t, none) => (step l s σ t).getD σ

/-- the states of an infinite run -/
def actsRun (l s : Nat) (acts : Nat → Nat × Option Op) : Nat → State
  | 0 => Starbow.BufmapConc.init
  | i + 1 => act l s (actsRun l s acts i) (acts i)

/-- a legal infinite run: only idle goroutines start calls, and only goroutines that can move have their turn -/
def Legal (l s : Nat) (acts : Nat → Nat × Option Op) : Prop :=
  ∀ i, Step l s (actsRun l s acts i) (actsRun l s acts (i + 1))

namespace Starve

/-- first an Update that stores the key 1, and a Get that finds it -/
def pre : List (Nat × Option Op) :=
  [(0, some (.upd 1 bump))] ++ steps 0 8 ++ [(1, some (.get 1 [7]))] ++ steps 1 1

/-- then again and again: the Get loads the sequence number and copies the byte; an Update is called and returns; the Get loads the
sequence number again and finds it changed -/
def loop : List (Nat × Option Op) := steps 1 2 ++ [(0, some (.upd 1 bump))] ++ steps 0 7 ++ steps 1 1

def acts (i : Nat) : Nat × Option Op := if i < 11 then pre.getD i (0, none) else loop.getD ((i - 11) % 11) (0, none)

/-- where the two goroutines are at the moment `i` of the loop -/
def At (σ : State) : Nat → Prop
  | 0 => σ.pc 0 = .idle ∧ σ.pc 1 = .r 1 1 [7] 1 .load1 ∧ σ.cells.lock 1 = none ∧ (σ.cells.seq 1).toNat % 2 = 0
  | 1 => σ.pc 0 = .idle ∧ (∃ ct, σ.pc 1 = .r 1 1 [7] 1 (.copy (σ.cells.seq 1) ct [])) ∧ σ.cells.lock 1 = none ∧ (σ.cells.seq 1).toNat % 2 = 0
  | 2 => σ.pc 0 = .idle ∧ (∃ ct b, σ.pc 1 = .r 1 1 [7] 1 (.copy (σ.cells.seq 1) ct [b])) ∧ σ.cells.lock 1 = none ∧ (σ.cells.seq 1).toNat % 2 = 0
  | 3 => (∃ id, 1 < id ∧ σ.pc 0 = .uProbe id 1 bump false (.load 0)) ∧ (∃ ct b, σ.pc 1 = .r 1 1 [7] 1 (.copy (σ.cells.seq 1) ct [b])) ∧
      σ.cells.lock 1 = none ∧ (σ.cells.seq 1).toNat % 2 = 0
  | 4 => (∃ id, 1 < id ∧ σ.pc 0 = .w 1 1 ⟨id, bump, false⟩ .lock) ∧ (∃ ct b, σ.pc 1 = .r 1 1 [7] 1 (.copy (σ.cells.seq 1) ct [b])) ∧
      σ.cells.lock 1 = none ∧ (σ.cells.seq 1).toNat % 2 = 0
  | 5 => (∃ id, 1 < id ∧ σ.pc 0 = .w 1 1 ⟨id, bump, false⟩ .add1) ∧ (∃ ct b, σ.pc 1 = .r 1 1 [7] 1 (.copy (σ.cells.seq 1) ct [b])) ∧
      (σ.cells.seq 1).toNat % 2 = 0
  | 6 => (∃ id v, 1 < id ∧ σ.pc 0 = .w 1 1 ⟨id, bump, false⟩ (.run [(0, v)] (.ret none))) ∧
      (∃ sq ct b, σ.pc 1 = .r 1 1 [7] 1 (.copy sq ct [b]) ∧ σ.cells.seq 1 = sq + 1 ∧ sq.toNat % 2 = 0)
  | 7 => (∃ id, 1 < id ∧ σ.pc 0 = .w 1 1 ⟨id, bump, false⟩ (.run [] (.ret none))) ∧
      (∃ sq ct b, σ.pc 1 = .r 1 1 [7] 1 (.copy sq ct [b]) ∧ σ.cells.seq 1 = sq + 1 ∧ sq.toNat % 2 = 0)
  | 8 => (∃ id, 1 < id ∧ σ.pc 0 = .w 1 1 ⟨id, bump, false⟩ (.add2 none)) ∧
      (∃ sq ct b, σ.pc 1 = .r 1 1 [7] 1 (.copy sq ct [b]) ∧ σ.cells.seq 1 = sq + 1 ∧ sq.toNat % 2 = 0)
  | 9 => (∃ id, 1 < id ∧ σ.pc 0 = .w 1 1 ⟨id, bump, false⟩ (.unlock none)) ∧
      (∃ sq ct b, σ.pc 1 = .r 1 1 [7] 1 (.copy sq ct [b]) ∧ σ.cells.seq 1 = sq + 1 + 1 ∧ sq.toNat % 2 = 0)
  | 10 => σ.pc 0 = .idle ∧ (∃ sq ct b, σ.pc 1 = .r 1 1 [7] 1 (.copy sq ct [b]) ∧ σ.cells.seq 1 = sq + 1 + 1 ∧ sq.toNat % 2 = 0) ∧
      σ.cells.lock 1 = none
  | _ => False

/-- and what holds all the time: the key is stored, the Get (call 1) has not returned -/
def Inv (σ : State) : Prop := σ.keys 1 = 1 ∧ (∀ r, (1, r) ∉ σ.rets) ∧ σ.invs[1]? = some (.get 1 [7])

theorem even2 {sq : BitVec 32} (h : sq.toNat % 2 = 0) : (sq + 1 + 1).toNat % 2 = 0 := by
  simp only [BitVec.toNat_add, show BitVec.toNat (1 : BitVec 32) = 1 from rfl]; omega

theorem ne2 (sq : BitVec 32) : sq ≠ sq + 1 + 1 := by
  intro h
  have := congrArg BitVec.toNat h
  simp only [BitVec.toNat_add, show BitVec.toNat (1 : BitVec 32) = 1 from rfl] at this
  omega

theorem pos1 : pos 4 1 0 = 1 := by decide

theorem loop_step (σ : State) (j : Nat) (hj : j < 11) (hI : Inv σ) (hA : At σ j) :
    Step 4 4 σ (act 4 4 σ (loop.getD j (0, none))) ∧ Inv (act 4 4 σ (loop.getD j (0, none))) ∧
    At (act 4 4 σ (loop.getD j (0, none))) ((j + 1) % 11) ∧ (act 4 4 σ (loop.getD j (0, none))).rets.length = σ.rets.length + (if j = 9 then 1 else 0) := by
  obtain ⟨hk, hr, hi⟩ := hI
  have go : ∀ {t : Nat} {σ' : State}, step 4 4 σ t = some σ' → act 4 4 σ (t, none) = σ' ∧ Step 4 4 σ (act 4 4 σ (t, none)) := by
    intro t σ' h
    have : act 4 4 σ (t, none) = σ' := by rw [act, h]; rfl
    exact ⟨this, by rw [this]; exact .step _ _ _ h⟩
  match j, hj with
  | 0, _ =>
    obtain ⟨h0, h1, h2, h3⟩ := hA
    have hst : step 4 4 σ 1 = some { σ with pc := upd σ.pc 1 (.r 1 1 [7] 1 (.copy (σ.cells.seq 1) (σ.cells.cnt 1) [])) } := by
      unfold step
      rw [h1]
      simp [rstep, h3]
    obtain ⟨e, hs⟩ := go hst
    change Step 4 4 σ (act 4 4 σ (1, none)) ∧ Inv (act 4 4 σ (1, none)) ∧ At (act 4 4 σ (1, none)) 1 ∧ _
    refine ⟨hs, ?_⟩
    rw [show act 4 4 σ (loop.getD 0 (0, none)) = act 4 4 σ (1, none) from rfl, e]
    exact ⟨⟨hk, hr, hi⟩, ⟨h0, ⟨_, rfl⟩, h2, h3⟩, rfl⟩
  | 1, _ =>
    obtain ⟨h0, ⟨ct, h1⟩, h2, h3⟩ := hA
    have hst : step 4 4 σ 1 = some { σ with pc := upd σ.pc 1 (.r 1 1 [7] 1 (.copy (σ.cells.seq 1) ct [σ.cells.vals 4])) } := by
      unfold step
      rw [h1]
      simp [rstep]
    obtain ⟨e, hs⟩ := go hst
    change Step 4 4 σ (act 4 4 σ (1, none)) ∧ Inv (act 4 4 σ (1, none)) ∧ At (act 4 4 σ (1, none)) 2 ∧ _
    refine ⟨hs, ?_⟩
    rw [show act 4 4 σ (loop.getD 1 (0, none)) = act 4 4 σ (1, none) from rfl, e]
    exact ⟨⟨hk, hr, hi⟩, ⟨h0, ⟨_, _, rfl⟩, h2, h3⟩, rfl⟩
  | 2, _ =>
    obtain ⟨h0, ⟨ct, b, h1⟩, h2, h3⟩ := hA
    have hlen : 1 < σ.invs.length := by
      by_contra hn
      rw [List.getElem?_eq_none (by omega)] at hi
      simp at hi
    have e : act 4 4 σ (0, some (.upd 1 bump)) = { σ with invs := σ.invs ++ [.upd 1 bump], pc := upd σ.pc 0 (.uProbe σ.invs.length 1 bump false (.load 0)) } := by
      unfold act call
      simp
    change Step 4 4 σ (act 4 4 σ (0, some (.upd 1 bump))) ∧ Inv (act 4 4 σ (0, some (.upd 1 bump))) ∧
      At (act 4 4 σ (0, some (.upd 1 bump))) 3 ∧ (act 4 4 σ (0, some (.upd 1 bump))).rets.length = _
    have hc : Step 4 4 σ (call σ 0 (.upd 1 bump)) := .call _ _ _ h0
    refine ⟨hc, ?_⟩
    rw [e]
    refine ⟨⟨hk, hr, ?_⟩, ⟨⟨_, hlen, rfl⟩, ⟨ct, b, h1⟩, h2, h3⟩, rfl⟩
    simp only
    rw [List.getElem?_append_left hlen]
    exact hi
  | 3, _ =>
    obtain ⟨⟨id, hid, h0⟩, ⟨ct, b, h1⟩, h2, h3⟩ := hA
    have hst : step 4 4 σ 0 = some { σ with pc := upd σ.pc 0 (.w 1 1 ⟨id, bump, false⟩ .lock) } := by
      unfold step
      rw [h0]
      simp only [probeStep]
      rw [pos1, if_pos hk]
    obtain ⟨e, hs⟩ := go hst
    change Step 4 4 σ (act 4 4 σ (0, none)) ∧ Inv (act 4 4 σ (0, none)) ∧ At (act 4 4 σ (0, none)) 4 ∧ _
    refine ⟨hs, ?_⟩
    rw [show act 4 4 σ (loop.getD 3 (0, none)) = act 4 4 σ (0, none) from rfl, e]
    exact ⟨⟨hk, hr, hi⟩, ⟨⟨_, hid, rfl⟩, ⟨ct, b, h1⟩, h2, h3⟩, rfl⟩
  | 4, _ =>
    obtain ⟨⟨id, hid, h0⟩, ⟨ct, b, h1⟩, h2, h3⟩ := hA
    have hst : step 4 4 σ 0 = some ⟨σ.keys, { σ.cells with lock := upd σ.cells.lock 1 (some 0) },
        upd σ.pc 0 (.w 1 1 ⟨id, bump, false⟩ .add1), σ.invs, σ.rets⟩ := by
      unfold step
      rw [h0]
      simp [wstep, h2]
    obtain ⟨e, hs⟩ := go hst
    change Step 4 4 σ (act 4 4 σ (0, none)) ∧ Inv (act 4 4 σ (0, none)) ∧ At (act 4 4 σ (0, none)) 5 ∧ _
    refine ⟨hs, ?_⟩
    rw [show act 4 4 σ (loop.getD 4 (0, none)) = act 4 4 σ (0, none) from rfl, e]
    exact ⟨⟨hk, hr, hi⟩, ⟨⟨_, hid, rfl⟩, ⟨ct, b, h1⟩, h3⟩, rfl⟩
  | 5, _ =>
    obtain ⟨⟨id, hid, h0⟩, ⟨ct, b, h1⟩, h3⟩ := hA
    have hst : ∃ v, step 4 4 σ 0 = some ⟨σ.keys, ⟨upd σ.cells.seq 1 (σ.cells.seq 1 + 1), σ.cells.lock, σ.cells.vals,
        upd σ.cells.cnt 1 (σ.cells.cnt 1 + 1), σ.cells.log⟩, upd σ.pc 0 (.w 1 1 ⟨id, bump, false⟩ (.run [(0, v)] (.ret none))), σ.invs, σ.rets⟩ := by
      refine ⟨(bytesOf 4 σ.cells 1).getD 0 0 + 1, ?_⟩
      unfold step
      rw [h0]
      simp [wstep, bump]
    obtain ⟨v, hst⟩ := hst
    obtain ⟨e, hs⟩ := go hst
    change Step 4 4 σ (act 4 4 σ (0, none)) ∧ Inv (act 4 4 σ (0, none)) ∧ At (act 4 4 σ (0, none)) 6 ∧ _
    refine ⟨hs, ?_⟩
    rw [show act 4 4 σ (loop.getD 5 (0, none)) = act 4 4 σ (0, none) from rfl, e]
    exact ⟨⟨hk, hr, hi⟩, ⟨⟨_, _, hid, rfl⟩, ⟨_, ct, b, h1, rfl, h3⟩⟩, rfl⟩
  | 6, _ =>
    obtain ⟨⟨id, v, hid, h0⟩, hrd⟩ := hA
    have hst : step 4 4 σ 0 = some ⟨σ.keys, { σ.cells with vals := upd σ.cells.vals 4 v },
        upd σ.pc 0 (.w 1 1 ⟨id, bump, false⟩ (.run [] (.ret none))), σ.invs, σ.rets⟩ := by
      unfold step
      rw [h0]
      simp [wstep]
    obtain ⟨e, hs⟩ := go hst
    change Step 4 4 σ (act 4 4 σ (0, none)) ∧ Inv (act 4 4 σ (0, none)) ∧ At (act 4 4 σ (0, none)) 7 ∧ _
    refine ⟨hs, ?_⟩
    rw [show act 4 4 σ (loop.getD 6 (0, none)) = act 4 4 σ (0, none) from rfl, e]
    exact ⟨⟨hk, hr, hi⟩, ⟨⟨_, hid, rfl⟩, hrd⟩, rfl⟩
  | 7, _ =>
    obtain ⟨⟨id, hid, h0⟩, hrd⟩ := hA
    have hst : step 4 4 σ 0 = some { σ with pc := upd σ.pc 0 (.w 1 1 ⟨id, bump, false⟩ (.add2 none)) } := by
      unfold step
      rw [h0]
      simp [wstep]
    obtain ⟨e, hs⟩ := go hst
    change Step 4 4 σ (act 4 4 σ (0, none)) ∧ Inv (act 4 4 σ (0, none)) ∧ At (act 4 4 σ (0, none)) 8 ∧ _
    refine ⟨hs, ?_⟩
    rw [show act 4 4 σ (loop.getD 7 (0, none)) = act 4 4 σ (0, none) from rfl, e]
    exact ⟨⟨hk, hr, hi⟩, ⟨⟨_, hid, rfl⟩, hrd⟩, rfl⟩
  | 8, _ =>
    obtain ⟨⟨id, hid, h0⟩, ⟨sq, ct, b, h1, h2, h3⟩⟩ := hA
    have hst : step 4 4 σ 0 = some ⟨σ.keys, ⟨upd σ.cells.seq 1 (σ.cells.seq 1 + 1), σ.cells.lock, σ.cells.vals,
        upd σ.cells.cnt 1 (σ.cells.cnt 1 + 1), σ.cells.log ++ [(1, ⟨id, bump, false⟩)]⟩,
        upd σ.pc 0 (.w 1 1 ⟨id, bump, false⟩ (.unlock none)), σ.invs, σ.rets⟩ := by
      unfold step
      rw [h0]
      simp [wstep]
    obtain ⟨e, hs⟩ := go hst
    change Step 4 4 σ (act 4 4 σ (0, none)) ∧ Inv (act 4 4 σ (0, none)) ∧ At (act 4 4 σ (0, none)) 9 ∧ _
    refine ⟨hs, ?_⟩
    rw [show act 4 4 σ (loop.getD 8 (0, none)) = act 4 4 σ (0, none) from rfl, e]
    exact ⟨⟨hk, hr, hi⟩, ⟨⟨_, hid, rfl⟩, ⟨sq, ct, b, h1, by simp only [upd_same]; rw [h2], h3⟩⟩, rfl⟩
  | 9, _ =>
    obtain ⟨⟨id, hid, h0⟩, ⟨sq, ct, b, h1, h2, h3⟩⟩ := hA
    have hst : step 4 4 σ 0 = some ⟨σ.keys, { σ.cells with lock := upd σ.cells.lock 1 none },
        upd σ.pc 0 .idle, σ.invs, σ.rets ++ [(id, .ran none)]⟩ := by
      unfold step
      rw [h0]
      simp [wstep]
    obtain ⟨e, hs⟩ := go hst
    change Step 4 4 σ (act 4 4 σ (0, none)) ∧ Inv (act 4 4 σ (0, none)) ∧ At (act 4 4 σ (0, none)) 10 ∧ _
    refine ⟨hs, ?_⟩
    rw [show act 4 4 σ (loop.getD 9 (0, none)) = act 4 4 σ (0, none) from rfl, e]
    refine ⟨⟨hk, ?_, hi⟩, ⟨rfl, ⟨sq, ct, b, h1, h2, h3⟩, by simp only [upd_same]⟩, by simp⟩
    intro r hm
    simp only [List.mem_append, List.mem_singleton, Prod.mk.injEq] at hm
    rcases hm with hm | hm
    · exact hr r hm
    · omega
  | 10, _ =>
    obtain ⟨h0, ⟨sq, ct, b, h1, h2, h3⟩, h4⟩ := hA
    have hst : step 4 4 σ 1 = some { σ with pc := upd σ.pc 1 (.r 1 1 [7] 1 .load1) } := by
      unfold step
      rw [h1]
      simp only [reduceCtorEq, false_and, if_false, rstep]
      rw [if_neg (by simp), if_neg (by rw [h2]; exact ne2 sq)]
    obtain ⟨e, hs⟩ := go hst
    change Step 4 4 σ (act 4 4 σ (1, none)) ∧ Inv (act 4 4 σ (1, none)) ∧ At (act 4 4 σ (1, none)) 0 ∧ _
    refine ⟨hs, ?_⟩
    rw [show act 4 4 σ (loop.getD 10 (0, none)) = act 4 4 σ (1, none) from rfl, e]
    exact ⟨⟨hk, hr, hi⟩, ⟨h0, rfl, h4, by simp only [h2]; exact even2 h3⟩, rfl⟩

theorem acts_loop {i : Nat} (h : 11 ≤ i) : acts i = loop.getD ((i - 11) % 11) (0, none) := by
  unfold acts; rw [if_neg (by omega)]

theorem acts_pre {i : Nat} (h : i < 11) : acts i = pre.getD i (0, none) := by
  unfold acts; rw [if_pos h]

theorem idle_of {p : PC} (h : idle? p = true) : p = .idle := by
  cases p <;> simp [idle?] at h ⊢

theorem step_of {σ : State} {t : Nat} (h : (step 4 4 σ t).isSome = true) : Step 4 4 σ (act 4 4 σ (t, none)) := by
  obtain ⟨σ', h⟩ := Option.isSome_iff_exists.1 h
  have : act 4 4 σ (t, none) = σ' := by rw [act, h]; rfl
  rw [this]
  exact .step _ _ _ h

theorem pre_steps : (∀ i, i < 11 → Step 4 4 (actsRun 4 4 acts i) (actsRun 4 4 acts (i + 1))) ∧
    (∀ i, i < 11 → ∀ r, (1, r) ∉ (actsRun 4 4 acts i).rets) ∧ Inv (actsRun 4 4 acts 11) ∧ At (actsRun 4 4 acts 11) 0 := by
  have h2 : ∀ i, i < 12 → ∀ r, (1, r) ∉ (actsRun 4 4 acts i).rets := by
    intro i hi r hm
    have : ∀ i, i < 12 → 1 ∉ (actsRun 4 4 acts i).rets.map (·.1) := by decide +kernel
    exact this i hi (List.mem_map.2 ⟨_, hm, rfl⟩)
  refine ⟨?_, fun i hi => h2 i (by omega), ⟨by decide +kernel, h2 11 (by omega), ?_⟩, ?_, ?_, ?_, by decide +kernel⟩
  · intro i hi
    match i, hi with
    | 0, _ => exact .call (actsRun 4 4 acts 0) 0 (.upd 1 bump) rfl
    | 9, _ => exact .call (actsRun 4 4 acts 9) 1 (.get 1 [7]) (idle_of (by decide +kernel))
    | 1, _ => exact step_of (t := 0) (by decide +kernel)
    | 2, _ => exact step_of (t := 0) (by decide +kernel)
    | 3, _ => exact step_of (t := 0) (by decide +kernel)
    | 4, _ => exact step_of (t := 0) (by decide +kernel)
    | 5, _ => exact step_of (t := 0) (by decide +kernel)
    | 6, _ => exact step_of (t := 0) (by decide +kernel)
    | 7, _ => exact step_of (t := 0) (by decide +kernel)
    | 8, _ => exact step_of (t := 0) (by decide +kernel)
    | 10, _ => exact step_of (t := 1) (by decide +kernel)
  · rfl
  · exact idle_of (by decide +kernel)
  · rfl
  · rfl

theorem run_at (i : Nat) : Inv (actsRun 4 4 acts (11 + i)) ∧ At (actsRun 4 4 acts (11 + i)) (i % 11) ∧
    i / 11 ≤ (actsRun 4 4 acts (11 + i)).rets.length ∧ (i % 11 = 10 → i / 11 + 1 ≤ (actsRun 4 4 acts (11 + i)).rets.length) := by
  induction i with
  | zero => exact ⟨pre_steps.2.2.1, pre_steps.2.2.2, by simp, by simp⟩
  | succ i ih =>
    obtain ⟨hI, hA, hn, hn'⟩ := ih
    have := loop_step _ (i % 11) (Nat.mod_lt _ (by omega)) hI hA
    rw [show loop.getD (i % 11) (0, none) = acts (11 + i) by rw [acts_loop (by omega), show 11 + i - 11 = i by omega]] at this
    obtain ⟨_, h2, h3, h4⟩ := this
    have e : actsRun 4 4 acts (11 + (i + 1)) = act 4 4 (actsRun 4 4 acts (11 + i)) (acts (11 + i)) := rfl
    rw [e]
    refine ⟨h2, by rw [show (i + 1) % 11 = (i % 11 + 1) % 11 by omega]; exact h3, ?_, ?_⟩
    · rw [h4]
      by_cases h : i % 11 = 10
      · have := hn' h; omega
      · omega
    · intro h
      rw [h4, if_pos (by omega)]
      omega

theorem legal : Legal 4 4 acts := by
  intro i
  by_cases h : i < 11
  · exact pre_steps.1 i h
  · obtain ⟨j, rfl⟩ := Nat.exists_eq_add_of_le (Nat.le_of_not_lt h)
    obtain ⟨hI, hA, _⟩ := run_at j
    have := (loop_step _ (j % 11) (Nat.mod_lt _ (by omega)) hI hA).1
    rw [show loop.getD (j % 11) (0, none) = acts (11 + j) by rw [acts_loop (by omega), show 11 + j - 11 = j by omega]] at this
    exact this

end Starve

/-- **C74** is false if Updates keep being made: there is an infinite run of a map of 4 slots of 4 bytes in which a Get (the second call)
never returns, although it has its turn again and again and Updates of the same key, made after it, return again and again. -/
theorem C74_starved : ∃ acts : Nat → Nat × Option Op, Legal 4 4 acts ∧ acts 9 = (1, some (.get 1 [7])) ∧
    (∀ n, ∃ i, n ≤ i ∧ acts i = (1, none)) ∧ (∀ n, ∃ i, n ≤ (actsRun 4 4 acts i).rets.length) ∧
    (∀ i, ∀ r, (1, r) ∉ (actsRun 4 4 acts i).rets) ∧ ∀ i, 10 ≤ i → (actsRun 4 4 acts i).invs[1]? = some (.get 1 [7]) := by
  refine ⟨Starve.acts, Starve.legal, rfl, ?_, ?_, ?_, ?_⟩
  · intro n
    refine ⟨11 + 11 * n, by omega, ?_⟩
    rw [Starve.acts_loop (by omega), show (11 + 11 * n - 11) % 11 = 0 by omega]
    rfl
  · intro n
    obtain ⟨_, _, h, _⟩ := Starve.run_at (11 * n)
    exact ⟨11 + 11 * n, by omega⟩
  · intro i
    by_cases h : i < 11
    · exact Starve.pre_steps.2.1 i h
    · obtain ⟨j, rfl⟩ := Nat.exists_eq_add_of_le (Nat.le_of_not_lt h)
      exact (Starve.run_at j).1.2.1
  · intro i hi
    by_cases h : i < 11
    · obtain rfl : i = 10 := by omega
      rfl
    · obtain ⟨j, rfl⟩ := Nat.exists_eq_add_of_le (Nat.le_of_not_lt h)
      exact (Starve.run_at j).1.2.2

end Starbow.Props
