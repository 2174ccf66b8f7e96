import Verif.Spec.Incmap
import Verif.Proof.ProbeConc
namespace Starbow.IncmapConc
open Starbow.Probe Starbow.Spec

/-- number of the call a goroutine is executing -/
def PC.id : PC → Option Nat
  | .idle => none
  | .probe id .. => some id
  | .add id .. => some id
  | .look id .. => some id
  | .load id .. => some id

/-- local assertions -/
def TOk (l : Nat) (σ : State) : PC → Prop
  | .idle => True
  | .probe id k d p => σ.invs[id]? = some (.inc k d) ∧ k ≠ 0 ∧ ProbeOk l k σ.keys p
  | .add id k d x => σ.invs[id]? = some (.inc k d) ∧ k ≠ 0 ∧ x < l ∧ σ.keys x = k
  | .look id k i => σ.invs[id]? = some (.get k) ∧ i ≤ maxReprobe
  | .load id k x => σ.invs[id]? = some (.get k) ∧ x < l ∧ (k = 0 ∨ σ.keys x = k)

structure Inv (l : Nat) (σ : State) : Prop where
  keys : KeyInv l σ.keys
  thr : ∀ t, TOk l σ (σ.pc t)
  /-- a stored key was asked for -/
  asked : ∀ x, x < l → σ.keys x ≠ 0 → ∃ (id : Nat) (d : U64), σ.invs[id]? = some (Op.inc (σ.keys x) d)
  /-- the value of a key is the total of its increments -/
  val : ∀ x, x < l → σ.keys x ≠ 0 → σ.vals x = total σ.invs σ.rets (σ.keys x)
  zero : ∀ x, x < l → σ.keys x = 0 → σ.vals x = 0
  /-- returned calls -/
  rok : ∀ id r, (id, r) ∈ σ.rets → id < σ.invs.length ∧
    (r = .inc true → ∃ (k d : U64), σ.invs[id]? = some (.inc k d) ∧ k ≠ 0 ∧ ∃ x, x < l ∧ σ.keys x = k) ∧
    (r = .inc false → ∃ (k d : U64), σ.invs[id]? = some (.inc k d) ∧ (k = 0 ∨ Passed l k σ.keys (maxReprobe + 1)))
  /-- call numbers are unique -/
  rnodup : (σ.rets.map (·.1)).Nodup
  fresh : ∀ t id, (σ.pc t).id = some id → id ∉ σ.rets.map (·.1)
  uniq : ∀ t t' id, (σ.pc t).id = some id → (σ.pc t').id = some id → t = t'

theorem foldl_add_acc (xs : List U64) : ∀ a : U64, xs.foldl (· + ·) a = a + xs.foldl (· + ·) 0 := by
  induction xs with
  | nil => intro a; simp
  | cons x xs ih => intro a; rw [List.foldl_cons, List.foldl_cons, ih, ih (0 + x)]; simp only [BitVec.add_assoc, BitVec.ofNat_eq_ofNat, BitVec.zero_add]

theorem total_snoc (invs : List Op) (rets : List (Nat × Ret)) (r : Nat × Ret) (k : U64) :
    total invs (rets ++ [r]) k = total invs rets k + took invs k r := by
  unfold total
  rw [List.map_append, List.foldl_append]
  rfl

theorem total_invs {invs invs' : List Op} {rets : List (Nat × Ret)} (h : ∀ r ∈ rets, invs'[r.1]? = invs[r.1]?) (k : U64) :
    total invs' rets k = total invs rets k := by
  unfold total
  congr 1
  apply List.map_congr_left
  intro r hr
  unfold took
  rw [h r hr]

theorem total_zero {invs : List Op} {rets : List (Nat × Ret)} {k : U64}
    (h : ∀ r ∈ rets, took invs k r = 0) : total invs rets k = 0 := by
  unfold total
  have : rets.map (took invs k) = List.replicate rets.length 0 := by
    apply List.ext_getElem
    · simp
    · intro i h1 h2
      simp only [List.getElem_map, List.getElem_replicate]
      exact h _ (List.getElem_mem _)
  rw [this]
  generalize rets.length = n
  induction n with
  | zero => rfl
  | succ n ih => rw [List.replicate_succ, List.foldl_cons]; simpa using ih

theorem TOk.mono {l : Nat} {σ σ' : State} {p : PC} (h : TOk l σ p) (g : Grow σ.keys σ'.keys)
    (hi : ∀ (id : Nat) (op : Op), σ.invs[id]? = some op → σ'.invs[id]? = some op) (h0 : 0 < l) : TOk l σ' p := by
  cases p with
  | idle => trivial
  | probe id k d p => exact ⟨hi _ _ h.1, h.2.1, h.2.2.mono g⟩
  | add id k d x =>
    refine ⟨hi _ _ h.1, h.2.1, h.2.2.1, ?_⟩
    rw [g x (by rw [h.2.2.2]; exact h.2.1)]; exact h.2.2.2
  | look id k i => exact ⟨hi _ _ h.1, h.2⟩
  | load id k x =>
    refine ⟨hi _ _ h.1, h.2.1, ?_⟩
    rcases h.2.2 with hk | hk
    · exact Or.inl hk
    · by_cases h0 : k = 0
      · exact Or.inl h0
      · right; rw [g x (by rw [hk]; exact h0)]; exact hk

theorem upd_same {α : Type} (f : Nat → α) (i : Nat) (v : α) : upd f i v i = v := by simp [upd]
theorem upd_other {α : Type} (f : Nat → α) {i j : Nat} (v : α) (h : j ≠ i) : upd f i v j = f j := by simp [upd, h]

theorem inv_init (l : Nat) : Inv l init where
  keys := KeyInv.empty l
  thr := fun _ => trivial
  asked := fun _ _ h => absurd rfl h
  val := fun _ _ h => absurd rfl h
  zero := fun _ _ _ => rfl
  rok := by intro id r h; simp [init] at h
  rnodup := by simp [init]
  fresh := by intro t id h; simp [init, PC.id] at h
  uniq := by intro t t' id h; simp [init, PC.id] at h

theorem getElem?_append_one {α : Type} (xs : List α) (a : α) (i : Nat) (x : α) (h : xs[i]? = some x) :
    (xs ++ [a])[i]? = some x := by
  have hi : i < xs.length := by
    by_cases hi : i < xs.length
    · exact hi
    · rw [List.getElem?_eq_none (by omega)] at h; simp at h
  rw [List.getElem?_append_left hi]; exact h

theorem TOk.id_lt {l : Nat} {σ : State} {p : PC} (h : TOk l σ p) {id : Nat} (hid : p.id = some id) :
    id < σ.invs.length := by
  have key : ∀ (op : Op), σ.invs[id]? = some op → id < σ.invs.length := by
    intro op h
    by_cases hi : id < σ.invs.length
    · exact hi
    · rw [List.getElem?_eq_none (by omega)] at h; simp at h
  cases p with
  | idle => simp [PC.id] at hid
  | probe i k d p => simp only [PC.id, Option.some.injEq] at hid; subst hid; exact key _ h.1
  | add i k d x => simp only [PC.id, Option.some.injEq] at hid; subst hid; exact key _ h.1
  | look i k j => simp only [PC.id, Option.some.injEq] at hid; subst hid; exact key _ h.1
  | load i k x => simp only [PC.id, Option.some.injEq] at hid; subst hid; exact key _ h.1

/-- starting a call keeps the invariant -/
theorem inv_call {l : Nat} (hl : 0 < l) {σ : State} (h : Inv l σ) {t : Nat} (ht : σ.pc t = .idle) (op : Op) :
    Inv l (call σ t op) := by
  have hap : ∀ (id : Nat) (o : Op), σ.invs[id]? = some o → (σ.invs ++ [op])[id]? = some o :=
    fun id o ho => getElem?_append_one _ _ _ _ ho
  have hlt : ∀ r ∈ σ.rets, (σ.invs ++ [op])[r.1]? = σ.invs[r.1]? := by
    intro r hr
    rw [List.getElem?_append_left ((h.rok r.1 r.2 hr).1)]
  have hnew : (σ.invs ++ [op])[σ.invs.length]? = some op := by simp
  -- the parts that do not depend on what the call does
  have base : ∀ (pc : Nat → PC) (rets : List (Nat × Ret)),
      (∀ t', pc t' = σ.pc t' ∨ (t' = t ∧ (pc t').id = some σ.invs.length ∧
        TOk l ⟨σ.keys, σ.vals, pc, σ.invs ++ [op], rets⟩ (pc t'))) →
      (rets = σ.rets ∨ (rets = σ.rets ++ [(σ.invs.length, .inc false)] ∧ pc = σ.pc ∧ ∃ d, op = .inc 0 d)) →
      Inv l ⟨σ.keys, σ.vals, pc, σ.invs ++ [op], rets⟩ := by
    intro pc rets hpc hrets
    have htot : ∀ k, total (σ.invs ++ [op]) rets k = total σ.invs σ.rets k := by
      intro k
      rcases hrets with e | ⟨e, _, d, he⟩
      · rw [e]; exact total_invs hlt k
      · rw [e, total_snoc, total_invs hlt]
        have : took (σ.invs ++ [op]) k (σ.invs.length, .inc false) = 0 := by
          unfold took; rfl
        rw [this]; simp
    exact {
      keys := h.keys
      thr := by
        intro t'
        rcases hpc t' with e | ⟨_, _, e⟩
        · show TOk l _ (pc t')
          rw [e]
          exact (h.thr t').mono (Grow.refl _) hap hl
        · exact e
      asked := by
        intro x hx h0
        obtain ⟨id, d, e⟩ := h.asked x hx h0
        exact ⟨id, d, hap _ _ e⟩
      val := by
        intro x hx h0
        show σ.vals x = total (σ.invs ++ [op]) rets (σ.keys x)
        rw [htot]; exact h.val x hx h0
      zero := h.zero
      rok := by
        intro id r hr
        have old : (id, r) ∈ σ.rets → id < (σ.invs ++ [op]).length ∧
            (r = .inc true → ∃ (k d : U64), (σ.invs ++ [op])[id]? = some (.inc k d) ∧ k ≠ 0 ∧ ∃ x, x < l ∧ σ.keys x = k) ∧
            (r = .inc false → ∃ (k d : U64), (σ.invs ++ [op])[id]? = some (.inc k d) ∧ (k = 0 ∨ Passed l k σ.keys (maxReprobe + 1))) := by
          intro hr
          obtain ⟨h1, h2, h3⟩ := h.rok id r hr
          refine ⟨by simp; omega, ?_, ?_⟩
          · intro e; obtain ⟨k, d, e1, e2⟩ := h2 e; exact ⟨k, d, hap _ _ e1, e2⟩
          · intro e; obtain ⟨k, d, e1, e2⟩ := h3 e; exact ⟨k, d, hap _ _ e1, e2⟩
        rcases hrets with e | ⟨e, _, d, he⟩
        · exact old (by rw [← e]; exact hr)
        · rw [e] at hr
          rcases List.mem_append.mp hr with hr | hr
          · exact old hr
          · have hr := List.mem_singleton.mp hr
            have e1 : id = σ.invs.length := congrArg Prod.fst hr
            have e2 : r = .inc false := congrArg Prod.snd hr
            subst e1; subst e2
            refine ⟨by simp, by intro e; simp at e, ?_⟩
            intro _
            exact ⟨0, d, by rw [hnew, he], Or.inl rfl⟩
      rnodup := by
        show (rets.map (·.1)).Nodup
        rcases hrets with e | ⟨e, _, _⟩
        · rw [e]; exact h.rnodup
        · rw [e, List.map_append, List.nodup_append]
          refine ⟨h.rnodup, by simp, ?_⟩
          intro a ha b hb hab
          obtain ⟨r, hr, rfl⟩ := List.mem_map.mp ha
          have := (h.rok r.1 r.2 hr).1
          simp at hb
          omega
      fresh := by
        intro t' id hid
        show id ∉ rets.map (·.1)
        have hbase : id ∉ σ.rets.map (·.1) := by
          rcases hpc t' with e | ⟨_, e, _⟩
          · have hid : (pc t').id = some id := hid
            rw [e] at hid
            exact h.fresh t' id hid
          · intro hm
            have hid : (pc t').id = some id := hid
            rw [e] at hid
            have := Option.some.inj hid
            obtain ⟨r, hr, he⟩ := List.mem_map.mp hm
            have := (h.rok r.1 r.2 hr).1
            omega
        rcases hrets with e | ⟨e, epc, _⟩
        · rw [e]; exact hbase
        · rw [e, List.map_append]
          intro hm
          rcases List.mem_append.mp hm with hm | hm
          · exact hbase hm
          · simp at hm
            have hid : (pc t').id = some id := hid
            rw [epc] at hid
            have := (h.thr t').id_lt hid
            omega
      uniq := by
        intro t1 t2 id h1 h2
        have h1 : (pc t1).id = some id := h1
        have h2 : (pc t2).id = some id := h2
        rcases hpc t1 with e1 | ⟨e1, f1, _⟩ <;> rcases hpc t2 with e2 | ⟨e2, f2, _⟩
        · rw [e1] at h1; rw [e2] at h2; exact h.uniq t1 t2 id h1 h2
        · rw [e1] at h1; rw [f2] at h2
          have := (h.thr t1).id_lt h1
          have := Option.some.inj h2; omega
        · rw [e2] at h2; rw [f1] at h1
          have := (h.thr t2).id_lt h2
          have := Option.some.inj h1; omega
        · rw [e1, e2] }
  cases op with
  | get k =>
    apply base
    · intro t'
      by_cases he : t' = t
      · subst he
        right
        rw [upd_same]
        exact ⟨rfl, rfl, hnew, by simp [maxReprobe]⟩
      · left; rw [upd_other _ _ he]
    · left; rfl
  | inc k d =>
    unfold call
    simp only
    by_cases hk : k = 0
    · rw [if_pos hk]
      subst hk
      apply base
      · intro t'; left; rfl
      · right; exact ⟨rfl, rfl, d, rfl⟩
    · rw [if_neg hk]
      apply base
      · intro t'
        by_cases he : t' = t
        · subst he
          right
          rw [upd_same]
          exact ⟨rfl, rfl, hnew, hk, by simp [maxReprobe], fun j hj => by omega⟩
        · left; rw [upd_other _ _ he]
      · left; rfl

/-- a step of a goroutine that returns nothing and may store its key -/
theorem inv_quiet {l : Nat} (hl : 0 < l) {σ : State} (h : Inv l σ) (t : Nat) (keys : Nat → U64) (p : PC) (id : Nat)
    (hid : (σ.pc t).id = some id) (hid' : p.id = some id)
    (hkeys : KeyInv l keys) (hgrow : Grow σ.keys keys)
    (hnew : ∀ x, keys x = σ.keys x ∨ (σ.keys x = 0 ∧ ∃ d, σ.invs[id]? = some (.inc (keys x) d) ∧
      (∀ y, y < l → σ.keys y ≠ keys x)))
    (hp : TOk l { σ with keys := keys } p) :
    Inv l { σ with keys := keys, pc := upd σ.pc t p } where
  keys := hkeys
  thr := by
    intro t'
    show TOk l _ (upd σ.pc t p t')
    by_cases he : t' = t
    · subst he; rw [upd_same]; cases p <;> exact hp
    · rw [upd_other _ _ he]
      exact (h.thr t').mono hgrow (fun _ _ e => e) hl
  asked := by
    intro x hx h0
    show ∃ (id : Nat) (d : U64), σ.invs[id]? = some (Op.inc (keys x) d)
    rcases hnew x with e | ⟨_, d, e, _⟩
    · rw [e]; exact h.asked x hx (by rw [← e]; exact h0)
    · exact ⟨id, d, e⟩
  val := by
    intro x hx h0
    show σ.vals x = total σ.invs σ.rets (keys x)
    rcases hnew x with e | ⟨ez, d, e, habs⟩
    · rw [e]; exact h.val x hx (by rw [← e]; exact h0)
    · rw [h.zero x hx ez, total_zero]
      intro r hr
      unfold took
      split
      · rename_i hr2 hinv
        rename_i k' d'
        by_cases hkk : k' = keys x
        · obtain ⟨k2, d2, e1, _, y, hy, e2⟩ := (h.rok r.1 r.2 hr).2.1 hr2
          rw [hinv] at e1
          have e1 := Option.some.inj e1
          have : k' = k2 := by injection e1
          rw [← this, hkk] at e2
          exact absurd e2 (habs y hy)
        · rw [if_neg hkk]
      · rfl
  zero := by
    intro x hx h0
    show σ.vals x = 0
    have h0 : keys x = 0 := h0
    by_cases hz : σ.keys x = 0
    · exact h.zero x hx hz
    · rw [hgrow x hz] at h0; exact absurd h0 hz
  rok := by
    intro i r hr
    obtain ⟨h1, h2, h3⟩ := h.rok i r hr
    refine ⟨h1, ?_, ?_⟩
    · intro e
      obtain ⟨k, d, e1, e2, x, hx, e3⟩ := h2 e
      exact ⟨k, d, e1, e2, x, hx, by show keys x = k; rw [hgrow x (by rw [e3]; exact e2)]; exact e3⟩
    · intro e
      obtain ⟨k, d, e1, e2⟩ := h3 e
      exact ⟨k, d, e1, e2.imp_right fun hp => hp.mono hgrow⟩
  rnodup := h.rnodup
  fresh := by
    intro t' i hi
    have hi : (upd σ.pc t p t').id = some i := hi
    by_cases he : t' = t
    · subst he; rw [upd_same, hid'] at hi
      exact h.fresh t' i (hid.trans hi)
    · rw [upd_other _ _ he] at hi; exact h.fresh t' i hi
  uniq := by
    intro t1 t2 i h1 h2
    have h1 : (upd σ.pc t p t1).id = some i := h1
    have h2 : (upd σ.pc t p t2).id = some i := h2
    have conv : ∀ t', (upd σ.pc t p t').id = (σ.pc t').id := by
      intro t'
      by_cases he : t' = t
      · subst he; rw [upd_same, hid', hid]
      · rw [upd_other _ _ he]
    rw [conv] at h1 h2
    exact h.uniq t1 t2 i h1 h2

/-- a step of a goroutine that returns -/
theorem inv_return {l : Nat} (hl : 0 < l) {σ : State} (h : Inv l σ) (t : Nat) (id : Nat) (r : Ret) (vals : Nat → U64)
    (hid : (σ.pc t).id = some id)
    (hval : ∀ x, x < l → σ.keys x ≠ 0 → vals x = total σ.invs (σ.rets ++ [(id, r)]) (σ.keys x))
    (hzero : ∀ x, x < l → σ.keys x = 0 → vals x = 0)
    (htrue : r = .inc true → ∃ (k d : U64), σ.invs[id]? = some (.inc k d) ∧ k ≠ 0 ∧ ∃ x, x < l ∧ σ.keys x = k)
    (hfalse : r = .inc false → ∃ (k d : U64), σ.invs[id]? = some (.inc k d) ∧ (k = 0 ∨ Passed l k σ.keys (maxReprobe + 1))) :
    Inv l { σ with vals := vals, pc := upd σ.pc t .idle, rets := σ.rets ++ [(id, r)] } where
  keys := h.keys
  thr := by
    intro t'
    show TOk l _ (upd σ.pc t .idle t')
    by_cases he : t' = t
    · subst he; rw [upd_same]; trivial
    · rw [upd_other _ _ he]
      exact (h.thr t').mono (Grow.refl _) (fun _ _ e => e) hl
  asked := h.asked
  val := hval
  zero := hzero
  rok := by
    intro i r' hr
    rcases List.mem_append.mp hr with hr | hr
    · exact h.rok i r' hr
    · have hr := List.mem_singleton.mp hr
      have e1 : i = id := congrArg Prod.fst hr
      have e2 : r' = r := congrArg Prod.snd hr
      subst e1; subst e2
      exact ⟨(h.thr t).id_lt hid, htrue, hfalse⟩
  rnodup := by
    show ((σ.rets ++ [(id, r)]).map (·.1)).Nodup
    rw [List.map_append, List.nodup_append]
    refine ⟨h.rnodup, by simp, ?_⟩
    intro a ha b hb hab
    have hb := List.mem_singleton.mp hb
    rw [hab, hb] at ha
    exact h.fresh t id hid ha
  fresh := by
    intro t' i hi
    have hi : (upd σ.pc t .idle t').id = some i := hi
    show i ∉ (σ.rets ++ [(id, r)]).map (·.1)
    by_cases he : t' = t
    · subst he; rw [upd_same] at hi; simp [PC.id] at hi
    · rw [upd_other _ _ he] at hi
      rw [List.map_append]
      intro hm
      rcases List.mem_append.mp hm with hm | hm
      · exact h.fresh t' i hi hm
      · have hm := List.mem_singleton.mp hm
        rw [hm] at hi
        exact he (h.uniq t' t id hi hid)
  uniq := by
    intro t1 t2 i h1 h2
    have h1 : (upd σ.pc t .idle t1).id = some i := h1
    have h2 : (upd σ.pc t .idle t2).id = some i := h2
    have conv : ∀ t', (upd σ.pc t .idle t').id = some i → (σ.pc t').id = some i := by
      intro t' h
      by_cases he : t' = t
      · subst he; rw [upd_same] at h; simp [PC.id] at h
      · rw [upd_other _ _ he] at h; exact h
    exact h.uniq t1 t2 i (conv _ h1) (conv _ h2)

theorem inv_step {l : Nat} (hl : 0 < l) {σ σ' : State} (h : Inv l σ) {t : Nat} (hs : step l σ t = some σ') :
    Inv l σ' := by
  have ht := h.thr t
  unfold step at hs
  cases hpc : σ.pc t with
  | idle => rw [hpc] at hs; simp at hs
  | probe id k d p =>
    rw [hpc] at hs ht
    simp only at hs
    have hid : (σ.pc t).id = some id := by rw [hpc]; rfl
    obtain ⟨hinv, hk, hp⟩ := ht
    obtain ⟨k1, k2, k3, k4⟩ := probeStep_ok hl hk h.keys false hp
    generalize hps : probeStep l k σ.keys false p = ps at *
    obtain ⟨keys, res⟩ := ps
    simp only at k1 k2 k3 k4
    cases res with
    | go p' i =>
      have hs := Option.some.inj hs
      subst hs
      refine inv_quiet hl h t keys _ id hid rfl k1 k2 ?_ ⟨hinv, hk, k4.2⟩
      intro x; left; rw [k4.1]
    | found x i =>
      have hs := Option.some.inj hs
      subst hs
      refine inv_quiet hl h t keys _ id hid rfl k1 k2 ?_ ⟨hinv, hk, k4.1, k4.2⟩
      intro y
      rcases k3 y with e | ⟨e1, hyl, e2⟩
      · left; exact e
      · right
        refine ⟨e1, d, by rw [e2]; exact hinv, ?_⟩
        intro z hz hzk
        -- the key is not present before: otherwise two slots would hold it afterwards
        have hzk : σ.keys z = k := hzk.trans e2
        have hz' : keys z = k := by rw [k2 z (by rw [hzk]; exact hk)]; exact hzk
        have := k1.unique hyl hz (by rw [e2]; exact hk) (e2.trans hz'.symm)
        subst this
        rw [e1] at hzk; exact hk hzk.symm
    | full =>
      have hs := Option.some.inj hs
      subst hs
      have hkk : keys = σ.keys := k4.1
      subst hkk
      refine inv_return hl h t id (.inc false) σ.vals hid ?_ h.zero (by intro e; simp at e) ?_
      · intro x hx h0
        rw [total_snoc, h.val x hx h0]
        have : took σ.invs (σ.keys x) (id, Ret.inc false) = 0 := by unfold took; rfl
        rw [this]; simp
      · intro _; exact ⟨k, d, hinv, Or.inr k4.2⟩
  | add id k d x =>
    rw [hpc] at hs ht
    simp only at hs
    have hid : (σ.pc t).id = some id := by rw [hpc]; rfl
    obtain ⟨hinv, hk, hx, hkx⟩ := ht
    have hs := Option.some.inj hs
    subst hs
    refine inv_return hl h t id (.inc true) _ hid ?_ ?_ ?_ (by intro e; simp at e)
    · intro y hy h0
      rw [total_snoc]
      have htk : took σ.invs (σ.keys y) (id, Ret.inc true) = if k = σ.keys y then d else 0 := by
        unfold took; simp only [hinv]
      rw [htk]
      by_cases he : y = x
      · subst he
        rw [upd_same, if_pos hkx.symm, h.val y hy h0]
      · rw [upd_other _ _ he, if_neg, h.val y hy h0]
        · simp
        · intro e
          exact he (h.keys.unique hy hx h0 (e.symm.trans hkx.symm))
    · intro y hy h0
      rw [upd_other, h.zero y hy h0]
      rintro rfl
      rw [hkx] at h0; exact hk h0
    · intro _; exact ⟨k, d, hinv, hk, x, hx, hkx⟩
  | look id k i =>
    rw [hpc] at hs ht
    simp only at hs
    have hid : (σ.pc t).id = some id := by rw [hpc]; rfl
    obtain ⟨hinv, hi⟩ := ht
    unfold lookStep at hs
    by_cases h1 : σ.keys (pos l k i) = k
    · rw [if_pos h1] at hs
      have hs := Option.some.inj hs
      subst hs
      exact inv_quiet hl h t σ.keys _ id hid rfl h.keys (Grow.refl _) (fun x => Or.inl rfl)
        ⟨hinv, pos_lt hl _ _, Or.inr h1⟩
    · rw [if_neg h1] at hs
      by_cases h2 : i + 1 > maxReprobe
      · rw [if_pos h2] at hs
        have hs := Option.some.inj hs
        subst hs
        refine inv_return hl h t id _ σ.vals hid ?_ h.zero (by intro e; simp at e) (by intro e; simp at e)
        intro x hx h0
        rw [total_snoc, h.val x hx h0]
        have : took σ.invs (σ.keys x) (id, Ret.get 0 false) = 0 := by unfold took; rfl
        rw [this]; simp
      · rw [if_neg h2] at hs
        have hs := Option.some.inj hs
        subst hs
        exact inv_quiet hl h t σ.keys _ id hid rfl h.keys (Grow.refl _) (fun x => Or.inl rfl) ⟨hinv, by omega⟩
  | load id k x =>
    rw [hpc] at hs ht
    simp only at hs
    have hid : (σ.pc t).id = some id := by rw [hpc]; rfl
    have hs := Option.some.inj hs
    subst hs
    refine inv_return hl h t id _ σ.vals hid ?_ h.zero (by intro e; simp at e) (by intro e; simp at e)
    intro y hy h0
    rw [total_snoc, h.val y hy h0]
    have : took σ.invs (σ.keys y) (id, Ret.get (σ.vals x) true) = 0 := by unfold took; rfl
    rw [this]; simp

theorem inv_one {l : Nat} (hl : 0 < l) {σ σ' : State} (h : Inv l σ) (hs : Step l σ σ') : Inv l σ' := by
  cases hs with
  | call t op ht => exact inv_call hl h ht op
  | step _ t hs => exact inv_step hl h hs

theorem inv_steps {l : Nat} (hl : 0 < l) {σ σ' : State} (h : Inv l σ) (hs : Steps l σ σ') : Inv l σ' := by
  induction hs with
  | refl => exact h
  | tail _ h1 ih => exact inv_one hl ih h1

theorem inv_reach {l : Nat} (hl : 0 < l) {σ : State} (hs : Steps l init σ) : Inv l σ := inv_steps hl (inv_init l) hs

end Starbow.IncmapConc
