import Verif.Proof.BufmapAlone
import Verif.Proof.BufmapInit
/-
The sequential and the concurrent model of bufmap agree on a goroutine that runs alone (C34, C35, C36), and who is told `init` in
concurrent executions (C31).
-/
namespace Starbow.Props
open Starbow Starbow.Probe Starbow.Cell Starbow.Spec Starbow.BufmapConc

/-- after a call with which the memory of slot `x` changes -/
theorem same_after {l s : Nat} {σ σ' : State} {m : Bufmap.Map} (h : Same l s σ m) {x : Nat} (hx : x < l) {sl : Bufmap.Slot} {v : Bytes}
    (hk : σ'.keys = upd σ.keys x sl.key) (hsq : σ'.cells.seq = upd σ.cells.seq x sl.seq)
    (hlk : ∀ y, y < l → (σ'.cells.lock y).isSome = if y = x then sl.locked else (σ.cells.lock y).isSome)
    (hvl : v.length = s) (hv : bytesOf s σ'.cells x = v) (ho : ∀ y, y ≠ x → bytesOf s σ'.cells y = bytesOf s σ.cells y) :
    Same l s σ' { m with keys := m.keys.set x sl, values := splice m.values (x * s) v } := by
  have hle : x * s + s ≤ l * s := Bufmap.mul_add_le hx
  have hlen : (splice m.values (x * s) v).length = l * s := by
    rw [splice_length _ _ _ (by rw [hvl, h.vlen]; exact hle), h.vlen]
  refine ⟨h.hl, h.hs, by simp [h.klen], hlen, ?_, ?_⟩
  · intro y hy
    simp only
    rw [List.getD_eq_getElem?_getD, List.getElem?_set]
    by_cases e : x = y
    · subst e
      rw [if_pos rfl, if_pos (by rw [h.klen]; exact hx), hk, hsq, upd_same, upd_same, hlk x hx, if_pos rfl]
      rfl
    · rw [if_neg e, ← List.getD_eq_getElem?_getD, h.slot y hy, hk, hsq, upd_other _ _ (Ne.symm e), upd_other _ _ (Ne.symm e), hlk y hy,
        if_neg (Ne.symm e)]
  · refine (same_bytes hlen).2 fun y hy => ?_
    have hold := (same_bytes h.vlen).1 h.vals
    by_cases e : y = x
    · subst e
      have := slice_splice_same m.values (y * s) v (by rw [hvl, h.vlen]; exact hle)
      rw [hvl] at this
      rw [hv, Nat.succ_mul]; exact this
    · rw [ho y e, ← hold y hy]
      refine slice_splice_disjoint _ _ _ _ _ (by rw [hvl, h.vlen]; exact hle) ?_
      rw [hvl]
      rcases Nat.lt_or_gt_of_ne e with e | e
      · left; exact Nat.mul_le_mul_right s e
      · right; rw [← Nat.succ_mul]; exact Nat.mul_le_mul_right s e

/-- after a call that only stores the key -/
theorem same_key {l s : Nat} {σ σ' : State} {m : Bufmap.Map} (h : Same l s σ m) {x : Nat} (hx : x < l) {k : U64}
    (hk : σ'.keys = upd σ.keys x k) (hc : σ'.cells = σ.cells) :
    Same l s σ' { m with keys := m.keys.set x { m.keys.getD x ⟨0, 0, false⟩ with key := k } } := by
  refine ⟨h.hl, h.hs, by simp [h.klen], h.vlen, ?_, fun j hj => by rw [hc]; exact h.vals j hj⟩
  intro y hy
  simp only
  rw [List.getD_eq_getElem?_getD, List.getElem?_set, hc]
  by_cases e : x = y
  · subst e
    rw [if_pos rfl, if_pos (by rw [h.klen]; exact hx), hk, upd_same, h.slot x hx]
    rfl
  · rw [if_neg e, ← List.getD_eq_getElem?_getD, h.slot y hy, hk, upd_other _ _ (Ne.symm e)]

theorem call_upd {σ : State} {k : U64} (hk : k ≠ 0) (t : Nat) (fn : CFn) : call σ t (.upd k fn) =
    { σ with invs := σ.invs ++ [.upd k fn], pc := upd σ.pc t (.uProbe σ.invs.length k fn false (.load 0)) } := by
  simp only [call, if_neg hk]

/-- where Update gets to by itself: the critical section of the slot that the sequential model says, or `ErrOutOfSlots` -/
theorem update_probe {l s t : Nat} (hl : 0 < l) {σ : State} {m : Bufmap.Map} (hs : Same l s σ m) {k : U64} (hk : k ≠ 0) (fn : CFn) :
    match claim m.keyAt l k (maxReprobe + 1) 0 false with
    | .full => Alone l s t (call σ t (.upd k fn))
        { σ with invs := σ.invs ++ [.upd k fn], pc := upd σ.pc t .idle, rets := σ.rets ++ [(σ.invs.length, .outOfSlots)] }
    | .at x ini => Alone l s t (call σ t (.upd k fn))
        { σ with invs := σ.invs ++ [.upd k fn], keys := upd σ.keys x k, pc := upd σ.pc t (.w k x ⟨σ.invs.length, fn, ini⟩ .lock) } := by
  have hp := probe_alone (t := t) (s := s) hl (key := m.keyAt) (id := σ.invs.length) (k := k) (fn := fn) maxReprobe 0 false
    (call σ t (.upd k fn)) (fun x hx => by rw [call_upd hk]; exact hs.keyAt hx) (by omega) (by rw [call_upd hk]; exact upd_same _ _ _)
  cases hc : claim m.keyAt l k (maxReprobe + 1) 0 false with
  | full => rw [hc] at hp; simp only at hp ⊢; rw [call_upd hk] at hp ⊢; simp only [upd_upd] at hp; exact hp
  | «at» x ini => rw [hc] at hp; simp only at hp ⊢; rw [call_upd hk] at hp ⊢; simp only [upd_upd] at hp; exact hp

/-- **C34**, the two models agree on Update: if the shared memory is that of the sequential map `m` and goroutine `t` calls Update and is
the only one to move, then it returns what the sequential `update` returns and leaves the memory of the sequential result. -/
theorem C34_update_alone (l s t : Nat) (hl : 0 < l) (σ : State) (m m' : Bufmap.Map) (hs : Same l s σ m) (hpc : σ.pc t = .idle) (k : U64)
    (cfn : CFn) (fn : Bufmap.Fn) (hf : FnOf s cfn fn) (err : Option Err) (h : Bufmap.update m k fn = (m', .ret err)) :
    ∃ σ' r, Alone l s t (call σ t (.upd k cfn)) σ' ∧ σ'.pc = σ.pc ∧ σ'.rets = σ.rets ++ [(σ.invs.length, r)] ∧ r.err = some err ∧
      Same l s σ' m' := by
  unfold Bufmap.update at h
  by_cases hk : k = 0
  · rw [if_pos hk] at h
    obtain ⟨rfl, h2⟩ := Prod.mk.inj h
    injection h2 with h2
    subst h2
    refine ⟨_, .invalidKey, .refl _, ?_, ?_, rfl, ?_⟩
    · simp only [call, if_pos hk]
    · simp only [call, if_pos hk]
    · simp only [call, if_pos hk]; exact ⟨hs.hl, hs.hs, hs.klen, hs.vlen, hs.slot, hs.vals⟩
  · rw [if_neg hk, if_neg (by rw [hs.hl]; omega), hs.hl] at h
    have hp := update_probe (t := t) hl hs hk cfn
    cases hc : claim m.keyAt l k (maxReprobe + 1) 0 false with
    | full =>
      rw [hc] at h hp
      obtain ⟨rfl, h2⟩ := Prod.mk.inj h
      injection h2 with h2
      subst h2
      exact ⟨_, _, hp, upd_id _ _ _ hpc, rfl, rfl, ⟨hs.hl, hs.hs, hs.klen, hs.vlen, hs.slot, hs.vals⟩⟩
    | «at» x ini =>
      rw [hc] at h hp
      simp only at h hp
      obtain ⟨j, _, _, hpx, _⟩ := claim_at hc
      have hx : x < l := by rw [← hpx]; exact pos_lt hl _ _
      have hsl := hs.slot x hx
      rw [hs.hs, (same_bytes hs.vlen).1 hs.vals x hx, hsl] at h
      split at h
      · simp at h
      · next hlk =>
        have hlk : σ.cells.lock x = none := by simpa using hlk
        obtain ⟨f1, f2, f3⟩ := hf (bytesOf s σ.cells x) ini (bytesOf_length _ _ _)
        split at h
        · simp at h
        · next e he =>
          rw [he] at f3
          obtain ⟨h1, h2⟩ := Prod.mk.inj h
          injection h2 with h2
          subst h2
          obtain ⟨c, w1, w2, w3, w4, w5, w6⟩ := write_alone (l := l) (s := s) (t := t) (k := k) (x := x) (e := ⟨σ.invs.length, cfn, ini⟩)
            (σ := { σ with invs := σ.invs ++ [.upd k cfn], keys := upd σ.keys x k, pc := upd σ.pc t (.w k x ⟨σ.invs.length, cfn, ini⟩ .lock) })
            (upd_same _ _ _) hlk f1 f3
          refine ⟨_, .ran e, hp.trans w1, ?_, rfl, rfl, ?_⟩
          · simp only [upd_upd]; exact upd_id _ _ _ hpc
          · rw [← h1]
            have := same_after (σ' := { σ with invs := σ.invs ++ [.upd k cfn], keys := upd σ.keys x k, cells := c,
                                               pc := upd (upd σ.pc t (.w k x ⟨σ.invs.length, cfn, ini⟩ .lock)) t .idle,
                                               rets := σ.rets ++ [(σ.invs.length, .ran e)] })
              hs hx (sl := ⟨k, σ.cells.seq x + 2, false⟩) (v := Bufmap.overwrite (bytesOf s σ.cells x) (fn (bytesOf s σ.cells x) ini).1)
              rfl w2 ?_ (by rw [Bufmap.overwrite_length, bytesOf_length]) (by rw [← f2]; exact w5) w6
            · rw [hs.hs, hs.hl] at this
              simp only [List.set_set] at this ⊢
              exact this
            · intro y hy
              simp only [w3]
              split
              · next e => rw [e, hlk]; rfl
              · rfl

/-- **C36**, the two models agree on a function that panics: the goroutine is gone inside the critical section, no call returns, and the
memory (the mutex stays locked and the sequence number odd) is that of the sequential result. -/
theorem C36_panic_alone (l s t : Nat) (hl : 0 < l) (σ : State) (m m' : Bufmap.Map) (hs : Same l s σ m) (k : U64)
    (cfn : CFn) (fn : Bufmap.Fn) (hf : FnOf s cfn fn) (h : Bufmap.update m k fn = (m', .panic)) :
    ∃ σ' x e, Alone l s t (call σ t (.upd k cfn)) σ' ∧ σ'.pc = upd σ.pc t (.w k x e .dead) ∧ σ'.rets = σ.rets ∧ Same l s σ' m' := by
  unfold Bufmap.update at h
  by_cases hk : k = 0
  · rw [if_pos hk] at h
    simp at h
  · rw [if_neg hk, if_neg (by rw [hs.hl]; omega), hs.hl] at h
    have hp := update_probe (t := t) hl hs hk cfn
    cases hc : claim m.keyAt l k (maxReprobe + 1) 0 false with
    | full =>
      rw [hc] at h
      simp at h
    | «at» x ini =>
      rw [hc] at h hp
      simp only at h hp
      obtain ⟨j, _, _, hpx, _⟩ := claim_at hc
      have hx : x < l := by rw [← hpx]; exact pos_lt hl _ _
      have hsl := hs.slot x hx
      rw [hs.hs, (same_bytes hs.vlen).1 hs.vals x hx, hsl] at h
      split at h
      · simp at h
      · next hlk =>
        have hlk : σ.cells.lock x = none := by simpa using hlk
        obtain ⟨f1, f2, f3⟩ := hf (bytesOf s σ.cells x) ini (bytesOf_length _ _ _)
        split at h
        · next he =>
          rw [he] at f3
          have h1 := (Prod.mk.inj h).1
          obtain ⟨c, w1, w2, w3, w4, w5, w6⟩ := enter_alone (l := l) (s := s) (t := t) (k := k) (x := x) (e := ⟨σ.invs.length, cfn, ini⟩)
            (σ := { σ with invs := σ.invs ++ [.upd k cfn], keys := upd σ.keys x k, pc := upd σ.pc t (.w k x ⟨σ.invs.length, cfn, ini⟩ .lock) })
            (upd_same _ _ _) hlk f1
          refine ⟨{ σ with invs := σ.invs ++ [.upd k cfn], keys := upd σ.keys x k, cells := c,
                           pc := upd σ.pc t (.w k x ⟨σ.invs.length, cfn, ini⟩ .dead) }, x, ⟨σ.invs.length, cfn, ini⟩,
            hp.trans (w1.trans (.head ?_ (.refl _))), rfl, rfl, ?_⟩
          · simp only [step, upd_same, f3, wstep, upd_upd]
          · rw [← h1]
            have := same_after (σ' := { σ with invs := σ.invs ++ [.upd k cfn], keys := upd σ.keys x k, cells := c,
                                               pc := upd σ.pc t (.w k x ⟨σ.invs.length, cfn, ini⟩ .dead) })
              hs hx (sl := ⟨k, σ.cells.seq x + 1, true⟩) (v := Bufmap.overwrite (bytesOf s σ.cells x) (fn (bytesOf s σ.cells x) ini).1)
              rfl w2 ?_ (by rw [Bufmap.overwrite_length, bytesOf_length]) (by rw [← f2]; exact w5) w6
            · rw [hs.hs, hs.hl] at this
              simp only [List.set_set] at this ⊢
              exact this
            · intro y hy
              simp only [w3]
              split
              · next e => rw [e, upd_same]; rfl
              · next e => rw [upd_other _ _ e]
        · simp at h

/-- **C36**, the two models agree on an Update that hangs: it waits for a mutex that no goroutine at large will release and cannot move. -/
theorem C36_hang_alone (l s t : Nat) (hl : 0 < l) (σ : State) (m m' : Bufmap.Map) (hs : Same l s σ m) (k : U64)
    (cfn : CFn) (fn : Bufmap.Fn) (h : Bufmap.update m k fn = (m', .hang)) :
    ∃ σ' x e, Alone l s t (call σ t (.upd k cfn)) σ' ∧ σ'.pc = upd σ.pc t (.w k x e .lock) ∧ σ'.rets = σ.rets ∧ step l s σ' t = none ∧
      Same l s σ' m' := by
  unfold Bufmap.update at h
  by_cases hk : k = 0
  · rw [if_pos hk] at h
    simp at h
  · rw [if_neg hk, if_neg (by rw [hs.hl]; omega), hs.hl] at h
    have hp := update_probe (t := t) hl hs hk cfn
    cases hc : claim m.keyAt l k (maxReprobe + 1) 0 false with
    | full =>
      rw [hc] at h
      simp at h
    | «at» x ini =>
      rw [hc] at h hp
      simp only at h hp
      obtain ⟨j, _, _, hpx, _⟩ := claim_at hc
      have hx : x < l := by rw [← hpx]; exact pos_lt hl _ _
      have hsl := hs.slot x hx
      split at h
      · next hlk =>
        rw [hsl] at hlk
        have h1 := (Prod.mk.inj h).1
        refine ⟨_, x, ⟨σ.invs.length, cfn, ini⟩, hp, rfl, rfl, ?_, ?_⟩
        · simp only at hlk
          have : ¬ σ.cells.lock x = none := by intro e; rw [e] at hlk; simp at hlk
          simp only [step, upd_same, wstep, if_neg this]
        · rw [← h1]
          have := same_key (σ' := { σ with invs := σ.invs ++ [.upd k cfn], keys := upd σ.keys x k,
                                           pc := upd σ.pc t (.w k x ⟨σ.invs.length, cfn, ini⟩ .lock) }) hs hx (k := k) rfl rfl
          rw [hs.hl] at this
          exact this
      · split at h <;> simp at h

theorem call_get (σ : State) (k : U64) (t : Nat) (buf : Bytes) : call σ t (.get k buf) =
    { σ with invs := σ.invs ++ [.get k buf], pc := upd σ.pc t (.gProbe σ.invs.length k buf 0) } := rfl

theorem get_probe {l s t : Nat} (hl : 0 < l) {σ : State} {m : Bufmap.Map} (hs : Same l s σ m) (k : U64) (buf : Bytes) :
    match lookup m.keyAt l k (maxReprobe + 1) 0 with
    | none => Alone l s t (call σ t (.get k buf))
        { σ with invs := σ.invs ++ [.get k buf], pc := upd σ.pc t .idle, rets := σ.rets ++ [(σ.invs.length, .got false buf 0)] }
    | some x => Alone l s t (call σ t (.get k buf))
        { σ with invs := σ.invs ++ [.get k buf], pc := upd σ.pc t (.r σ.invs.length k buf x .load1) } := by
  have hp := look_alone (t := t) (s := s) hl (key := m.keyAt) (id := σ.invs.length) (k := k) (buf := buf) maxReprobe 0
    (call σ t (.get k buf)) (fun x hx => hs.keyAt hx) (by omega) (upd_same _ _ _)
  cases hc : lookup m.keyAt l k (maxReprobe + 1) 0 with
  | none => rw [hc] at hp; simp only at hp ⊢; rw [call_get] at hp ⊢; simp only [upd_upd] at hp; exact hp
  | some x => rw [hc] at hp; simp only at hp ⊢; rw [call_get] at hp ⊢; simp only [upd_upd] at hp; exact hp

/-- **C35**, the two models agree on Get: a goroutine that calls Get and is the only one to move returns what the sequential `get` returns
and changes nothing. -/
theorem C35_get_alone (l s t : Nat) (hl : 0 < l) (σ : State) (m : Bufmap.Map) (hs : Same l s σ m) (hpc : σ.pc t = .idle) (k : U64)
    (buf out : Bytes) (found : Bool) (h : Bufmap.get m k buf = .ret (found, out)) :
    ∃ σ', Alone l s t (call σ t (.get k buf)) σ' ∧ σ'.pc = σ.pc ∧ σ'.rets = σ.rets ++ [(σ.invs.length, .got found out 0)] ∧
      σ'.keys = σ.keys ∧ σ'.cells = σ.cells := by
  unfold Bufmap.get at h
  rw [if_neg (by rw [hs.hl]; omega), hs.hl] at h
  have hp := get_probe (t := t) hl hs k buf
  cases hc : lookup m.keyAt l k (maxReprobe + 1) 0 with
  | none =>
    rw [hc] at h hp
    simp only at h hp
    injection h with h
    obtain ⟨rfl, rfl⟩ := Prod.mk.inj h
    exact ⟨_, hp, upd_id _ _ _ hpc, rfl, rfl, rfl⟩
  | some x =>
    rw [hc] at h hp
    simp only at h hp
    obtain ⟨j, _, _, hpx, _⟩ := lookup_some hc
    have hx : x < l := by rw [← hpx]; exact pos_lt hl _ _
    rw [hs.slot x hx, hs.hs, hs.vlen] at h
    simp only at h
    split at h
    · simp at h
    · next hev =>
      split at h
      · simp at h
      · next hle =>
        injection h with h
        obtain ⟨rfl, rfl⟩ := Prod.mk.inj h
        have hsrc : ∀ n, n ≤ x → (slice m.values (x * s) (x * (s + 1))).take n = (List.range n).map fun j => σ.cells.vals (x * s + j) := by
          intro n hn
          apply List.ext_getElem?
          intro i
          rw [List.getElem?_take, slice_getElem?, List.getElem?_map]
          have e1 : x * (s + 1) = x * s + x := Nat.mul_succ x s
          by_cases hi : i < n
          · rw [if_pos hi, if_pos (by omega), hs.vals _ (by omega), List.getElem?_range hi]; rfl
          · rw [if_neg hi, List.getElem?_eq_none (by simp; omega)]; rfl
        have hslen : (slice m.values (x * s) (x * (s + 1))).length = x := by
          have e1 : x * (s + 1) = x * s + x := Nat.mul_succ x s
          rw [slice_length _ _ _ (by rw [hs.vlen]; omega)]; omega
        have hc1 := copy_alone (l := l) (s := s) (t := t) (id := σ.invs.length) (k := k) (buf := buf) (x := x) (sq := σ.cells.seq x)
          (ct := σ.cells.cnt x) (min buf.length x) []
          { σ with invs := σ.invs ++ [.get k buf], pc := upd σ.pc t (.r σ.invs.length k buf x (.copy (σ.cells.seq x) (σ.cells.cnt x) [])) }
          (by simp) (upd_same _ _ _)
        simp only [upd_upd, List.nil_append, List.length_nil, Nat.zero_add] at hc1
        refine ⟨{ σ with invs := σ.invs ++ [.get k buf], pc := upd σ.pc t .idle, rets := σ.rets ++ [(σ.invs.length, .got true
            (((slice m.values (x * s) (x * (s + 1))).take buf.length) ++ buf.drop (slice m.values (x * s) (x * (s + 1))).length) 0)] },
          hp.trans (.head ?_ (hc1.trans (.head ?_ (.refl _)))), upd_id _ _ _ hpc, rfl, rfl, rfl⟩
        · have h1 : ¬ (True ∧ (σ.cells.seq x).toNat % 2 = 0 ∧ l * s < x * (s + 1)) := by
            rintro ⟨_, _, h⟩; omega
          simp only [step, upd_same]
          rw [if_neg h1]
          simp only [rstep, if_neg hev, upd_upd]
        · have h1 : ∀ a b c, ¬ (RPC.copy a b c = RPC.load1 ∧ (σ.cells.seq x).toNat % 2 = 0 ∧ l * s < x * (s + 1)) := by simp
          simp only [step, upd_same, if_neg (h1 _ _ _), rstep, upd_upd, List.length_map, List.length_range, Nat.lt_irrefl, if_false, if_true,
            Nat.sub_self]
          have e2 : (slice m.values (x * s) (x * (s + 1))).take buf.length =
              (List.range (min buf.length x)).map fun j => σ.cells.vals (x * s + j) := by
            rw [← hsrc _ (Nat.min_le_right _ _)]
            conv => lhs; rw [← List.take_of_length_le (l := slice m.values (x * s) (x * (s + 1))) (Nat.le_of_eq hslen), List.take_take]
          have e3 : buf.drop (min buf.length x) = buf.drop (slice m.values (x * s) (x * (s + 1))).length := by
            rw [hslen]
            rcases Nat.le_total buf.length x with hb | hb
            · rw [Nat.min_eq_left hb, List.drop_of_length_le (Nat.le_refl _), List.drop_of_length_le hb]
            · rw [Nat.min_eq_right hb]
          rw [e2, e3]

/-- **C30**, the two models agree on a Get that panics. -/
theorem C30_panic_alone (l s t : Nat) (hl : 0 < l) (σ : State) (m : Bufmap.Map) (hs : Same l s σ m) (k : U64)
    (buf : Bytes) (h : Bufmap.get m k buf = .panic) :
    ∃ σ', Alone l s t (call σ t (.get k buf)) σ' ∧ σ'.pc = upd σ.pc t .gone ∧ σ'.rets = σ.rets ∧
      σ'.keys = σ.keys ∧ σ'.cells = σ.cells := by
  unfold Bufmap.get at h
  rw [if_neg (by rw [hs.hl]; omega), hs.hl] at h
  have hp := get_probe (t := t) hl hs k buf
  cases hc : lookup m.keyAt l k (maxReprobe + 1) 0 with
  | none =>
    rw [hc] at h
    simp at h
  | some x =>
    rw [hc] at h hp
    simp only at h hp
    obtain ⟨j, _, _, hpx, _⟩ := lookup_some hc
    have hx : x < l := by rw [← hpx]; exact pos_lt hl _ _
    rw [hs.slot x hx, hs.hs, hs.vlen] at h
    simp only at h
    split at h
    · simp at h
    · next hev =>
      split at h
      · next hgt =>
        refine ⟨{ σ with invs := σ.invs ++ [.get k buf], pc := upd σ.pc t .gone }, hp.trans (.head ?_ (.refl _)), rfl, rfl, rfl, rfl⟩
        simp only [step, upd_same, upd_upd]
        rw [if_pos ⟨trivial, Classical.byContradiction hev, hgt⟩]
      · simp at h

/-- **C36**, the two models agree on a Get that hangs: it keeps loading the sequence number, which stays odd. -/
theorem C36_get_hang_alone (l s t : Nat) (hl : 0 < l) (σ : State) (m : Bufmap.Map) (hs : Same l s σ m) (k : U64)
    (buf : Bytes) (h : Bufmap.get m k buf = .hang) :
    ∃ σ', Alone l s t (call σ t (.get k buf)) σ' ∧ (∀ n, n ≠ t → σ'.pc n = σ.pc n) ∧ σ'.rets = σ.rets ∧
      σ'.keys = σ.keys ∧ σ'.cells = σ.cells ∧ ∀ σ'', Alone l s t σ' σ'' → σ'' = σ' := by
  unfold Bufmap.get at h
  rw [if_neg (by rw [hs.hl]; omega), hs.hl] at h
  have hp := get_probe (t := t) hl hs k buf
  cases hc : lookup m.keyAt l k (maxReprobe + 1) 0 with
  | none =>
    rw [hc] at h
    simp at h
  | some x =>
    rw [hc] at h hp
    simp only at h hp
    obtain ⟨j, _, _, hpx, _⟩ := lookup_some hc
    have hx : x < l := by rw [← hpx]; exact pos_lt hl _ _
    rw [hs.slot x hx, hs.hs, hs.vlen] at h
    simp only at h
    split at h
    · next hodd =>
      refine ⟨_, hp, fun n hn => upd_other _ _ hn, rfl, rfl, rfl, ?_⟩
      have hst : ∀ τ : State, τ.pc t = .r σ.invs.length k buf x .load1 → τ.cells = σ.cells → step l s τ t = some τ := by
        intro τ hτ hcl
        have h1 : ¬ (True ∧ (τ.cells.seq x).toNat % 2 = 0 ∧ l * s < x * (s + 1)) := by
          rw [hcl]; rintro ⟨_, h, _⟩; exact hodd h
        simp only [step, hτ]
        rw [if_neg h1]
        have h2 : rstep s x (min buf.length x) τ.cells .load1 = .go .load1 := by
          unfold rstep; rw [if_pos (by rw [hcl]; exact hodd)]
        rw [h2]
        simp only
        rw [upd_id _ _ _ hτ]
      have : ∀ {a b : State}, Alone l s t a b → a.pc t = .r σ.invs.length k buf x .load1 → a.cells = σ.cells → b = a := by
        intro a b hab
        induction hab with
        | refl => intros; rfl
        | head h1 _ ih =>
          intro ha hcl
          rw [hst _ ha hcl] at h1
          have h1 := Option.some.inj h1
          subst h1
          exact ih ha hcl
      intro σ'' ha
      exact this ha (upd_same _ _ _) rfl
    · split at h <;> simp at h

/-- the fresh maps correspond -/
theorem same_init (l s : Nat) : Same l s BufmapConc.init (Bufmap.new l s) := by
  refine ⟨rfl, rfl, by simp [Bufmap.new], by simp [Bufmap.new], ?_, ?_⟩
  · intro x hx
    unfold Bufmap.new
    rw [List.getD_eq_getElem?_getD, List.getElem?_replicate, if_pos hx]; rfl
  · intro j hj
    unfold Bufmap.new
    rw [List.getElem?_replicate, if_pos hj]; rfl

/-- a function of the two models: set the first byte and return -/
example (s : Nat) (hs : 0 < s) : FnOf s (fun _ _ => ([(0, 7)], .ret none)) (fun _ _ => ([7], .val none)) := by
  intro d ini hd
  refine ⟨by simp [hs], ?_, rfl⟩
  cases d with
  | nil => simp at hd; omega
  | cons a d => simp [Bufmap.overwrite]

/-! ### Who is told `init` -/

/-- **C31**, concurrent (1): when every Update of a key has returned and one of them ran its function, then in some write of that key
the function was told `init = true`: whatever the interleaving, a new record is initialised at least once. -/
theorem C31_told_partial (l s : Nat) (hl : 0 < l) (σ : State) (hr : Steps l s init σ) (k : U64) (hall : AllReturned σ k)
    (i : Nat) (fn : CFn) (err : Option Err) (hi : σ.invs[i]? = some (.upd k fn)) (hret : (i, .ran err) ∈ σ.rets) :
    ∃ x e, σ.keys x = k ∧ e ∈ writesOf σ.cells.log x ∧ e.init = true := by
  have h := inv_reach hl hr
  obtain ⟨x, e, es, rest, he, hx, hes, _⟩ := h.rok i _ hret
  have hmem : (x, e) ∈ σ.cells.log := BufmapConc.mem_writesOf.mp (by rw [hes]; simp)
  obtain ⟨_, hne, hinv⟩ := h.logok x e hmem
  rw [he, hi] at hinv
  have hk : k = σ.keys x := by
    injection hinv with hinv
    injection hinv
  rcases (told_reach hl hr).told x hne with ⟨e', h1, h2⟩ | ⟨t, e', p, h1, h2⟩
  · exact ⟨x, e', hk.symm, BufmapConc.mem_writesOf.mpr h1, h2⟩
  · exfalso
    have ht := h.thr t
    rw [h1] at ht
    obtain ⟨r, hr'⟩ := hall e'.id e'.fn (by rw [hk]; exact ht.1)
    exact h.ids.fresh t e'.id (by unfold curOf; rw [h1]; rfl) (List.mem_map.mpr ⟨_, hr', rfl⟩)

/-- **C31**, concurrent (2): once a key is stored in its home slot `k mod l`, no Update of it that starts later is told `init = true`,
whatever the interleaving. -/
theorem C31_home_partial (l s : Nat) (hl : 0 < l) (σ σ' : State) (hr : Steps l s init σ) (hr' : Steps l s σ σ') (k : U64) (h0 : k ≠ 0)
    (hk : σ.keys (k.toNat % l) = k) (x : Nat) (hx : σ'.keys x = k) (e : Entry) (he : e ∈ writesOf σ'.cells.log x)
    (hlate : σ.invs.length ≤ e.id) : e.init = false := by
  have hp : pos l k 0 = k.toNat % l := by unfold pos; rw [Nat.add_zero, Nat.mod_mod]
  have h := inv_reach hl hr
  exact (home_steps hl h0 h (home_start h (by rw [hp]; exact hk)) hr').log x e (BufmapConc.mem_writesOf.mp he) hx hlate

/-- **C31 fails**, concurrent (3): whatever the interleaving, every write of a key that is stored anywhere but in its home slot is told
`init = true`. -/
theorem C31_displaced_init (l s : Nat) (hl : 0 < l) (σ : State) (hr : Steps l s init σ) (k : U64) (x : Nat) (hx : σ.keys x = k)
    (hd : x ≠ k.toNat % l) (e : Entry) (he : e ∈ writesOf σ.cells.log x) : e.init = true := by
  have hp : pos l k 0 = k.toNat % l := by unfold pos; rw [Nat.add_zero, Nat.mod_mod]
  cases hi : e.init with
  | true => rfl
  | false =>
    have := (off_reach hl hr).log x e (BufmapConc.mem_writesOf.mp he) hi
    rw [hx, hp] at this
    exact absurd this hd

/-- the run `lateInit` meets the hypotheses of C31_told_partial: both Updates have returned -/
example : ∃ σ, Steps 4 2 init σ ∧ AllReturned σ 7 ∧ σ.invs[0]? = some (.upd 7 BufmapConc.bump) ∧ (0, .ran none) ∈ σ.rets := by
  have h : ∃ σ, BufmapConc.runSched 4 2 init BufmapConc.lateInit = some σ ∧ σ.rets = [(1, .ran none), (0, .ran none)] ∧
      σ.invs = [.upd 7 BufmapConc.bump, .upd 7 BufmapConc.bump] := ⟨_, rfl, by decide, rfl⟩
  obtain ⟨σ, h1, h2, h3⟩ := h
  refine ⟨σ, BufmapConc.runSched_steps _ h1, ?_, by rw [h3]; rfl, by rw [h2]; simp⟩
  intro id fn hf
  rw [h3] at hf
  rw [h2]
  match id, hf with
  | 0, _ => exact ⟨.ran none, by simp⟩
  | 1, _ => exact ⟨.ran none, by simp⟩

/-- two Updates one after the other meet the hypotheses of C31_home_partial (the second starts when the key is in its home slot) -/
example : ∃ σ σ', Steps 4 2 init σ ∧ Steps 4 2 σ σ' ∧ σ.keys ((2 : U64).toNat % 4) = 2 ∧
    (writesOf σ'.cells.log 2).map (fun e => (e.id, e.init)) = [(0, true), (1, false)] ∧ σ.invs.length = 1 := by
  have h : ∃ σ, BufmapConc.runSched 4 2 init ([(0, some (.upd 2 BufmapConc.bump))] ++ BufmapConc.steps 0 8) = some σ ∧
      ∃ σ', BufmapConc.runSched 4 2 σ ([(1, some (.upd 2 BufmapConc.bump))] ++ BufmapConc.steps 1 7) = some σ' ∧
      σ.keys ((2 : U64).toNat % 4) = 2 ∧
      (writesOf σ'.cells.log 2).map (fun e => (e.id, e.init)) = [(0, true), (1, false)] ∧ σ.invs.length = 1 :=
    ⟨_, rfl, _, rfl, by decide, by decide, rfl⟩
  obtain ⟨σ, h1, σ', h2, h3⟩ := h
  exact ⟨σ, σ', BufmapConc.runSched_steps _ h1, BufmapConc.runSched_steps _ h2, h3⟩

/-- keys 2 and 6 share the home slot 2 of 4; key 6, displaced to slot 3, is told `init` on both its updates -/
example : ∃ σ, Steps 4 2 init σ ∧ σ.keys 3 = 6 ∧
    (writesOf σ.cells.log 3).map (fun e => (e.id, e.init)) = [(1, true), (2, true)] := by
  have h : ∃ σ, BufmapConc.runSched 4 2 init ([(0, some (.upd 2 BufmapConc.bump))] ++ BufmapConc.steps 0 8 ++
        [(0, some (.upd 6 BufmapConc.bump))] ++ BufmapConc.steps 0 10 ++ [(0, some (.upd 6 BufmapConc.bump))] ++ BufmapConc.steps 0 9) = some σ ∧
      σ.keys 3 = 6 ∧ (writesOf σ.cells.log 3).map (fun e => (e.id, e.init)) = [(1, true), (2, true)] :=
    ⟨_, rfl, by decide, by decide⟩
  obtain ⟨σ, h1, h2⟩ := h
  exact ⟨σ, BufmapConc.runSched_steps _ h1, h2⟩

end Starbow.Props
