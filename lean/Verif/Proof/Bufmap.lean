import Verif.Spec.Bufmap
import Verif.Proof.Probe
import Verif.Proof.Basic
namespace Starbow.Bufmap
open Starbow.Probe Starbow.Spec

structure WF (l s : Nat) (m : Map) : Prop where
  pos : 0 < l
  hl : m.l = l
  hs : m.s = s
  klen : m.keys.length = l
  vlen : m.values.length = l * s
  clean : ∀ x, x < l → (m.keys.getD x ⟨0, 0, false⟩).locked = false ∧ (m.keys.getD x ⟨0, 0, false⟩).seq.toNat % 2 = 0
  inv : KeyInv l m.keyAt
  zero : ∀ x, x < l → m.keyAt x = 0 → slotBytes m x = List.replicate s 0

theorem overwrite_length (d o : Bytes) : (overwrite d o).length = d.length := by
  unfold overwrite; simp; omega

theorem overwrite_same (d o : Bytes) (h : o.length = d.length) : overwrite d o = o := by
  unfold overwrite; rw [List.drop_of_length_le (by omega), List.append_nil, List.take_of_length_le (by omega)]

theorem mul_add_le {x l s : Nat} (h : x < l) : x * s + s ≤ l * s := by
  have : (x + 1) * s ≤ l * s := Nat.mul_le_mul_right s h
  rw [Nat.succ_mul] at this; exact this

theorem slotBytes_length {l s : Nat} {m : Map} (h : WF l s m) {x : Nat} (hx : x < l) : (slotBytes m x).length = s := by
  unfold slotBytes
  rw [slice_length, h.hs, Nat.succ_mul]
  · omega
  · rw [h.vlen, h.hs, Nat.succ_mul]; exact mul_add_le hx

theorem wf_new {l : Nat} (s : Nat) (hl : 0 < l) : WF l s (new l s) where
  pos := hl
  hl := rfl
  hs := rfl
  klen := by simp [new]
  vlen := by simp [new]
  clean := by
    intro x hx
    rw [new, List.getD_eq_getElem?_getD, List.getElem?_replicate, if_pos hx]
    exact ⟨rfl, rfl⟩
  inv := by
    have : (new l s).keyAt = fun _ => 0 := by
      funext x
      unfold Map.keyAt new
      rw [List.getD_eq_getElem?_getD, List.getElem?_replicate]
      split <;> rfl
    rw [this]; exact KeyInv.empty l
  zero := by
    intro x hx _
    unfold slotBytes new slice
    simp only [List.drop_replicate, List.take_replicate]
    have := @mul_add_le x l s hx
    rw [Nat.succ_mul]
    congr 1
    omega

theorem keyAt_set (m : Map) (x : Nat) (sl : Slot) (hx : x < m.keys.length) (v : Bytes) :
    ({ m with keys := m.keys.set x sl, values := v } : Map).keyAt = fun y => if y = x then sl.key else m.keyAt y := by
  funext y
  unfold Map.keyAt
  simp only [List.getD_eq_getElem?_getD, List.getElem?_set]
  by_cases h : x = y
  · subst h; simp [hx]
  · rw [if_neg h, if_neg (fun e => h e.symm)]

/-- `slotOf` finds exactly the slot holding the key -/
theorem slotOf_eq {l s : Nat} {m : Map} (h : WF l s m) {k : U64} (hk : k ≠ 0) {x : Nat} :
    slotOf m k = some x ↔ x < l ∧ m.keyAt x = k := by
  unfold slotOf
  rw [h.hl]
  constructor
  · intro he
    have h1 := List.find?_some he
    have h2 := List.mem_of_find?_eq_some he
    exact ⟨by simpa using h2, by simpa using h1⟩
  · rintro ⟨hx, hkx⟩
    cases hf : (List.range l).find? fun x => m.keyAt x == k with
    | none =>
      have := List.find?_eq_none.mp hf x (by simpa using hx)
      simp [hkx] at this
    | some y =>
      have h1 : m.keyAt y = k := by simpa using List.find?_some hf
      have h2 : y < l := by simpa using List.mem_of_find?_eq_some hf
      rw [h.inv.unique hx h2 (hkx ▸ hk) (hkx.trans h1.symm)]

theorem slotOf_none {l s : Nat} {m : Map} (h : WF l s m) {k : U64} :
    slotOf m k = none ↔ ∀ x, x < l → m.keyAt x ≠ k := by
  unfold slotOf
  rw [h.hl, List.find?_eq_none]
  constructor
  · intro h1 x hx he
    have := h1 x (by simpa using hx)
    simp [he] at this
  · intro h1 x hx
    have := h1 x (by simpa using hx)
    simpa using this

/-- what a call that finds slot `x` does -/
def after (m : Map) (k : U64) (x : Nat) (out : Bytes) : Map :=
  { m with
    keys := m.keys.set x ⟨k, (m.keys.getD x ⟨0, 0, false⟩).seq + 2, false⟩
    values := splice m.values (x * m.s) (overwrite (slotBytes m x) out) }

theorem update_at {l s : Nat} {m : Map} (h : WF l s m) {k : U64} (hk : k ≠ 0) {x : Nat} {ini : Bool} (hx : x < l)
    (hc : claim m.keyAt m.l k (maxReprobe + 1) 0 false = .at x ini) (fn : Fn) (e : Option Err)
    (hfn : (fn (slotBytes m x) ini).2 = .val e) :
    update m k fn = (after m k x (fn (slotBytes m x) ini).1, .ret e) := by
  unfold update
  rw [if_neg hk, if_neg (by rw [h.hl]; have := h.pos; omega), hc]
  simp only
  rw [(h.clean x hx).1]
  unfold after
  unfold slotBytes at hfn ⊢
  simp only [hfn, List.set_set, Bool.false_eq_true, if_false]

theorem update_full {l s : Nat} {m : Map} (h : WF l s m) {k : U64} (hk : k ≠ 0)
    (hc : claim m.keyAt m.l k (maxReprobe + 1) 0 false = .full) (fn : Fn) :
    update m k fn = (m, .ret (some .outOfSlots)) := by
  unfold update
  rw [if_neg hk, if_neg (by rw [h.hl]; have := h.pos; omega), hc]

theorem keyAt_after {l s : Nat} {m : Map} (h : WF l s m) (k : U64) {x : Nat} (hx : x < l) (out : Bytes) :
    (after m k x out).keyAt = fun y => if y = x then k else m.keyAt y := by
  unfold after
  exact keyAt_set m x _ (by rw [h.klen]; exact hx) _

theorem slotBytes_after_same {l s : Nat} {m : Map} (h : WF l s m) (k : U64) {x : Nat} (hx : x < l) (out : Bytes) :
    slotBytes (after m k x out) x = overwrite (slotBytes m x) out := by
  have hlen : (overwrite (slotBytes m x) out).length = s := by rw [overwrite_length, slotBytes_length h hx]
  have := slice_splice_same m.values (x * m.s) (overwrite (slotBytes m x) out)
    (by rw [hlen, h.hs, h.vlen]; exact mul_add_le hx)
  rw [hlen] at this
  conv => lhs; unfold slotBytes after
  simp only
  rw [show (x + 1) * m.s = x * m.s + s by rw [h.hs, Nat.succ_mul]]
  exact this

theorem slotBytes_after_other {l s : Nat} {m : Map} (h : WF l s m) (k : U64) {x y : Nat} (hx : x < l) (hy : y ≠ x)
    (out : Bytes) : slotBytes (after m k x out) y = slotBytes m y := by
  have hlen : (overwrite (slotBytes m x) out).length = s := by rw [overwrite_length, slotBytes_length h hx]
  unfold slotBytes after
  simp only
  apply slice_splice_disjoint
  · rw [hlen, h.hs, h.vlen]; exact mul_add_le hx
  · rw [hlen, h.hs]
    rcases Nat.lt_or_gt_of_ne hy with g | g
    · left; exact Nat.mul_le_mul_right s g
    · right
      have : (x + 1) * s ≤ y * s := Nat.mul_le_mul_right s g
      rw [Nat.succ_mul] at this; exact this

theorem wf_after {l s : Nat} {m : Map} (h : WF l s m) {k : U64} (hk : k ≠ 0) {x : Nat} (hx : x < l) (out : Bytes)
    (hkeys : KeyInv l (fun y => if y = x then k else m.keyAt y)) : WF l s (after m k x out) where
  pos := h.pos
  hl := h.hl
  hs := h.hs
  klen := by simp [after, h.klen]
  vlen := by
    unfold after
    simp only
    rw [splice_length, h.vlen]
    rw [overwrite_length, slotBytes_length h hx, h.hs, h.vlen]; exact mul_add_le hx
  clean := by
    intro y hy
    have hc := h.clean y hy
    unfold after
    simp only [List.getD_eq_getElem?_getD, List.getElem?_set]
    by_cases he : x = y
    · subst he
      rw [if_pos rfl, if_pos (by rw [h.klen]; exact hx)]
      refine ⟨rfl, ?_⟩
      simp only [Option.getD_some, BitVec.toNat_add]
      rw [List.getD_eq_getElem?_getD] at hc
      have : BitVec.toNat (2 : BitVec 32) = 2 := rfl
      rw [this]
      omega
    · rw [if_neg he]
      rw [List.getD_eq_getElem?_getD] at hc
      exact hc
  inv := by rw [keyAt_after h k hx]; exact hkeys
  zero := by
    intro y hy h0
    rw [keyAt_after h k hx] at h0
    simp only at h0
    by_cases he : y = x
    · rw [if_pos he] at h0; exact absurd h0 hk
    · rw [if_neg he] at h0
      rw [slotBytes_after_other h k hx he]
      exact h.zero y hy h0

theorem contentOf_after_same {l s : Nat} {m : Map} (h : WF l s m) {k : U64} (hk : k ≠ 0) {x : Nat} (hx : x < l)
    (out : Bytes) (hkeys : KeyInv l (fun y => if y = x then k else m.keyAt y)) :
    slotOf (after m k x out) k = some x ∧
    contentOf (after m k x out) k = some (overwrite (slotBytes m x) out) := by
  have hw := wf_after h hk hx out hkeys
  have hs : slotOf (after m k x out) k = some x := by
    rw [slotOf_eq hw hk, keyAt_after h k hx]
    exact ⟨hx, by simp⟩
  refine ⟨hs, ?_⟩
  unfold contentOf
  rw [hs, Option.map_some, slotBytes_after_same h k hx]

theorem slotOf_after_other {l s : Nat} {m : Map} (h : WF l s m) {k k' : U64} (hk : k ≠ 0) (hk' : k' ≠ 0)
    (hne : k' ≠ k) {x : Nat} (hx : x < l) (hxk : m.keyAt x = k ∨ m.keyAt x = 0)
    (out : Bytes) (hkeys : KeyInv l (fun y => if y = x then k else m.keyAt y)) :
    slotOf (after m k x out) k' = slotOf m k' ∧ contentOf (after m k x out) k' = contentOf m k' := by
  have hw := wf_after h hk hx out hkeys
  have hs : slotOf (after m k x out) k' = slotOf m k' := by
    cases hs : slotOf m k' with
    | none =>
      rw [slotOf_none h] at hs
      rw [slotOf_none hw, keyAt_after h k hx]
      intro y hy
      simp only
      by_cases he : y = x
      · rw [if_pos he]; exact fun e => hne e.symm
      · rw [if_neg he]; exact hs y hy
    | some y =>
      rw [slotOf_eq h hk'] at hs
      rw [slotOf_eq hw hk', keyAt_after h k hx]
      refine ⟨hs.1, ?_⟩
      simp only
      have : y ≠ x := by
        rintro rfl
        rcases hxk with e | e
        · exact hne (hs.2.symm.trans e)
        · exact hk' (hs.2.symm.trans e)
      rw [if_neg this]; exact hs.2
  refine ⟨hs, ?_⟩
  unfold contentOf
  rw [hs]
  cases hs' : slotOf m k' with
  | none => rfl
  | some y =>
    rw [slotOf_eq h hk'] at hs'
    have : y ≠ x := by
      rintro rfl
      rcases hxk with e | e
      · exact hne (hs'.2.symm.trans e)
      · exact hk' (hs'.2.symm.trans e)
    simp only [Option.map_some]
    rw [slotBytes_after_other h k hx this]

/-- The complete description of one Update call on a well-formed map. -/
inductive UpdCase (l s : Nat) (m : Map) (k : U64) (fn : Fn) : Prop where
  | invalid (h0 : k = 0) (h : update m k fn = (m, .ret (some .invalidKey)))
  | full (h0 : k ≠ 0) (habs : slotOf m k = none) (hfull : ∀ j, j ≤ maxReprobe → m.keyAt (pos l k j) ≠ 0)
      (h : update m k fn = (m, .ret (some .outOfSlots)))
  | ran (h0 : k ≠ 0) (x : Nat) (hx : x < l) (init : Bool) (e : Option Err)
      (hxk : m.keyAt x = k ∨ m.keyAt x = 0)
      (hslot : slotOf m k = some x ∨ (slotOf m k = none ∧ ∃ j, j ≤ maxReprobe ∧ m.keyAt (pos l k j) = 0))
      (hinit : init = decide (slotOf m k = none ∨ x ≠ k.toNat % l))
      (hfn : (fn (slotBytes m x) init).2 = .val e)
      (hdata : slotBytes m x = (contentOf m k).getD (List.replicate s 0))
      (hkeys : KeyInv l (fun y => if y = x then k else m.keyAt y))
      (h : update m k fn = (after m k x (fn (slotBytes m x) init).1, .ret e))

theorem update_cases_on {l s : Nat} {m : Map} (h : WF l s m) (k : U64) (fn : Fn)
    (hfn : ∀ x, x < l → ∀ i, ∃ e, (fn (slotBytes m x) i).2 = .val e) : UpdCase l s m k fn := by
  by_cases h0 : k = 0
  · exact .invalid h0 (by unfold update; rw [if_pos h0])
  · cases hs : slotOf m k with
    | some x =>
      have hx := (slotOf_eq h h0).mp hs
      have hc := h.inv.claim_present h0 hx.1 hx.2
      rw [← h.hl] at hc
      obtain ⟨e, he⟩ := hfn x hx.1 (decide (x ≠ k.toNat % m.l))
      have hkeys : KeyInv l (fun y => if y = x then k else m.keyAt y) := by
        have : (fun y => if y = x then k else m.keyAt y) = m.keyAt := by
          funext y
          split
          · rename_i hy; rw [hy]; exact hx.2.symm
          · rfl
        rw [this]; exact h.inv
      refine .ran h0 x hx.1 (decide (x ≠ k.toNat % m.l)) e (Or.inl hx.2) (Or.inl hs) ?_ he ?_ hkeys
        (update_at h h0 hx.1 hc fn e he)
      · rw [hs, h.hl]; simp
      · unfold contentOf; rw [hs]; rfl
    | none =>
      have habs := (slotOf_none h).mp hs
      rcases claim_absent h.pos habs with ⟨j, x, hj, hp, hz, hprev, hc⟩ | ⟨hfull, hc⟩
      · have hx : x < l := by rw [← hp]; exact pos_lt h.pos _ _
        rw [← h.hl] at hc
        obtain ⟨e, he⟩ := hfn x hx true
        refine .ran h0 x hx true e (Or.inr hz) (Or.inr ⟨hs, j, hj, by rw [hp]; exact hz⟩) ?_ he ?_
          (h.inv.store h0 hj hp hz hprev) (update_at h h0 hx hc fn e he)
        · rw [hs]; simp
        · unfold contentOf; rw [hs]; exact h.zero x hx hz
      · rw [← h.hl] at hc
        exact .full h0 hs hfull (update_full h h0 hc fn)

theorem update_cases {l s : Nat} {m : Map} (h : WF l s m) (k : U64) (fn : Fn) (hfn : Calm fn) :
    UpdCase l s m k fn := update_cases_on h k fn fun _ _ _ => hfn _ _

theorem wf_update {l s : Nat} {m : Map} (h : WF l s m) (k : U64) (fn : Fn) (hfn : Calm fn) :
    WF l s (update m k fn).1 := by
  cases update_cases h k fn hfn with
  | invalid _ e => rw [e]; exact h
  | full _ _ _ e => rw [e]; exact h
  | ran h0 x hx init e hxk _ _ _ _ hkeys he => rw [he]; exact wf_after h h0 hx _ hkeys

theorem wf_run {l s : Nat} : ∀ (hist : List MapOp) {m : Map}, WF l s m → CalmHist hist → WF l s (mapRun m hist) := by
  intro hist
  induction hist with
  | nil => intro m h _; exact h
  | cons op hist ih =>
    intro m h hc
    have hc' : CalmHist hist := fun k fn hm => hc k fn (List.mem_cons_of_mem _ hm)
    unfold mapRun
    rw [List.foldl_cons]
    cases op with
    | get k buf => exact ih h hc'
    | upd k fn => exact ih (wf_update h k fn (hc k fn List.mem_cons_self)) hc'

theorem calm_noop : Calm fun d _ => (d, .val none) := fun _ _ => ⟨none, rfl⟩

/-- `wouldCall` says whether the key is present or has a free candidate slot -/
theorem wouldCall_iff {l s : Nat} {m : Map} (h : WF l s m) (k : U64) :
    wouldCall m k = true ↔ k ≠ 0 ∧ (slotOf m k ≠ none ∨ ∃ j, j ≤ maxReprobe ∧ m.keyAt (pos l k j) = 0) := by
  unfold wouldCall
  rw [decide_eq_true_eq]
  cases update_cases h k _ calm_noop with
  | invalid h0 e => rw [e]; simp [h0]
  | full h0 habs hfull e =>
    rw [e]
    constructor
    · intro h; simp at h
    · rintro ⟨_, h1 | ⟨j, hj, hz⟩⟩
      · exact absurd habs h1
      · exact absurd hz (hfull j hj)
  | ran h0 x hx init e hxk hslot hinit hfn hdata hkeys he =>
    rw [he]
    have := Out.val.inj hfn
    subst this
    constructor
    · intro _
      refine ⟨h0, ?_⟩
      rcases hslot with h1 | ⟨_, h2⟩
      · left; rw [h1]; simp
      · right; exact h2
    · intro _; rfl

end Starbow.Bufmap
