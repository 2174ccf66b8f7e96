import Verif.Proof.Bufmap
import Verif.Model.Incmap
/-
Properties C30–C33, C36 and C40: bufmap (and incmap), one call at a time.
-/
namespace Starbow.Props
open Starbow.Bufmap Starbow.Probe Starbow.Spec

theorem get_absent {l s : Nat} {m : Map} (h : WF l s m) {k : U64} (hs : slotOf m k = none) (buf : Bytes) :
    get m k buf = .ret (false, buf) := by
  have habs := (slotOf_none h).mp hs
  unfold Bufmap.get
  rw [if_neg (by rw [h.hl]; have := h.pos; omega), h.hl]
  cases hlk : lookup m.keyAt l k (maxReprobe + 1) 0 with
  | none => rfl
  | some x =>
    obtain ⟨j, _, _, hp, hx, _⟩ := lookup_some hlk
    exact absurd hx (habs x (by rw [← hp]; exact pos_lt h.pos _ _))

theorem get_present {l s : Nat} {m : Map} (h : WF l s m) {k : U64} (hk : k ≠ 0) {x : Nat}
    (hs : slotOf m k = some x) (buf : Bytes) :
    get m k buf = if x * (s + 1) > l * s then .panic
      else .ret (true, (slice m.values (x * s) (x * (s + 1))).take buf.length ++ buf.drop x) := by
  have hx := (slotOf_eq h hk).mp hs
  have hlk := h.inv.lookup_eq hk hx.1 hx.2
  unfold Bufmap.get
  rw [if_neg (by rw [h.hl]; have := h.pos; omega), h.hl, hlk]
  simp only
  rw [if_neg (by rw [(h.clean x hx.1).2]; simp), h.vlen, h.hs]
  by_cases hb : x * (s + 1) > l * s
  · rw [if_pos hb, if_pos hb]
  · rw [if_neg hb, if_neg hb]
    have : (slice m.values (x * s) (x * (s + 1))).length = x := by
      rw [slice_length _ _ _ (by rw [h.vlen]; omega), Nat.mul_succ]; omega
    rw [this]

theorem slice_take {α : Type} (b : List α) (lo hi hi' : Nat) (h : hi ≤ hi') :
    slice b lo hi = (slice b lo hi').take (hi - lo) := by
  unfold slice; rw [List.take_take]; congr 1; omega

/-- the slot bytes are a prefix of the bytes copied when the slot index is at least the stride -/
theorem copied_ge {l s : Nat} {m : Map} (h : WF l s m) {x : Nat} (hx : s ≤ x) :
    (slice m.values (x * s) (x * (s + 1))).take s = slotBytes m x := by
  unfold slotBytes
  rw [h.hs, slice_take m.values (x * s) ((x + 1) * s) (x * (s + 1)) (by rw [Nat.mul_succ, Nat.succ_mul]; omega)]
  congr 1
  rw [Nat.succ_mul]; omega

/-- … and the bytes copied are a prefix of the slot bytes when it is at most the stride -/
theorem copied_le {l s : Nat} {m : Map} (h : WF l s m) {x : Nat} (hx : x ≤ s) :
    slice m.values (x * s) (x * (s + 1)) = (slotBytes m x).take x := by
  unfold slotBytes
  rw [h.hs, slice_take m.values (x * s) (x * (s + 1)) ((x + 1) * s) (by rw [Nat.mul_succ, Nat.succ_mul]; omega)]
  congr 1
  rw [Nat.mul_succ]; omega

/-- one more call in the history, for the functions run and the content of `k` -/
theorem ran_inv {l s : Nat} (k : U64) (hk : k ≠ 0) : ∀ (hist : List MapOp) (m : Map) (acc : List Fn),
    WF l s m → CalmHist hist →
    (∃ inits : List Bool, inits.length = acc.length ∧ contentOf m k =
      if acc = [] then none else some (applyFns (List.replicate s 0) (acc.zip inits))) →
    (hist.foldl (ranStep k) (m, acc)).1 = mapRun m hist ∧
    ∃ inits : List Bool, inits.length = (hist.foldl (ranStep k) (m, acc)).2.length ∧
      contentOf (mapRun m hist) k = if (hist.foldl (ranStep k) (m, acc)).2 = [] then none else
        some (applyFns (List.replicate s 0) ((hist.foldl (ranStep k) (m, acc)).2.zip inits)) := by
  intro hist
  induction hist with
  | nil => intro m acc _ _ h; exact ⟨rfl, h⟩
  | cons op hist ih =>
    intro m acc hwf hc hacc
    have hc' : CalmHist hist := fun k fn hm => hc k fn (List.mem_cons_of_mem _ hm)
    cases op with
    | get k' buf => exact ih m acc hwf hc' hacc
    | upd k' fn =>
      have hcalm := hc k' fn List.mem_cons_self
      rw [show mapRun m (.upd k' fn :: hist) = mapRun (update m k' fn).1 hist from rfl]
      rw [List.foldl_cons, show ranStep k (m, acc) (.upd k' fn) = ((update m k' fn).1,
        if k' = k ∧ wouldCall m k' = true then acc ++ [fn] else acc) from rfl]
      apply ih _ _ (wf_update hwf k' fn hcalm) hc'
      obtain ⟨inits, hlen, hcont⟩ := hacc
      cases update_cases hwf k' fn hcalm with
      | invalid h0 e =>
        rw [e, if_neg (by rintro ⟨rfl, _⟩; exact hk h0)]
        exact ⟨inits, hlen, hcont⟩
      | full h0 habs hfull e =>
        have : ¬ wouldCall m k' = true := by
          rw [wouldCall_iff hwf]
          rintro ⟨_, h1 | ⟨j, hj, hz⟩⟩
          · exact h1 habs
          · exact hfull j hj hz
        rw [e, if_neg (by rintro ⟨_, h⟩; exact this h)]
        exact ⟨inits, hlen, hcont⟩
      | ran h0 x hx init e hxk hslot hinit hfn hdata hkeys he =>
        rw [he]
        by_cases hkk : k' = k
        · have hcall : wouldCall m k' = true := by
            rw [wouldCall_iff hwf]
            refine ⟨h0, ?_⟩
            rcases hslot with h1 | ⟨_, h2⟩
            · left; rw [h1]; simp
            · right; exact h2
          rw [if_pos ⟨hkk, hcall⟩]
          subst hkk
          refine ⟨inits ++ [init], by simp [hlen], ?_⟩
          rw [(contentOf_after_same hwf h0 hx _ hkeys).2, if_neg (by simp)]
          rw [List.zip_append hlen.symm]
          unfold applyFns
          rw [List.foldl_append]
          simp only [List.zip_cons_cons, List.zip_nil_right, List.foldl_cons, List.foldl_nil]
          have : slotBytes m x = (acc.zip inits).foldl (fun d f => overwrite d (f.1 d f.2).1) (List.replicate s 0) := by
            rw [hdata, hcont]
            by_cases hnil : acc = []
            · subst hnil; rfl
            · rw [if_neg hnil]; rfl
          rw [← this]
        · rw [if_neg (by rintro ⟨h, _⟩; exact hkk h)]
          refine ⟨inits, hlen, ?_⟩
          rw [(slotOf_after_other hwf h0 hk (fun e => hkk e.symm) hx hxk _ hkeys).2]
          exact hcont

/-- **C30/C32**, what is stored: after any history, the bytes held for `k` are the result of applying, in order
and starting from zeroes, exactly the functions of the updates of `k` that found a slot; `k` is present iff
there was one. (The flag each was given is described by `C31_partial`.) -/
theorem C32_content (l s : Nat) (hl : 0 < l) (hist : List MapOp) (hc : CalmHist hist) (k : U64) (hk : k ≠ 0) :
    ∃ inits : List Bool, inits.length = (ranFns (new l s) hist k).length ∧
      contentOf (mapRun (new l s) hist) k =
        if ranFns (new l s) hist k = [] then none
        else some (applyFns (List.replicate s 0) ((ranFns (new l s) hist k).zip inits)) := by
  have hw := wf_new s hl
  have h0 : contentOf (new l s) k = none := by
    unfold contentOf
    rw [(slotOf_none hw).mpr]
    · rfl
    · intro x hx he
      apply hk
      rw [← he]
      unfold Map.keyAt new
      rw [List.getD_eq_getElem?_getD, List.getElem?_replicate]
      split <;> rfl
  exact (ran_inv k hk hist (new l s) [] hw hc ⟨[], rfl, by rw [if_pos rfl]; exact h0⟩).2

/-- **C32**, isolation: an update of one key leaves the bytes and the presence of every other key alone. -/
theorem C32_isolated (l s : Nat) (hl : 0 < l) (hist : List MapOp) (hc : CalmHist hist) (k k' : U64) (fn : Fn)
    (hfn : Calm fn) (hk' : k' ≠ 0) (hne : k' ≠ k) :
    slotOf (update (mapRun (new l s) hist) k fn).1 k' = slotOf (mapRun (new l s) hist) k' ∧
    contentOf (update (mapRun (new l s) hist) k fn).1 k' = contentOf (mapRun (new l s) hist) k' := by
  have hwf := wf_run hist (wf_new s hl) hc
  cases update_cases hwf k fn hfn with
  | invalid h0 e => rw [e]; exact ⟨rfl, rfl⟩
  | full h0 habs hfull e => rw [e]; exact ⟨rfl, rfl⟩
  | ran h0 x hx init e hxk hslot hinit hfn hdata hkeys he =>
    rw [he]
    exact slotOf_after_other hwf h0 hk' hne hx hxk _ hkeys

/-- **C32**, one slot for ever: once a key has a slot, no history moves it. -/
theorem C32_slot_fixed (l s : Nat) (hl : 0 < l) (hist more : List MapOp) (hc : CalmHist hist) (hc' : CalmHist more)
    (k : U64) (hk : k ≠ 0) (x : Nat) (hx : slotOf (mapRun (new l s) hist) k = some x) :
    slotOf (mapRun (new l s) (hist ++ more)) k = some x := by
  have hwf := wf_run hist (wf_new s hl) hc
  unfold mapRun at hwf hx ⊢
  rw [List.foldl_append]
  generalize List.foldl mapStep (new l s) hist = m at *
  clear hc hist
  induction more generalizing m with
  | nil => exact hx
  | cons op more ih =>
    have hc2 : CalmHist more := fun k fn hm => hc' k fn (List.mem_cons_of_mem _ hm)
    rw [List.foldl_cons]
    cases op with
    | get k' buf => exact ih hc2 m hx hwf
    | upd k' fn =>
      have hcalm := hc' k' fn List.mem_cons_self
      refine ih hc2 _ ?_ (wf_update hwf k' fn hcalm)
      show slotOf (update m k' fn).1 k = some x
      cases update_cases hwf k' fn hcalm with
      | invalid h0 e => rw [e]; exact hx
      | full h0 habs hfull e => rw [e]; exact hx
      | ran h0 y hy init e hxk hslot hinit hfn hdata hkeys he =>
        rw [he]
        by_cases hkk : k' = k
        · subst hkk
          rw [(contentOf_after_same hwf h0 hy _ hkeys).1]
          rcases hslot with h1 | ⟨h1, _⟩
          · rw [← hx, h1]
          · rw [h1] at hx; simp at hx
        · rw [(slotOf_after_other hwf h0 hk (fun e => hkk e.symm) hy hxk _ hkeys).1]
          exact hx

/-- **C32**, what the function sees: an Update that calls its function hands it the bytes stored for the key
(zeroes if the key is new), stores what the function leaves (also when it returns an error), and returns the
function's error. -/
theorem C32_sees_previous (l s : Nat) (hl : 0 < l) (hist : List MapOp) (hc : CalmHist hist) (k : U64) (fn : Fn)
    (hfn : Calm fn) (hcall : wouldCall (mapRun (new l s) hist) k = true) :
    ∃ init e, let d := (contentOf (mapRun (new l s) hist) k).getD (List.replicate s 0)
      (fn d init).2 = .val e ∧ (update (mapRun (new l s) hist) k fn).2 = .ret e ∧
      contentOf (update (mapRun (new l s) hist) k fn).1 k = some (overwrite d (fn d init).1) := by
  have hwf := wf_run hist (wf_new s hl) hc
  have hcall := (wouldCall_iff hwf k).mp hcall
  cases update_cases hwf k fn hfn with
  | invalid h0 e => exact absurd h0 hcall.1
  | full h0 habs hfull e =>
    rcases hcall.2 with h1 | ⟨j, hj, hz⟩
    · exact absurd habs h1
    · exact absurd hz (hfull j hj)
  | ran h0 x hx init e hxk hslot hinit hfn hdata hkeys he =>
    refine ⟨init, e, ?_⟩
    simp only
    rw [← hdata, he]
    exact ⟨hfn, rfl, (contentOf_after_same hwf h0 hx _ hkeys).2⟩

/-- **C33**: Update(0) fails with ErrInvalidKey and changes nothing. -/
theorem C33_invalid_key (m : Map) (fn : Fn) : update m 0 fn = (m, .ret (some .invalidKey)) := by
  unfold update; rw [if_pos rfl]

/-- **C33**: Update of a non-zero key is refused, with ErrOutOfSlots, exactly when the key is new and all of
its 11 candidate slots (`k mod l`, and the ten following, cyclically) are occupied; a refused update leaves the
map unchanged, whatever the function (which is not consulted). -/
theorem C33_out_of_slots (l s : Nat) (hl : 0 < l) (hist : List MapOp) (hc : CalmHist hist) (k : U64) (hk : k ≠ 0) :
    (wouldCall (mapRun (new l s) hist) k = false ↔
      slotOf (mapRun (new l s) hist) k = none ∧
        ∀ i, i ≤ 10 → (mapRun (new l s) hist).keyAt ((k.toNat + i) % l) ≠ 0) ∧
    (wouldCall (mapRun (new l s) hist) k = false → ∀ fn,
      update (mapRun (new l s) hist) k fn = (mapRun (new l s) hist, .ret (some .outOfSlots))) := by
  have hwf := wf_run hist (wf_new s hl) hc
  generalize mapRun (new l s) hist = m at *
  have hiff : wouldCall m k = false ↔ slotOf m k = none ∧ ∀ j, j ≤ maxReprobe → m.keyAt (pos l k j) ≠ 0 := by
    rw [← Bool.not_eq_true, wouldCall_iff hwf]
    constructor
    · intro h
      refine ⟨?_, ?_⟩
      · cases hs : slotOf m k with
        | none => rfl
        | some x => exact absurd ⟨hk, Or.inl (by rw [hs]; simp)⟩ h
      · intro j hj hz; exact h ⟨hk, Or.inr ⟨j, hj, hz⟩⟩
    · rintro ⟨h1, h2⟩ ⟨_, h3 | ⟨j, hj, hz⟩⟩
      · exact h3 h1
      · exact h2 j hj hz
  have hpos : ∀ i, pos l k i = (k.toNat + i) % l := by
    intro i; unfold pos; rw [Nat.mod_add_mod]
  constructor
  · rw [hiff]
    simp only [hpos, maxReprobe]
  · intro h fn
    obtain ⟨h1, h2⟩ := hiff.mp h
    have habs := (slotOf_none hwf).mp h1
    rcases claim_absent hl habs with ⟨j, x, hj, hp, hz, _, _⟩ | ⟨_, hcl⟩
    · rw [← hp] at hz; exact absurd hz (h2 j hj)
    · rw [← hwf.hl] at hcl
      exact update_full hwf hk hcl fn

/-- **C33**: a key that has been accepted once is never refused later. -/
theorem C33_accepted_forever (l s : Nat) (hl : 0 < l) (hist more : List MapOp) (hc : CalmHist hist)
    (hc' : CalmHist more) (k : U64) (hk : k ≠ 0) (hacc : ranFns (new l s) hist k ≠ []) :
    wouldCall (mapRun (new l s) (hist ++ more)) k = true := by
  obtain ⟨_, _, hcont⟩ := C32_content l s hl hist hc k hk
  rw [if_neg hacc] at hcont
  cases hs : slotOf (mapRun (new l s) hist) k with
  | none => unfold contentOf at hcont; rw [hs] at hcont; simp at hcont
  | some x =>
    have hc2 : CalmHist (hist ++ more) := by
      intro k' fn hm
      rcases List.mem_append.mp hm with h | h
      · exact hc k' fn h
      · exact hc' k' fn h
    rw [wouldCall_iff (wf_run (hist ++ more) (wf_new s hl) hc2)]
    exact ⟨hk, Or.inl (by rw [C32_slot_fixed l s hl hist more hc hc' k hk x hs]; simp)⟩

/-- A history used in the examples: three keys with the same home slot in a map of 16 slots of 2 bytes. -/
def demoHist : List MapOp :=
  [.upd 16 fun _ _ => ([1, 2], .val none), .upd 32 fun _ _ => ([3, 4], .val (some (.other 1))),
   .upd 48 fun d _ => (d.map (· + 1), .val none), .get 32 [0, 0]]

theorem demoHist_calm : CalmHist demoHist := by
  intro k fn h d i
  simp only [demoHist, List.mem_cons, List.not_mem_nil, or_false] at h
  rcases h with h | h | h | h <;> (try cases h) <;> exact ⟨_, rfl⟩

example : (ranFns (new 16 2) demoHist 32).length = 1 ∧ slotOf (mapRun (new 16 2) demoHist) 48 = some 2 := by
  decide

/-- **C30**, found: Get of a non-zero key finds it iff some update of it found a slot (when the key is absent the
caller's buffer is untouched); it never hangs. Missing from C30: the bytes returned (`C30_bytes_partial`) and the absence
of panics, both false in general (`C30_truncated`, `C30_panics`). -/
theorem C30_found_partial (l s : Nat) (hl : 0 < l) (hist : List MapOp) (hc : CalmHist hist) (k : U64) (hk : k ≠ 0)
    (buf : Bytes) :
    (ranFns (new l s) hist k = [] → get (mapRun (new l s) hist) k buf = .ret (false, buf)) ∧
    (ranFns (new l s) hist k ≠ [] → get (mapRun (new l s) hist) k buf = .panic ∨
      ∃ b, get (mapRun (new l s) hist) k buf = .ret (true, b)) := by
  have hwf := wf_run hist (wf_new s hl) hc
  obtain ⟨inits, hlen, hcont⟩ := C32_content l s hl hist hc k hk
  constructor
  · intro h
    rw [if_pos h] at hcont
    apply get_absent hwf
    cases hs : slotOf (mapRun (new l s) hist) k with
    | none => rfl
    | some x => unfold contentOf at hcont; rw [hs] at hcont; simp at hcont
  · intro h
    rw [if_neg h] at hcont
    cases hs : slotOf (mapRun (new l s) hist) k with
    | none => unfold contentOf at hcont; rw [hs] at hcont; simp at hcont
    | some x =>
      rw [get_present hwf hk hs]
      split
      · left; rfl
      · right; exact ⟨_, rfl⟩

/-- **C30**, the part that holds: for a key whose slot index `x` satisfies `s ≤ x` and `x*(s+1) ≤ l*s`, Get into a
buffer of the stride's length returns exactly the bytes left by the last update. -/
theorem C30_bytes_partial (l s : Nat) (hl : 0 < l) (hist : List MapOp) (hc : CalmHist hist) (k : U64) (hk : k ≠ 0)
    (x : Nat) (hx : slotOf (mapRun (new l s) hist) k = some x) (hsx : s ≤ x) (hxl : x * (s + 1) ≤ l * s)
    (buf : Bytes) (hbuf : buf.length = s) :
    ∃ d, contentOf (mapRun (new l s) hist) k = some d ∧ get (mapRun (new l s) hist) k buf = .ret (true, d) := by
  have hwf := wf_run hist (wf_new s hl) hc
  refine ⟨slotBytes (mapRun (new l s) hist) x, by unfold contentOf; rw [hx]; rfl, ?_⟩
  rw [get_present hwf hk hx, if_neg (by omega), hbuf, copied_ge hwf hsx, List.drop_of_length_le (by omega), List.append_nil]

/-- **C30 fails** (1): a key whose slot index is below the stride reads back only the first `x` bytes (none at
all in slot 0); the rest of the caller's buffer keeps whatever it held. -/
theorem C30_truncated (l s : Nat) (hl : 0 < l) (hist : List MapOp) (hc : CalmHist hist) (k : U64) (hk : k ≠ 0)
    (x : Nat) (hx : slotOf (mapRun (new l s) hist) k = some x) (hsx : x < s) (buf : Bytes) (hbuf : buf.length = s) :
    ∃ d, contentOf (mapRun (new l s) hist) k = some d ∧
      get (mapRun (new l s) hist) k buf = .ret (true, d.take x ++ buf.drop x) := by
  have hwf := wf_run hist (wf_new s hl) hc
  have hxl := ((slotOf_eq hwf hk).mp hx).1
  have hb : ¬ x * (s + 1) > l * s := by
    have h1 := @mul_add_le x l s hxl
    have h2 : x * (s + 1) = x * s + x := Nat.mul_succ _ _
    omega
  refine ⟨slotBytes (mapRun (new l s) hist) x, by unfold contentOf; rw [hx]; rfl, ?_⟩
  rw [get_present hwf hk hx, if_neg hb, copied_le hwf (by omega), hbuf,
    List.take_take, Nat.min_eq_right (by omega)]

/-- **C30 fails** (2): a key whose slot index satisfies `x*(s+1) > l*s` (the last few slots of a large map)
makes Get panic. -/
theorem C30_panics (l s : Nat) (hl : 0 < l) (hist : List MapOp) (hc : CalmHist hist) (k : U64) (hk : k ≠ 0)
    (x : Nat) (hx : slotOf (mapRun (new l s) hist) k = some x) (hxl : x * (s + 1) > l * s) (buf : Bytes) :
    get (mapRun (new l s) hist) k buf = .panic := by
  rw [get_present (wf_run hist (wf_new s hl) hc) hk hx, if_pos hxl]

/-- concrete cases: in a map of 16 slots of 2 bytes, the key in slot 0 reads back as the caller's own buffer, the
one in slot 1 is truncated, the one in slot 2 is right; key 15 (slot 15) panics. -/
example : get (mapRun (new 16 2) demoHist) 16 [9, 9] = .ret (true, [9, 9]) ∧
    contentOf (mapRun (new 16 2) demoHist) 16 = some [1, 2] ∧
    get (mapRun (new 16 2) demoHist) 32 [9, 9] = .ret (true, [3, 9]) ∧
    get (mapRun (new 16 2) demoHist) 48 [9, 9] = .ret (true, [1, 1]) ∧
    get (mapRun (new 16 2) [.upd 15 fun _ _ => ([1, 2], .val none)]) 15 [9, 9] = .panic := by decide

/-- **C31**, the part that holds: the flag handed to the function is true exactly if the key is new *or* is not
in its home slot `k mod l`. So for keys that got their home slot `init` is signalled exactly once. -/
theorem C31_partial (l s : Nat) (hl : 0 < l) (hist : List MapOp) (hc : CalmHist hist) (k : U64) (fn : Fn)
    (hfn : Calm fn) (hcall : wouldCall (mapRun (new l s) hist) k = true) :
    ∃ x, slotOf (update (mapRun (new l s) hist) k fn).1 k = some x ∧
      contentOf (update (mapRun (new l s) hist) k fn).1 k =
        some (let d := (contentOf (mapRun (new l s) hist) k).getD (List.replicate s 0)
          overwrite d (fn d (decide (ranFns (new l s) hist k = [] ∨ x ≠ k.toNat % l))).1) := by
  have hwf := wf_run hist (wf_new s hl) hc
  have hcall := (wouldCall_iff hwf k).mp hcall
  obtain ⟨_, _, hcont⟩ := C32_content l s hl hist hc k hcall.1
  have hran : ranFns (new l s) hist k = [] ↔ slotOf (mapRun (new l s) hist) k = none := by
    unfold contentOf at hcont
    constructor
    · intro h; rw [if_pos h] at hcont; simpa using hcont
    · intro h
      rw [h] at hcont
      by_cases h1 : ranFns (new l s) hist k = []
      · exact h1
      · rw [if_neg h1] at hcont; simp at hcont
  cases update_cases hwf k fn hfn with
  | invalid h0 e => exact absurd h0 hcall.1
  | full h0 habs hfull e =>
    rcases hcall.2 with h1 | ⟨j, hj, hz⟩
    · exact absurd habs h1
    · exact absurd hz (hfull j hj)
  | ran h0 x hx init e hxk hslot hinit hfn hdata hkeys he =>
    refine ⟨x, ?_, ?_⟩
    · rw [he]; exact (contentOf_after_same hwf h0 hx _ hkeys).1
    · simp only
      rw [he, ← hdata]
      have hi : decide (ranFns (new l s) hist k = [] ∨ x ≠ k.toNat % l) = init := by
        rw [hinit]; exact decide_eq_decide.mpr (by rw [hran])
      rw [hi]
      exact (contentOf_after_same hwf h0 hx _ hkeys).2

/-- **C31 fails**: a key that was displaced from its home slot is told `init = true` on every update, although it
already holds data: its earlier updates are thrown away by functions that initialise. (The function used here
stores its `init` flag.) -/
theorem C31_displaced_always_init (l s : Nat) (hl : 0 < l) (hist : List MapOp) (hc : CalmHist hist)
    (k : U64) (hk : k ≠ 0) (x : Nat) (hx : slotOf (mapRun (new l s) hist) k = some x) (hd : x ≠ k.toNat % l)
    (fn : Fn) (hfn : Calm fn) :
    ∃ d, contentOf (mapRun (new l s) hist) k = some d ∧
      contentOf (update (mapRun (new l s) hist) k fn).1 k = some (overwrite d (fn d true).1) := by
  have hwf := wf_run hist (wf_new s hl) hc
  have hcall : wouldCall (mapRun (new l s) hist) k = true := by
    rw [wouldCall_iff hwf]; exact ⟨hk, Or.inl (by rw [hx]; simp)⟩
  obtain ⟨y, hy, hcy⟩ := C31_partial l s hl hist hc k fn hfn hcall
  have hxy : y = x := by
    have := C32_slot_fixed l s hl hist [.upd k fn] hc (by
      intro k' fn' hm
      rcases List.mem_singleton.mp hm with h
      cases h; exact hfn) k hk x hx
    unfold mapRun at this hy
    rw [List.foldl_append] at this
    have this : slotOf (update (List.foldl mapStep (new l s) hist) k fn).1 k = some x := this
    rw [this] at hy
    exact (Option.some.inj hy).symm
  subst hxy
  have hcd : contentOf (mapRun (new l s) hist) k = some (slotBytes (mapRun (new l s) hist) y) := by
    unfold contentOf; rw [hx]; rfl
  refine ⟨_, hcd, ?_⟩
  rw [hcy, hcd]
  have : decide (ranFns (new l s) hist k = [] ∨ y ≠ k.toNat % l) = true := decide_eq_true (Or.inr hd)
  simp only [this, Option.getD_some]

/-- concrete case: key 32 is displaced by key 16; its second and third updates are still told `init`. -/
example : let sto : Fn := fun d i => (if i then [1, 0] else [d.getD 0 0 + 1, 0], .val none)
    contentOf (mapRun (new 16 2) [.upd 16 sto, .upd 16 sto, .upd 16 sto, .upd 32 sto, .upd 32 sto, .upd 32 sto]) 16
      = some [3, 0] ∧
    contentOf (mapRun (new 16 2) [.upd 16 sto, .upd 16 sto, .upd 16 sto, .upd 32 sto, .upd 32 sto, .upd 32 sto]) 32
      = some [1, 0] := by decide

/-- the slot that Update finds when it calls its function -/
theorem find_slot {l s : Nat} {m : Map} (hwf : WF l s m) {k : U64} (hcall : wouldCall m k = true) :
    ∃ x ini, x < l ∧ claim m.keyAt m.l k (maxReprobe + 1) 0 false = .at x ini ∧
      (m.keyAt x = k ∨ m.keyAt x = 0) ∧ KeyInv l (fun y => if y = x then k else m.keyAt y) := by
  have hcall := (wouldCall_iff hwf k).mp hcall
  have h0 := hcall.1
  have hl := hwf.pos
  cases hs : slotOf m k with
  | some x =>
    have hx := (slotOf_eq hwf h0).mp hs
    refine ⟨x, _, hx.1, by rw [hwf.hl]; exact hwf.inv.claim_present h0 hx.1 hx.2, Or.inl hx.2, ?_⟩
    have : (fun y => if y = x then k else m.keyAt y) = m.keyAt := by
      funext y
      split
      · rename_i hy; rw [hy]; exact hx.2.symm
      · rfl
    rw [this]; exact hwf.inv
  | none =>
    rcases claim_absent hl ((slotOf_none hwf).mp hs) with ⟨j, x, hj, hp, hz, hprev, hcl⟩ | ⟨hfull, _⟩
    · exact ⟨x, true, by rw [← hp]; exact pos_lt hl _ _, by rw [hwf.hl]; exact hcl, Or.inr hz,
        hwf.inv.store h0 hj hp hz hprev⟩
    · rcases hcall.2 with h1 | ⟨j, hj, hz⟩
      · exact absurd hs h1
      · exact absurd hz (hfull j hj)

/-- the map left behind by a panicking function -/
def wreck (m : Map) (k : U64) (x : Nat) (out : Bytes) : Map :=
  { m with
    keys := m.keys.set x ⟨k, (m.keys.getD x ⟨0, 0, false⟩).seq + 1, true⟩
    values := splice m.values (x * m.s) (overwrite (slotBytes m x) out) }

theorem update_panic {l s : Nat} {m : Map} (hwf : WF l s m) {k : U64} (h0 : k ≠ 0) {x : Nat} {ini : Bool} (hx : x < l)
    (hcl : claim m.keyAt m.l k (maxReprobe + 1) 0 false = .at x ini) (fn : Fn)
    (hpan : ∀ d i, (fn d i).2 = .panic) :
    update m k fn = (wreck m k x (fn (slotBytes m x) ini).1, .panic) := by
  unfold update
  rw [if_neg h0, if_neg (by rw [hwf.hl]; have := hwf.pos; omega), hcl]
  simp only
  rw [(hwf.clean x hx).1]
  have hp : (fn (slice m.values (x * m.s) ((x + 1) * m.s)) ini).2 = .panic := hpan _ _
  unfold wreck slotBytes
  simp only [hp, List.set_set, Bool.false_eq_true, if_false]

/-- **C36 fails**: after a panic in the update function, every later Update of that key blocks for ever and every
Get of it spins for ever. -/
theorem C36_wedged (l s : Nat) (hl : 0 < l) (hist : List MapOp) (hc : CalmHist hist) (k : U64)
    (hcall : wouldCall (mapRun (new l s) hist) k = true) (fn : Fn) (hpan : ∀ d i, (fn d i).2 = .panic) :
    (update (mapRun (new l s) hist) k fn).2 = .panic ∧
    (∀ fn', (update (update (mapRun (new l s) hist) k fn).1 k fn').2 = .hang) ∧
    (∀ buf, get (update (mapRun (new l s) hist) k fn).1 k buf = .hang) := by
  have hwf := wf_run hist (wf_new s hl) hc
  generalize mapRun (new l s) hist = m at *
  have h0 := ((wouldCall_iff hwf k).mp hcall).1
  obtain ⟨x, ini, hx, hcl, _, hkeys⟩ := find_slot hwf hcall
  have hxk : x < m.keys.length := by rw [hwf.klen]; exact hx
  rw [update_panic hwf h0 hx hcl fn hpan]
  generalize hm' : wreck m k x (fn (slotBytes m x) ini).1 = m'
  have hkey : m'.keyAt = fun y => if y = x then k else m.keyAt y := by
    rw [← hm']; exact keyAt_set m x _ hxk _
  have hinv : KeyInv l m'.keyAt := by rw [hkey]; exact hkeys
  have hkx : m'.keyAt x = k := by rw [hkey]; simp
  have hl' : m'.l = l := by rw [← hm']; exact hwf.hl
  have hslot : m'.keys.getD x ⟨0, 0, false⟩ = ⟨k, (m.keys.getD x ⟨0, 0, false⟩).seq + 1, true⟩ := by
    rw [← hm']
    unfold wreck
    simp only [List.getD_eq_getElem?_getD, List.getElem?_set, if_pos hxk, if_true, Option.getD_some]
  have hodd : (m'.keys.getD x ⟨0, 0, false⟩).seq.toNat % 2 ≠ 0 := by
    rw [hslot]
    have := (hwf.clean x hx).2
    simp only [BitVec.toNat_add]
    have e1 : BitVec.toNat (1 : BitVec 32) = 1 := rfl
    rw [e1]
    omega
  refine ⟨rfl, ?_, ?_⟩
  · intro fn'
    simp only
    unfold update
    rw [if_neg h0, if_neg (by rw [hl']; omega), hl', hinv.claim_present h0 hx hkx]
    simp only
    rw [hslot]
    rfl
  · intro buf
    simp only
    unfold Bufmap.get
    rw [if_neg (by rw [hl']; omega), hl', hinv.lookup_eq h0 hx hkx]
    simp only
    rw [if_pos hodd]

/-- **C36**, the part that holds: a panic in the function for one key does not disturb the others: Get (into a
buffer of at most the stride's length) of any other key answers as before. -/
theorem C36_others_partial (l s : Nat) (hl : 0 < l) (hist : List MapOp) (hc : CalmHist hist) (k k' : U64)
    (hcall : wouldCall (mapRun (new l s) hist) k = true)
    (fn : Fn) (hpan : ∀ d i, (fn d i).2 = .panic) (hk' : k' ≠ 0) (hne : k' ≠ k) (buf : Bytes)
    (hbuf : buf.length ≤ s) :
    get (update (mapRun (new l s) hist) k fn).1 k' buf = get (mapRun (new l s) hist) k' buf := by
  have hwf := wf_run hist (wf_new s hl) hc
  generalize mapRun (new l s) hist = m at *
  have h0 := ((wouldCall_iff hwf k).mp hcall).1
  obtain ⟨x, ini, hx, hcl, hxk0, hkeys⟩ := find_slot hwf hcall
  have hxk : x < m.keys.length := by rw [hwf.klen]; exact hx
  rw [update_panic hwf h0 hx hcl fn hpan]
  simp only
  generalize fn (slotBytes m x) ini = out
  generalize hm' : wreck m k x out.1 = m'
  have hkey : m'.keyAt = fun y => if y = x then k else m.keyAt y := by
    rw [← hm']; exact keyAt_set m x _ hxk _
  have hinv : KeyInv l m'.keyAt := by rw [hkey]; exact hkeys
  have hl' : m'.l = l := by rw [← hm']; exact hwf.hl
  have hs' : m'.s = s := by rw [← hm']; exact hwf.hs
  have hxlen : (overwrite (slotBytes m x) out.1).length = s := by rw [overwrite_length, slotBytes_length hwf hx]
  have hvl : x * m.s + (overwrite (slotBytes m x) out.1).length ≤ m.values.length := by
    rw [hxlen, hwf.hs, hwf.vlen]; exact mul_add_le hx
  have hvlen : m'.values.length = l * s := by
    rw [← hm', wreck, splice_length _ _ _ hvl, hwf.vlen]
  cases hs : slotOf m k' with
  | none =>
    rw [get_absent hwf hs]
    unfold Bufmap.get
    rw [if_neg (by rw [hl']; omega), hl']
    have habs := (slotOf_none hwf).mp hs
    cases hlk : lookup m'.keyAt l k' (maxReprobe + 1) 0 with
    | none => rfl
    | some y =>
      obtain ⟨j, _, _, hp, hy, _⟩ := lookup_some hlk
      have hyl : y < l := by rw [← hp]; exact pos_lt hl _ _
      rw [hkey] at hy
      simp only at hy
      split at hy
      · exact absurd hy.symm hne
      · exact absurd hy (habs y hyl)
  | some y =>
    have hy := (slotOf_eq hwf hk').mp hs
    have hyx : y ≠ x := by
      rintro rfl
      rcases hxk0 with e | e
      · exact hne (hy.2.symm.trans e)
      · exact hk' (hy.2.symm.trans e)
    have hky : m'.keyAt y = k' := by rw [hkey]; simp only; rw [if_neg hyx]; exact hy.2
    have hslot : m'.keys.getD y ⟨0, 0, false⟩ = m.keys.getD y ⟨0, 0, false⟩ := by
      rw [← hm']
      unfold wreck
      simp only [List.getD_eq_getElem?_getD, List.getElem?_set, if_neg (fun e => hyx e.symm : ¬ x = y)]
    rw [get_present hwf hk' hs]
    unfold Bufmap.get
    rw [if_neg (by rw [hl']; omega), hl', hinv.lookup_eq hk' hy.1 hky]
    simp only
    rw [hslot, if_neg (by rw [(hwf.clean y hy.1).2]; simp), hvlen, hs']
    by_cases hb : y * (s + 1) > l * s
    · rw [if_pos hb, if_pos hb]
    · rw [if_neg hb, if_neg hb]
      have hlen : (slice m'.values (y * s) (y * (s + 1))).length = y := by
        rw [slice_length _ _ _ (by rw [hvlen]; omega), Nat.mul_succ]; omega
      rw [hlen]
      have hsl : (slice m'.values (y * s) (y * (s + 1))).take buf.length
          = (slice m.values (y * s) (y * (s + 1))).take buf.length := by
        have conv : ∀ v : Bytes, (slice v (y * s) (y * (s + 1))).take buf.length
            = slice v (y * s) (y * s + min buf.length y) := by
          intro v
          unfold slice
          rw [List.take_take, Nat.mul_succ]
          congr 1
          omega
        rw [conv, conv, ← hm']
        unfold wreck
        simp only
        apply slice_splice_disjoint _ _ _ _ _ hvl
        rw [hxlen, hwf.hs]
        rcases Nat.lt_or_gt_of_ne hyx with g | g
        · left
          have := @mul_add_le y x s g
          omega
        · right; exact @mul_add_le x y s g
      rw [hsl]

example : wouldCall (mapRun (new 16 2) demoHist) 5 = true ∧ (48 : U64) ≠ 0 ∧ (48 : U64) ≠ 5 := by decide

/-- **C40**, bufmap: Get does not find a non-zero key for which no update found a slot. -/
theorem C40_bufmap_partial (l s : Nat) (hl : 0 < l) (hist : List MapOp) (hc : CalmHist hist) (k : U64) (hk : k ≠ 0)
    (hnever : ∀ fn, MapOp.upd k fn ∈ hist → False) (buf : Bytes) :
    get (mapRun (new l s) hist) k buf = .ret (false, buf) := by
  apply (C30_found_partial l s hl hist hc k hk buf).1
  have : ∀ (hist : List MapOp) (m : Map) (acc : List Fn), (∀ fn, MapOp.upd k fn ∈ hist → False) →
      (hist.foldl (ranStep k) (m, acc)).2 = acc := by
    intro hist
    induction hist with
    | nil => intro m acc _; rfl
    | cons op hist ih =>
      intro m acc hn
      have hn' : ∀ fn, MapOp.upd k fn ∈ hist → False := fun fn h => hn fn (List.mem_cons_of_mem _ h)
      rw [List.foldl_cons]
      cases op with
      | get k' b => exact ih _ _ hn'
      | upd k' fn =>
        rw [show ranStep k (m, acc) (.upd k' fn) = ((update m k' fn).1,
          if k' = k ∧ wouldCall m k' = true then acc ++ [fn] else acc) from rfl, if_neg]
        · exact ih _ _ hn'
        · rintro ⟨rfl, _⟩; exact hn fn List.mem_cons_self
  exact this hist _ [] hnever

/-- **C40 fails** for key 0, which can never be written: in an empty bufmap Get(0) reports it as found. -/
theorem C40_bufmap_zero_found (l s : Nat) (hl : 0 < l) (buf : Bytes) :
    get (new l s) 0 buf = .ret (true, buf) := by
  unfold Bufmap.get
  have hkey : (new l s).keyAt = fun _ => 0 := by
    funext x
    unfold Map.keyAt new
    rw [List.getD_eq_getElem?_getD, List.getElem?_replicate]
    split <;> rfl
  have hp : pos l 0 0 = 0 := by rw [pos_zero]; exact Nat.zero_mod l
  rw [if_neg (by show ¬ l = 0; omega), show (new l s).l = l from rfl]
  have : lookup (new l s).keyAt l 0 (maxReprobe + 1) 0 = some 0 := by
    unfold lookup
    rw [hp, hkey, if_pos rfl]
  rw [this]
  simp only
  have hsl : (new l s).keys.getD 0 ⟨0, 0, false⟩ = ⟨0, 0, false⟩ := by
    unfold new
    rw [List.getD_eq_getElem?_getD, List.getElem?_replicate, if_pos hl]; rfl
  rw [hsl, if_neg (by simp), if_neg (by simp)]
  simp [slice]

/-- **C40 fails** for incmap too: Get(0) reports (0, true) on an empty map. -/
theorem C40_incmap_zero_found (l : Nat) (hl : 0 < l) : Incmap.get (Incmap.new l) 0 = .val (0, true) := by
  unfold Incmap.get
  have hkey : (Incmap.new l).keyAt = fun _ => 0 := by
    funext x
    unfold Incmap.Map.keyAt Incmap.new
    rw [List.getD_eq_getElem?_getD, List.getElem?_replicate]
    split <;> rfl
  have hp : pos l 0 0 = 0 := by rw [pos_zero]; exact Nat.zero_mod l
  rw [if_neg (by show ¬ l = 0; omega), show (Incmap.new l).l = l from rfl]
  have : lookup (Incmap.new l).keyAt l 0 (maxReprobe + 1) 0 = some 0 := by
    unfold lookup
    rw [hp, hkey, if_pos rfl]
  rw [this]
  simp only
  unfold Incmap.new
  rw [List.getD_eq_getElem?_getD, List.getElem?_replicate, if_pos hl]; rfl

end Starbow.Props
