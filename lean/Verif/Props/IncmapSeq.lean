import Verif.Model.Incmap
import Verif.Model.IncmapConc
import Verif.Proof.Probe
import Mathlib.Data.BitVec
/-
C39 and C40 for the incmap used by one goroutine, and the agreement of the sequential model with the concurrent one.
-/
namespace Starbow.Incmap
open Starbow.Probe

structure WF (l : Nat) (m : Map) : Prop where
  pos : 0 < l
  hl : m.l = l
  klen : m.keys.length = l
  vlen : m.values.length = l
  inv : KeyInv l m.keyAt
  zero : ∀ x, x < l → m.keyAt x = 0 → m.values.getD x 0 = 0

theorem getD_replicate (n : Nat) (x : Nat) : (List.replicate n (0 : U64)).getD x 0 = 0 := by
  rw [List.getD_eq_getElem?_getD, List.getElem?_replicate]
  split <;> rfl

theorem wf_new {l : Nat} (hl : 0 < l) : WF l (new l) where
  pos := hl
  hl := rfl
  klen := by simp [new]
  vlen := by simp [new]
  inv := by
    have : (new l).keyAt = fun _ => 0 := by funext x; exact getD_replicate l x
    rw [this]; exact KeyInv.empty l
  zero := fun x _ _ => getD_replicate l x

theorem getD_set (xs : List U64) (x : Nat) (v : U64) (hx : x < xs.length) (y : Nat) :
    (xs.set x v).getD y 0 = if y = x then v else xs.getD y 0 := by
  simp only [List.getD_eq_getElem?_getD, List.getElem?_set]
  by_cases h : x = y
  · subst h; simp [hx]
  · rw [if_neg h, if_neg (fun e => h e.symm)]

/-- the content of the map: the value of each key that is present -/
def Shows (l : Nat) (m : Map) (f : U64 → Option U64) : Prop :=
  ∀ k, k ≠ 0 → (f k = none → ∀ x, x < l → m.keyAt x ≠ k) ∧
    ∀ v, f k = some v → ∃ x, x < l ∧ m.keyAt x = k ∧ m.values.getD x 0 = v

theorem get_shows {l : Nat} {m : Map} (h : WF l m) {f : U64 → Option U64} (hf : Shows l m f) {k : U64} (hk : k ≠ 0) :
    get m k = .val ((f k).getD 0, (f k).isSome) := by
  unfold get
  have := h.pos
  rw [if_neg (by rw [h.hl]; omega), h.hl]
  cases hfk : f k with
  | none =>
    have habs := (hf k hk).1 hfk
    cases hl : lookup m.keyAt l k (maxReprobe + 1) 0 with
    | none => rfl
    | some x =>
      obtain ⟨j, _, _, hp, hx, _⟩ := lookup_some hl
      exact absurd hx (habs x (by rw [← hp]; exact pos_lt h.pos _ _))
  | some v =>
    obtain ⟨x, hx, hxk, hv⟩ := (hf k hk).2 v hfk
    rw [h.inv.lookup_eq hk hx hxk]
    simp only [hv]
    rfl

/-- what a successful Inc leaves -/
def after (m : Map) (k d : U64) (x : Nat) : Map :=
  { m with keys := m.keys.set x k, values := m.values.set x (m.values.getD x 0 + d) }

theorem after_ok {l : Nat} {m : Map} (h : WF l m) {f : U64 → Option U64} (hf : Shows l m f) {k d : U64} (hk : k ≠ 0) {x : Nat}
    (hx : x < l) (hxk : m.keyAt x = k ∨ m.keyAt x = 0 ∧ f k = none) (hkeys : KeyInv l fun y => if y = x then k else m.keyAt y) :
    WF l (after m k d x) ∧ Shows l (after m k d x) fun k' => if k' = k then some ((f k).getD 0 + d) else f k' := by
  have hkey : (after m k d x).keyAt = fun y => if y = x then k else m.keyAt y := by
    funext y; exact getD_set _ _ _ (by rw [h.klen]; exact hx) _
  have hval : ∀ y, (after m k d x).values.getD y 0 = if y = x then m.values.getD x 0 + d else m.values.getD y 0 :=
    fun y => getD_set _ _ _ (by rw [h.vlen]; exact hx) _
  have hcur : m.values.getD x 0 = (f k).getD 0 := by
    rcases hxk with h1 | ⟨h1, h2⟩
    · cases hfk : f k with
      | none => exact absurd h1 ((hf k hk).1 hfk x hx)
      | some v =>
        obtain ⟨y, hy, hyk, hv⟩ := (hf k hk).2 v hfk
        have : y = x := h.inv.unique hy hx (by rw [hyk]; exact hk) (hyk.trans h1.symm)
        subst this
        rw [hv]; rfl
    · rw [h2, h.zero x hx h1]; rfl
  refine ⟨⟨h.pos, h.hl, by simp [after, h.klen], by simp [after, h.vlen], by rw [hkey]; exact hkeys, ?_⟩, ?_⟩
  · intro y hy h0
    rw [hkey] at h0
    rw [hval]
    simp only at h0
    by_cases hyx : y = x
    · rw [if_pos hyx] at h0; exact absurd h0 hk
    · rw [if_neg hyx] at h0 ⊢; exact h.zero y hy h0
  · intro k' hk'
    simp only
    rw [hkey]
    by_cases he : k' = k
    · subst he
      rw [if_pos rfl]
      refine ⟨fun h => by simp at h, fun v hv => ⟨x, hx, by simp, ?_⟩⟩
      rw [hval, if_pos rfl, hcur]
      exact Option.some.inj hv
    · rw [if_neg he]
      constructor
      · intro hn y hy
        simp only
        by_cases hyx : y = x
        · rw [if_pos hyx]; exact fun e => he e.symm
        · rw [if_neg hyx]; exact (hf k' hk').1 hn y hy
      · intro v hv
        obtain ⟨y, hy, hyk, hyv⟩ := (hf k' hk').2 v hv
        have hyx : y ≠ x := by
          intro e; subst e
          rcases hxk with h1 | ⟨h1, _⟩
          · exact he (hyk.symm.trans h1)
          · exact hk' (hyk.symm.trans h1)
        exact ⟨y, hy, by simp only; rw [if_neg hyx]; exact hyk, by rw [hval, if_neg hyx]; exact hyv⟩

/-- one Inc -/
theorem inc_ok {l : Nat} {m : Map} (h : WF l m) {f : U64 → Option U64} (hf : Shows l m f) (k d : U64) :
    (inc m k d = .val (m, false) ∧ (k = 0 ∨ f k = none ∧ ∀ i, i ≤ maxReprobe → m.keyAt (pos l k i) ≠ 0 ∧ m.keyAt (pos l k i) ≠ k)) ∨
    (∃ m', inc m k d = .val (m', true) ∧ k ≠ 0 ∧ WF l m' ∧ Shows l m' fun k' => if k' = k then some ((f k).getD 0 + d) else f k') := by
  have hpos := h.pos
  by_cases hk : k = 0
  · left; exact ⟨by unfold inc; rw [if_pos hk], .inl hk⟩
  cases hfk : f k with
  | some v =>
    right
    obtain ⟨x, hx, hxk, hv⟩ := (hf k hk).2 v hfk
    have hc := h.inv.claim_present hk hx hxk
    have hkeys : KeyInv l fun y => if y = x then k else m.keyAt y := by
      have : (fun y => if y = x then k else m.keyAt y) = m.keyAt := by
        funext y; split
        · rename_i e; rw [e, hxk]
        · rfl
      rw [this]; exact h.inv
    obtain ⟨h1, h2⟩ := after_ok h hf (d := d) hk hx (.inl hxk) hkeys
    refine ⟨after m k d x, ?_, hk, h1, ?_⟩
    · unfold inc
      rw [← h.hl] at hc
      rw [if_neg hk, if_neg (by rw [h.hl]; omega), hc]
      rfl
    · rw [hfk] at h2; exact h2
  | none =>
    have habs := (hf k hk).1 hfk
    rcases claim_absent h.pos habs with ⟨j, x, hj, hp, hz, hprev, hc⟩ | ⟨hfull, hc⟩
    · right
      have hx : x < l := by rw [← hp]; exact pos_lt h.pos _ _
      obtain ⟨h1, h2⟩ := after_ok h hf (d := d) hk hx (.inr ⟨hz, hfk⟩) (h.inv.store hk hj hp hz hprev)
      refine ⟨after m k d x, ?_, hk, h1, ?_⟩
      · unfold inc
        rw [← h.hl] at hc
        rw [if_neg hk, if_neg (by rw [h.hl]; omega), hc]
        rfl
      · rw [hfk] at h2; exact h2
    · left
      refine ⟨?_, .inr ⟨rfl, fun i hi => ⟨hfull i hi, habs _ (pos_lt h.pos _ _)⟩⟩⟩
      unfold inc
      rw [if_neg hk, if_neg (by rw [h.hl]; omega), h.hl, hc]

/-- a sequence of Inc calls, and what each returned -/
def incAll (m : Map) : List (U64 × U64) → Out (Map × List Bool)
  | [] => .val (m, [])
  | (k, d) :: h => do
    let (m1, ok) ← inc m k d
    let (m2, oks) ← incAll m1 h
    return (m2, ok :: oks)

/-- the amounts of the calls for key `k` that returned true -/
def accepted (k : U64) (h : List (U64 × U64)) (oks : List Bool) : List U64 :=
  ((h.zip oks).filter fun c => c.1.1 == k && c.2).map fun c => c.1.2

theorem accepted_cons (k : U64) (c : U64 × U64) (ok : Bool) (h : List (U64 × U64)) (oks : List Bool) :
    accepted k (c :: h) (ok :: oks) = (if c.1 = k ∧ ok = true then [c.2] else []) ++ accepted k h oks := by
  unfold accepted
  rw [List.zip_cons_cons, List.filter_cons]
  by_cases hc : c.1 = k ∧ ok = true
  · rw [if_pos hc, if_pos (by simp [hc])]; rfl
  · rw [if_neg hc, if_neg (by simpa using hc)]; rfl

theorem incAll_ok {l : Nat} : ∀ (h : List (U64 × U64)) {m : Map} {f : U64 → Option U64}, WF l m → Shows l m f →
    ∃ m' oks, incAll m h = .val (m', oks) ∧ oks.length = h.length ∧ WF l m' ∧
      Shows l m' fun k => if accepted k h oks = [] then f k else some ((f k).getD 0 + (accepted k h oks).sum) := by
  intro h
  induction h with
  | nil => intro m f hw hf; exact ⟨m, [], rfl, rfl, hw, by simpa [accepted] using hf⟩
  | cons c h ih =>
    intro m f hw hf
    rcases inc_ok hw hf c.1 c.2 with ⟨e, _⟩ | ⟨m1, e, hk, hw1, hf1⟩
    · obtain ⟨m', oks, e', hl, hw', hf'⟩ := ih hw hf
      refine ⟨m', false :: oks, ?_, by simp [hl], hw', ?_⟩
      · rw [incAll, e]; simp only [Out.bind_val]; rw [e']; rfl
      · have : (fun k => if accepted k (c :: h) (false :: oks) = [] then f k else some ((f k).getD 0 + (accepted k (c :: h) (false :: oks)).sum))
            = fun k => if accepted k h oks = [] then f k else some ((f k).getD 0 + (accepted k h oks).sum) := by
          funext k
          have ea : accepted k (c :: h) (false :: oks) = accepted k h oks := by
            rw [accepted_cons, if_neg (fun hh => Bool.false_ne_true hh.2), List.nil_append]
          rw [ea]
        rw [this]; exact hf'
    · obtain ⟨m', oks, e', hl, hw', hf'⟩ := ih hw1 hf1
      refine ⟨m', true :: oks, ?_, by simp [hl], hw', ?_⟩
      · rw [incAll, e]; simp only [Out.bind_val]; rw [e']; rfl
      · have : (fun k => if accepted k (c :: h) (true :: oks) = [] then f k else some ((f k).getD 0 + (accepted k (c :: h) (true :: oks)).sum))
            = fun k => if accepted k h oks = [] then (if k = c.1 then some ((f c.1).getD 0 + c.2) else f k)
                else some (((if k = c.1 then some ((f c.1).getD 0 + c.2) else f k) : Option U64).getD 0 + (accepted k h oks).sum) := by
          funext k
          by_cases hkc : k = c.1
          · subst hkc
            have ea : accepted c.1 (c :: h) (true :: oks) = c.2 :: accepted c.1 h oks := by
              rw [accepted_cons, if_pos ⟨rfl, rfl⟩, List.singleton_append]
            rw [ea, if_neg (by simp), if_pos rfl, List.sum_cons]
            by_cases ha : accepted c.1 h oks = []
            · rw [if_pos ha, ha, List.sum_nil, add_zero]
            · rw [if_neg ha, Option.getD_some, add_assoc]
          · have ea : accepted k (c :: h) (true :: oks) = accepted k h oks := by
              rw [accepted_cons, if_neg (fun hh => hkc hh.1.symm), List.nil_append]
            rw [ea, if_neg hkc]
        rw [this]; exact hf'

end Starbow.Incmap

namespace Starbow.Props
open Starbow Starbow.Probe Starbow.Incmap

/-- **C39**, one goroutine: after any sequence of Inc calls on a fresh map, Get of a non-zero key returns the sum (mod 2^64) of the
amounts of the calls for it that returned true, and whether there was one. -/
theorem C39_sequential (l : Nat) (hl : 0 < l) (h : List (U64 × U64)) :
    ∃ m oks, incAll (Incmap.new l) h = .val (m, oks) ∧ oks.length = h.length ∧
      ∀ k, k ≠ 0 → Incmap.get m k = .val ((accepted k h oks).sum, decide (accepted k h oks ≠ [])) := by
  have hw := Incmap.wf_new hl
  have hf : Shows l (Incmap.new l) fun _ => none := by
    intro k hk
    refine ⟨fun _ x _ => ?_, fun v hv => by simp at hv⟩
    rw [show (Incmap.new l).keyAt x = 0 from getD_replicate l x]
    exact fun e => hk e.symm
  obtain ⟨m, oks, e, hlen, hw', hf'⟩ := incAll_ok h hw hf
  refine ⟨m, oks, e, hlen, fun k hk => ?_⟩
  rw [get_shows hw' hf' hk]
  by_cases ha : accepted k h oks = []
  · rw [if_pos ha, ha]; rfl
  · rw [if_neg ha, decide_eq_true ha]
    simp

/-- **C39**, one goroutine, refusals: after any sequence of Inc calls, an Inc returns false exactly for key 0 or a key that was never
accepted and whose 11 candidate slots are all taken by other keys; it then changes nothing. -/
theorem C39_sequential_refused (l : Nat) (hl : 0 < l) (h : List (U64 × U64)) (k d : U64) :
    ∃ m oks, incAll (Incmap.new l) h = .val (m, oks) ∧ ∃ m' ok, Incmap.inc m k d = .val (m', ok) ∧
      (ok = false → m' = m) ∧
      (ok = false ↔ k = 0 ∨ accepted k h oks = [] ∧
        ∀ i, i ≤ 10 → m.keyAt ((k.toNat + i) % l) ≠ 0 ∧ m.keyAt ((k.toNat + i) % l) ≠ k) := by
  have hw := Incmap.wf_new hl
  have hf : Shows l (Incmap.new l) fun _ => none := by
    intro k hk
    refine ⟨fun _ x _ => ?_, fun v hv => by simp at hv⟩
    rw [show (Incmap.new l).keyAt x = 0 from getD_replicate l x]
    exact fun e => hk e.symm
  obtain ⟨m, oks, e, hlen, hw', hf'⟩ := incAll_ok h hw hf
  have hpos : ∀ i, pos l k i = (k.toNat + i) % l := fun i => by unfold pos; rw [Nat.mod_add_mod]
  refine ⟨m, oks, e, ?_⟩
  rcases inc_ok hw' hf' k d with ⟨e1, h1⟩ | ⟨m', e1, hk, hw1, hf1⟩
  · refine ⟨m, false, e1, fun _ => rfl, ⟨fun _ => ?_, fun _ => rfl⟩⟩
    refine h1.imp_right ?_
    rintro ⟨ha, hi⟩
    refine ⟨?_, fun i hi' => ?_⟩
    · by_contra hne
      rw [if_neg hne] at ha
      simp at ha
    · rw [← hpos]; exact hi i hi'
  · refine ⟨m', true, e1, fun hh => by simp at hh, ⟨fun hh => by simp at hh, fun hh => ?_⟩⟩
    exfalso
    rcases hh with h0 | ⟨ha, hi⟩
    · exact hk h0
    · have hc : claim m.keyAt l k (maxReprobe + 1) 0 false = .full := by
        cases hc : claim m.keyAt l k (maxReprobe + 1) 0 false with
        | full => rfl
        | «at» x ini =>
          obtain ⟨j, _, hj, hp, hxk, _⟩ := claim_at hc
          have := hi j (by unfold maxReprobe at hj; omega)
          rw [← hpos, hp] at this
          rcases hxk with h2 | h2
          · exact absurd h2 this.2
          · exact absurd h2 this.1
      unfold Incmap.inc at e1
      rw [if_neg hk, if_neg (by rw [hw'.hl]; omega), hw'.hl, hc] at e1
      simp at e1

example : ∃ m, incAll (Incmap.new 5) [(7, 3), (12, 4), (7, 5), (0, 1)] = .val (m, [true, true, true, false]) ∧
    Incmap.get m 7 = .val (8, true) ∧ Incmap.get m 12 = .val (4, true) ∧ Incmap.get m 17 = .val (0, false) := by
  refine ⟨_, rfl, ?_, ?_, ?_⟩ <;> decide

end Starbow.Props
