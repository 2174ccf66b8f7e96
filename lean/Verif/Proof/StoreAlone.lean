import Verif.Proof.StoreConc
import Verif.Proof.BufmapInit
import Verif.Props.BufmapAlone
/- Calls of the concurrent store that run alone. -/
namespace Starbow.StoreConc
open Starbow Starbow.Collation Starbow.BufmapConc Starbow.Cell Starbow.Spec Starbow.Probe

/-! ### Update never changes the length of the record -/

theorem cell_write_length (w : Collation.Cell) (buf : Bytes) (fn : Bytes → Wrote) (hfn : ∀ d, (fn d).1.length = d.length) :
    (w.write buf fn).1.length = buf.length := by
  unfold Collation.Cell.write
  split
  · rfl
  · next h =>
    have h1 : ¬ w.low < 0 := fun e => h (.inl e)
    have h2 : ¬ w.high < w.low := fun e => h (.inr (.inl e))
    have h3 : ¬ (buf.length : Int) < w.high := fun e => h (.inr (.inr e))
    apply splice_length
    rw [hfn]
    unfold slice
    rw [List.length_take, List.length_drop]
    omega

theorem runWriters_length (ws : List (Bytes → Wrote)) : ∀ (buf : Bytes), (∀ w ∈ ws, ∀ b, (w b).1.length = b.length) →
    (runWriters buf ws).1.length = buf.length := by
  induction ws with
  | nil => intro buf _; rfl
  | cons w ws ih =>
    intro buf h
    have hw := h w (by simp) buf
    rw [runWriters]
    split
    · next b e => rw [e] at hw; rw [ih b fun w' hw' => h w' (by simp [hw'])]; exact hw
    · exact hw

theorem update_len (lib : Lib) (c : Collator) (r : Row) (buf : Bytes) (init : Bool) :
    (Collation.update lib c r buf init).1.length = buf.length := by
  unfold Collation.update
  apply runWriters_length
  intro w hw
  rw [List.mem_append] at hw
  rcases hw with hw | hw
  · obtain ⟨cl, _, rfl⟩ := List.mem_map.1 hw
    intro b; exact cell_write_length cl b _ countWriter_length
  · obtain ⟨fv, _, hw⟩ := List.mem_flatMap.1 hw
    unfold fieldWriters at hw
    rw [List.mem_append] at hw
    rcases hw with hw | hw
    · unfold Collation.contWriters at hw
      split at hw
      · simp at hw
      · split at hw
        · rw [List.mem_singleton] at hw; subst hw; intro b; rfl
        · obtain ⟨cl, _, rfl⟩ := List.mem_map.1 hw
          intro b; exact cell_write_length cl b _ fun d => contWriterFn_length _ d _ _
    · unfold Collation.discWriters at hw
      split at hw
      · simp at hw
      · obtain ⟨cl, _, rfl⟩ := List.mem_map.1 hw
        intro b; exact cell_write_length cl b _ fun d => discWriterFn_length _ d _ _

/-! ### the functions exist -/

/-- writing all bytes in order -/
def rewrite (f : Bytes → Bool → Wrote) : CFn := fun d init =>
  ((f d init).1.zipIdx.map fun p => (p.2, p.1), ending (f d init).2)

theorem set_zipIdx (new : Bytes) : ∀ (n : Nat) (d : Bytes), n + new.length ≤ d.length →
    ((new.zipIdx n).map fun p => (p.2, p.1)).foldl (fun b w => b.set w.1 w.2) d = d.take n ++ new ++ d.drop (n + new.length) := by
  induction new with
  | nil => intro n d h; simp
  | cons x new ih =>
    intro n d h
    rw [List.length_cons] at h
    rw [List.zipIdx_cons, List.map_cons, List.foldl_cons, ih (n + 1) _ (by rw [List.length_set]; omega)]
    simp only [List.length_cons]
    rw [List.drop_set, if_pos (by omega), List.take_set, List.take_add_one]
    rw [List.getElem?_eq_getElem (by omega)]
    simp only [Option.toList_some]
    rw [List.set_append_right _ _ (by simp)]
    simp [List.length_take, Nat.min_eq_left (show n ≤ d.length by omega)]
    congr 1; omega

theorem performs_rewrite (lib : Lib) (c : Collator) (r : Row) : Performs lib c r (rewrite (Collation.update lib c r)) := by
  intro d init hd
  have hlen := update_len lib c r d init
  refine ⟨?_, ?_, rfl⟩
  · intro w hw
    obtain ⟨⟨v, j⟩, hp, rfl⟩ := List.mem_map.1 hw
    have := (List.mem_zipIdx hp).2.1
    simp only at this ⊢
    omega
  · unfold rewrite
    simp only
    rw [set_zipIdx _ 0 d (by omega)]
    simp [hlen]

theorem performs_fnOf {lib : Lib} {c : Collator} {r : Row} {fn : CFn} (h : Performs lib c r fn) :
    FnOf c.size.toNat fn (Storage.transaction lib c r) := by
  intro d init hd
  obtain ⟨h1, h2, h3⟩ := h d init hd
  refine ⟨fun w hw => by have := h1 w hw; omega, ?_, ?_⟩
  · rw [h2]
    unfold Storage.transaction Bufmap.overwrite
    have hlen := update_len lib c r d init
    rw [hlen, List.drop_length, List.append_nil, List.take_of_length_le (by omega)]
  · rw [h3]; unfold ending Storage.transaction
    cases (Collation.update lib c r d init).2 <;> rfl

/-! ### lifting -/

theorem step_rets {l s t : Nat} {σ σ' : BufmapConc.State} (h : BufmapConc.step l s σ t = some σ') :
    σ'.rets = σ.rets ∨ ∃ r, σ'.rets = σ.rets ++ [r] := by
  cases step_eff h with
  | full => exact .inr ⟨_, rfl⟩
  | wret => exact .inr ⟨_, rfl⟩
  | miss => exact .inr ⟨_, rfl⟩
  | rdone => exact .inr ⟨_, rfl⟩
  | _ => exact .inl rfl

theorem alone_lift {lib : Lib} {c : Collator} {l t : Nat} {m m' : BufmapConc.State} (h : Alone l c.size.toNat t m m') (calls : List Call) :
    Steps lib c l ⟨m, calls⟩ ⟨m', calls⟩ := by
  induction h with
  | refl _ => exact .refl _
  | head h1 _ ih => exact Steps.trans (.tail (.refl _) (.step _ t _ h1)) ih

end Starbow.StoreConc
