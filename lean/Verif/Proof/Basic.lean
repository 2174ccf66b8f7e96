import Verif.Model.Basic
/- Helper lemmas about little-endian encoding, slices and splices. -/
namespace Starbow

@[simp] theorem le64_length (x : U64) : (le64 x).length = 8 := by simp [le64]

theorem le64_getD (x : U64) (i : Nat) (h : i < 8) : (le64 x).getD i 0#8 = (x >>> (8 * i)).setWidth 8 := by
  simp [le64, List.getD_eq_getElem?_getD, h]

theorem leU64_fold_bit (b : Bytes) : ∀ m k : Nat, m ≤ 8 → k < 64 →
    ((List.range m).foldl (fun acc i => acc ||| ((b.getD i 0).setWidth 64 <<< (8 * i))) (0 : U64)).getLsbD k
      = (decide (k < 8 * m) && (b.getD (k / 8) 0#8).getLsbD (k % 8)) := by
  intro m
  induction m with
  | zero => intro k _ _; simp
  | succ m ih =>
    intro k hm hk
    rw [List.range_succ, List.foldl_append, List.foldl_cons, List.foldl_nil, BitVec.getLsbD_or,
      ih k (by omega) hk, BitVec.getLsbD_shiftLeft, BitVec.getLsbD_setWidth]
    by_cases h1 : k < 8 * m
    · simp [h1, show k < 8 * (m + 1) by omega]
    · by_cases h2 : k < 8 * (m + 1)
      · have e1 : k / 8 = m := by omega
        have e2 : k - 8 * m = k % 8 := by omega
        simp [h1, h2, e1, e2, hk]; omega
      · have e := BitVec.getLsbD_of_ge (b.getD m 0#8) (k - 8 * m) (by omega)
        rw [show (b.getD m 0) = b.getD m 0#8 from rfl, e]
        simp [h1, h2]

theorem leU64_bit (b : Bytes) (k : Nat) (hk : k < 64) :
    (leU64 b).getLsbD k = (b.getD (k / 8) 0#8).getLsbD (k % 8) := by
  unfold leU64
  rw [leU64_fold_bit b 8 k (by omega) hk]
  simp [show k < 64 by omega]

theorem leU64_le64_append (x : U64) (rest : Bytes) : leU64 (le64 x ++ rest) = x := by
  apply BitVec.eq_of_getLsbD_eq
  intro k hk
  rw [leU64_bit _ _ hk]
  have : (le64 x ++ rest).getD (k / 8) 0#8 = (le64 x).getD (k / 8) 0#8 := by
    rw [List.getD_eq_getElem?_getD, List.getD_eq_getElem?_getD, List.getElem?_append_left (by simp; omega)]
  rw [this, le64_getD _ _ (by omega), BitVec.getLsbD_setWidth, BitVec.getLsbD_ushiftRight]
  simp [show k % 8 < 8 by omega]
  congr 1; omega

@[simp] theorem leU64_le64 (x : U64) : leU64 (le64 x) = x := by
  simpa using leU64_le64_append x []

/-- the eight bytes are determined by the integer -/
theorem le64_leU64 (b : Bytes) (h : b.length = 8) : le64 (leU64 b) = b := by
  apply List.ext_getElem
  · simp [h]
  · intro i h1 h2
    have h1' : i < 8 := by simpa using h1
    have : (le64 (leU64 b)).getD i 0#8 = (le64 (leU64 b))[i]'h1 := by
      rw [List.getD_eq_getElem?_getD, List.getElem?_eq_getElem h1]; rfl
    refine Eq.trans this.symm ?_
    rw [le64_getD _ _ h1']
    apply BitVec.eq_of_getLsbD_eq
    intro k hk
    rw [BitVec.getLsbD_setWidth, BitVec.getLsbD_ushiftRight, leU64_bit _ _ (by omega)]
    have e1 : (8 * i + k) / 8 = i := by omega
    have e2 : (8 * i + k) % 8 = k := by omega
    rw [e1, e2, List.getD_eq_getElem?_getD, List.getElem?_eq_getElem h2]
    simp [hk]

theorem splice_length {α : Type} (b : List α) (lo : Nat) (v : List α) (h : lo + v.length ≤ b.length) :
    (splice b lo v).length = b.length := by
  unfold splice; simp; omega

theorem slice_length {α : Type} (b : List α) (lo hi : Nat) (h : hi ≤ b.length) :
    (slice b lo hi).length = hi - lo := by
  unfold slice; simp; omega

theorem slice_getElem? {α : Type} (b : List α) (lo hi i : Nat) :
    (slice b lo hi)[i]? = if i < hi - lo then b[lo + i]? else none := by
  unfold slice
  rw [List.getElem?_take, List.getElem?_drop]

theorem splice_getElem? {α : Type} (b : List α) (lo : Nat) (v : List α) (h : lo + v.length ≤ b.length)
    (i : Nat) :
    (splice b lo v)[i]? = if i < lo then b[i]? else if i < lo + v.length then v[i - lo]? else b[i]? := by
  unfold splice
  have hl : (b.take lo).length = lo := by simp; omega
  rw [List.append_assoc]
  by_cases h1 : i < lo
  · rw [List.getElem?_append_left (by omega), if_pos h1, List.getElem?_take, if_pos h1]
  · rw [List.getElem?_append_right (by omega), if_neg h1, hl]
    by_cases h2 : i < lo + v.length
    · rw [List.getElem?_append_left (by omega), if_pos h2]
    · rw [List.getElem?_append_right (by omega), if_neg h2, List.getElem?_drop]
      congr 1; omega

/-- reading the region just written -/
theorem slice_splice_same {α : Type} (b : List α) (lo : Nat) (v : List α) (h : lo + v.length ≤ b.length) :
    slice (splice b lo v) lo (lo + v.length) = v := by
  apply List.ext_getElem?
  intro i
  rw [slice_getElem?, splice_getElem? _ _ _ h]
  by_cases hi : i < v.length
  · rw [if_pos (by omega), if_neg (by omega), if_pos (by omega)]; congr 1; omega
  · rw [List.getElem?_eq_none (by omega : v.length ≤ i)]; simp [hi]

/-- reading a region disjoint from the one written -/
theorem slice_splice_disjoint {α : Type} (b : List α) (lo : Nat) (v : List α) (l h : Nat)
    (hl : lo + v.length ≤ b.length) (hd : h ≤ lo ∨ lo + v.length ≤ l) :
    slice (splice b lo v) l h = slice b l h := by
  apply List.ext_getElem?
  intro i
  rw [slice_getElem?, slice_getElem?]
  split
  · rw [splice_getElem? _ _ _ hl]
    split
    · rfl
    · rw [if_neg (by omega)]
  · rfl

/-- a nested slice -/
theorem slice_slice {α : Type} (b : List α) (l h l' h' : Nat) (hh : l + h' ≤ h) :
    slice (slice b l h) l' h' = slice b (l + l') (l + h') := by
  apply List.ext_getElem?
  intro i
  simp only [slice_getElem?]
  by_cases hi : i < h' - l'
  · rw [if_pos hi, if_pos (by omega), if_pos (by omega)]; congr 1; omega
  · rw [if_neg hi, if_neg (by omega)]

theorem slice_all {α : Type} (b : List α) : slice b 0 b.length = b := by simp [slice]

end Starbow
