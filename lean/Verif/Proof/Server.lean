import Verif.Spec.Server
/-
Lemmas about the parsing of observation lines.
-/
namespace Starbow.Server
open Starbow Starbow.Collation Starbow.Spec

theorem indexByte_none {s : Bytes} {c : Byte} (h : indexByte s c = none) : c ∉ s := by
  induction s with
  | nil => simp
  | cons b s ih =>
    rw [indexByte] at h
    split at h
    · simp at h
    · next hb =>
      rw [Option.map_eq_none_iff] at h
      simp [ih h, Ne.symm hb]

theorem indexByte_some {s : Bytes} {c : Byte} {i : Nat} (h : indexByte s c = some i) : ∃ a r, s = a ++ c :: r ∧ a.length = i ∧ c ∉ a := by
  induction s generalizing i with
  | nil => simp [indexByte] at h
  | cons b s ih =>
    rw [indexByte] at h
    split at h
    · next hb =>
      simp only [Option.some.injEq] at h
      exact ⟨[], s, by rw [hb]; rfl, by simpa using h, by simp⟩
    · next hb =>
      rw [Option.map_eq_some_iff] at h
      obtain ⟨j, hj, rfl⟩ := h
      obtain ⟨a, r, e, hl, hn⟩ := ih hj
      exact ⟨b :: a, r, by rw [e]; rfl, by simp [hl], by simp [hn, Ne.symm hb]⟩

theorem indexByte_append {a r : Bytes} {c : Byte} (h : c ∉ a) : indexByte (a ++ c :: r) c = some a.length := by
  induction a with
  | nil => simp [indexByte]
  | cons b a ih =>
    simp only [List.mem_cons, not_or] at h
    rw [List.cons_append, indexByte, if_neg (Ne.symm h.1), ih h.2]
    rfl

theorem indexByte_not_mem {s : Bytes} {c : Byte} (h : c ∉ s) : indexByte s c = none := by
  cases e : indexByte s c with
  | none => rfl
  | some i =>
    obtain ⟨a, r, e1, _⟩ := indexByte_some e
    rw [e1] at h
    simp at h

theorem slice_mid (a b c : Bytes) : slice (a ++ (b ++ c)) a.length (a.length + b.length) = b := by
  simp [slice]

theorem sub_prefix (a b : Bytes) : sub (a ++ b) 0 a.length = .val a := by
  rw [sub, if_pos (by simp)]
  simp [slice]

theorem sub_suffix (a b : Bytes) : sub (a ++ b) a.length (a ++ b).length = .val b := by
  rw [sub, if_pos (by simp)]
  simp [slice]

theorem sub_mid (a b c : Bytes) : sub (a ++ (b ++ c)) a.length (a.length + b.length) = .val b := by
  rw [sub, if_pos (by simp), slice_mid]

theorem fieldOf_eq {a r : Bytes} (h : 0x3d ∉ a) : fieldOf (a ++ 0x3d :: r) = ⟨a, r⟩ := by
  have h' : ∀ x ∈ a, (decide (x ≠ 0x3d)) = true := by
    intro x hx
    simp only [decide_eq_true_eq]
    rintro rfl
    exact h hx
  unfold fieldOf
  rw [List.takeWhile_append_of_pos h', List.dropWhile_append_of_pos h']
  simp

theorem fieldOf_none {a : Bytes} (h : 0x3d ∉ a) : fieldOf a = ⟨a, []⟩ := by
  have h' : ∀ x ∈ a, (decide (x ≠ 0x3d)) = true := by
    intro x hx
    simp only [decide_eq_true_eq]
    rintro rfl
    exact h hx
  unfold fieldOf
  have e1 := List.takeWhile_append_of_pos (l₂ := []) h'
  have e2 := List.dropWhile_append_of_pos (l₂ := []) h'
  rw [List.append_nil] at e1 e2
  rw [e1, e2]
  simp

theorem parseFV_eq (t : Bytes) : parseFV t = .val (fieldOf t) := by
  unfold parseFV
  split
  · next h => rw [fieldOf_none (indexByte_none h)]
  · next i h =>
    obtain ⟨a, r, rfl, rfl, hn⟩ := indexByte_some h
    rw [sub_prefix, fieldOf_eq hn]
    have := sub_suffix (a ++ [0x3d]) r
    simp only [List.append_assoc, List.singleton_append, List.length_append, List.length_cons, List.length_nil, Nat.zero_add] at this
    simp only [List.length_append, List.length_cons]
    rw [this]
    rfl

/-- the pieces between the delimiters -/
def pieces (d : Byte) : Bytes → List Bytes
  | [] => [[]]
  | b :: s => if b = d then [] :: pieces d s else
    match pieces d s with
    | [] => [[b]]
    | e :: es => (b :: e) :: es

theorem pieces_not_mem {d : Byte} {s : Bytes} (h : d ∉ s) : pieces d s = [s] := by
  induction s with
  | nil => rfl
  | cons b s ih =>
    simp only [List.mem_cons, not_or] at h
    rw [pieces, if_neg (Ne.symm h.1), ih h.2]

theorem pieces_append {d : Byte} {a s : Bytes} (h : d ∉ a) : pieces d (a ++ d :: s) = a :: pieces d s := by
  induction a with
  | nil => simp [pieces]
  | cons b a ih =>
    simp only [List.mem_cons, not_or] at h
    rw [List.cons_append, pieces, if_neg (Ne.symm h.1), ih h.2]

theorem pieces_spec (d : Byte) (s : Bytes) : (pieces d s).flatMap (d :: ·) = d :: s ∧ (∀ t ∈ pieces d s, d ∉ t) ∧ pieces d s ≠ [] := by
  induction s with
  | nil => simp [pieces]
  | cons b s ih =>
    rw [pieces]
    split
    · next hb =>
      refine ⟨by rw [List.flatMap_cons, ih.1, hb]; rfl, ?_, by simp⟩
      intro t ht
      rcases List.mem_cons.1 ht with rfl | ht
      · simp
      · exact ih.2.1 t ht
    · next hb =>
      cases hp : pieces d s with
      | nil => exact absurd hp ih.2.2
      | cons e es =>
        rw [hp] at ih
        obtain ⟨h1, h2, _⟩ := ih
        refine ⟨?_, ?_, by simp⟩
        · simp only [List.flatMap_cons, List.cons_append, List.cons.injEq, true_and] at h1 ⊢
          exact h1
        · intro t ht
          rcases List.mem_cons.1 ht with rfl | ht
          · simp [h2 e (by simp), Ne.symm hb]
          · exact h2 t (by simp [ht])

theorem pieces_unique {d : Byte} : ∀ (ts : List Bytes) (s : Bytes), (∀ t ∈ ts, d ∉ t) → ts.flatMap (d :: ·) = d :: s → pieces d s = ts
  | [], s, _, e => by simp at e
  | [t], s, h, e => by
    simp only [List.flatMap_cons, List.flatMap_nil, List.append_nil, List.cons.injEq, true_and] at e
    rw [← e, pieces_not_mem (h t (by simp))]
  | t :: t' :: ts, s, h, e => by
    have ih := pieces_unique (t' :: ts) (t' ++ ts.flatMap (d :: ·)) (fun x hx => h x (by simp at hx ⊢; tauto)) (by simp)
    rw [List.flatMap_cons] at e
    simp only [List.cons_append, List.cons.injEq, true_and] at e
    rw [← e, List.flatMap_cons, List.cons_append, pieces_append (h t (by simp)), ih]

theorem fieldsLoop_eq (data : Bytes) (d : Byte) : ∀ (n p : Nat) (acc : List FV), data.length - p ≤ n → p ≤ data.length →
    fieldsLoop data d p acc = .val (acc ++ (pieces d (data.drop p)).map fieldOf) := by
  intro n
  induction n with
  | zero =>
    intro p acc hn hp
    rw [fieldsLoop, dif_pos hp, List.drop_of_length_le (by omega)]
    simp [indexByte, pieces, parseFV_eq]
  | succ n ih =>
    intro p acc hn hp
    rw [fieldsLoop, dif_pos hp]
    split
    · next h =>
      rw [pieces_not_mem (indexByte_none h), parseFV_eq]
      simp
    · next i h =>
      obtain ⟨a, r, e, rfl, hn'⟩ := indexByte_some h
      have hl := congrArg List.length e
      simp only [List.length_drop, List.length_append, List.length_cons] at hl
      have hdata : data = data.take p ++ (a ++ d :: r) := by rw [← e, List.take_append_drop]
      have hlen : (data.take p).length = p := by rw [List.length_take]; omega
      have hs : sub data p (p + a.length) = .val a := by
        have := sub_mid (data.take p) a (d :: r)
        rw [← hdata, hlen] at this
        exact this
      rw [hs]
      simp only [Out.bind_val, parseFV_eq]
      rw [ih _ _ (by omega) (by omega)]
      have hd : data.drop (p + a.length + 1) = r := by
        rw [show p + a.length + 1 = p + (a.length + 1) by omega, ← List.drop_drop, e, List.drop_append]
        simp
      rw [hd, e, pieces_append hn']
      simp

/-- the loop over the digits -/
theorem digitsLoop_eq (data : Bytes) (m : Nat) (hm : m ≤ data.length) : ∀ n p, m - p ≤ n → p ≤ m →
    digitsLoop data m p = .val (p + (((data.drop p).takeWhile fun b => Digit b).take (m - p)).length) := by
  intro n
  induction n with
  | zero =>
    intro p hn hp
    rw [digitsLoop, if_neg (by omega)]
    simp [show m - p = 0 by omega]
  | succ n ih =>
    intro p hn hp
    rw [digitsLoop]
    split
    · next h =>
      have hp' : p < data.length := by omega
      rw [at?, List.getElem?_eq_getElem hp', List.drop_eq_getElem_cons hp', List.takeWhile_cons]
      simp only [Out.bind_val]
      split
      · next hb =>
        have : ¬ Digit data[p] := by
          unfold Digit
          intro ⟨h1, h2⟩
          rcases hb with hb | hb
          · exact absurd h1 (BitVec.not_le.2 hb)
          · exact absurd h2 (BitVec.not_le.2 hb)
        simp [this]
      · next hb =>
        have : Digit data[p] := by
          unfold Digit
          simp only [not_or] at hb
          exact ⟨BitVec.not_lt.1 hb.1, BitVec.not_lt.1 hb.2⟩
        rw [ih (p + 1) (by omega) (by omega)]
        simp only [this, decide_true, if_true]
        rw [show m - p = (m - (p + 1)) + 1 by omega, List.take_succ_cons, List.length_cons]
        congr 1
        omega
    · next h =>
      simp [show m - p = 0 by omega]

theorem takeWhile_split (p : Byte → Bool) (s : Bytes) : ∃ r, s = s.takeWhile p ++ r := ⟨_, (List.takeWhile_append_dropWhile (p := p)).symm⟩

theorem leading_prefix (data : Bytes) : ∃ r, data = leadingDigits data ++ r := by
  obtain ⟨r, h⟩ := takeWhile_split (fun b => decide (Digit b)) data
  refine ⟨(data.takeWhile fun b => decide (Digit b)).drop 20 ++ r, ?_⟩
  unfold leadingDigits
  rw [← List.append_assoc, List.take_append_drop]
  exact h

theorem digits_of_data (data : Bytes) : digitsLoop data (timestampMax data) 0 = .val (leadingDigits data).length := by
  rw [digitsLoop_eq data (timestampMax data) (by unfold timestampMax; split <;> omega) (timestampMax data) 0 (by omega) (by omega)]
  unfold leadingDigits timestampMax
  have hl : (data.takeWhile fun b => decide (Digit b)).length ≤ data.length := by
    obtain ⟨r, h⟩ := takeWhile_split (fun b => decide (Digit b)) data
    have := congrArg List.length h
    rw [List.length_append] at this
    omega
  simp only [List.drop_zero, Nat.sub_zero, Nat.zero_add, List.length_take]
  split
  · congr 1; omega
  · rfl

theorem decimal_acc (s : Bytes) : ∀ n, s.foldl (fun n b => n * 10 + (b.toNat - 0x30)) n = n * 10 ^ s.length + decimalValue s := by
  induction s with
  | nil => intro n; simp [decimalValue]
  | cons b s ih =>
    intro n
    rw [List.foldl_cons, ih, decimalValue, List.length_cons, Nat.pow_succ, Nat.add_mul, Nat.mul_assoc, Nat.mul_comm 10, Nat.add_assoc]

theorem decimal_eq (s : Bytes) : decimal s = decimalValue s := by
  unfold decimal
  rw [decimal_acc]
  simp

/-- the fields in what follows the timestamp -/
def fieldsIn : Bytes → List FV
  | [] => []
  | d :: r => (pieces d r).map fieldOf

/-- what `parseRow` computes, in one formula -/
theorem parseRow_eq (data : Bytes) : parseRow data = .val
    (if leadingDigits data = [] then .error .missingTimestamp
     else if decimalValue (leadingDigits data) ≥ 2 ^ 63 then .error .atoi
     else .ok ⟨wrap64 ((decimalValue (leadingDigits data) : Int) * 1000), fieldsIn (data.drop (leadingDigits data).length)⟩) := by
  unfold parseRow
  rw [digits_of_data]
  simp only [Out.bind_val]
  obtain ⟨r, hr⟩ := leading_prefix data
  by_cases h0 : leadingDigits data = []
  · rw [if_pos h0, if_pos (by rw [h0]; rfl)]
    rfl
  · rw [if_neg h0, if_neg (by simpa using h0)]
    have hs : sub data 0 (leadingDigits data).length = .val (leadingDigits data) := by
      have := sub_prefix (leadingDigits data) r
      rw [← hr] at this
      exact this
    rw [hs]
    simp only [Out.bind_val]
    unfold atoi
    rw [decimal_eq]
    by_cases hv : decimalValue (leadingDigits data) ≥ 2 ^ 63
    · rw [if_pos hv, if_neg (by unfold maxInt64; omega)]
      rfl
    · rw [if_neg hv, if_pos (by unfold maxInt64; omega)]
      simp only
      have hd : data.drop (leadingDigits data).length = r := by
        have := congrArg (List.drop (leadingDigits data).length) hr
        rw [List.drop_left] at this
        exact this
      have hlen := congrArg List.length hr
      rw [List.length_append] at hlen
      rw [hd]
      cases r with
      | nil =>
        rw [if_pos (by simpa using hlen.symm)]
        rfl
      | cons d r =>
        rw [List.length_cons] at hlen
        rw [if_neg (by omega)]
        have ha : at? data (leadingDigits data).length = .val d := by
          unfold at?
          have : data[(leadingDigits data).length]? = some d := by
            rw [← List.head?_drop, hd]; rfl
          rw [this]
        rw [ha]
        simp only [Out.bind_val]
        rw [fieldsLoop_eq data d data.length _ _ (by omega) (by omega)]
        have hd1 : data.drop ((leadingDigits data).length + 1) = r := by
          rw [← List.drop_drop, hd]; rfl
        rw [hd1]
        rfl

end Starbow.Server
