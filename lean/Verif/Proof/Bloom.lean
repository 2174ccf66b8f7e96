import Verif.Model.Bloom
import Verif.Proof.Bitbucket
/- Helper lemmas about the bloom filter model. -/
namespace Starbow.Bloom
open Starbow Starbow.Bitbucket Spec

/-- the bit positions produced by `c` calls of `next` (for `h.m ≥ 1`) -/
def positions (h : Hasher) : Nat → List Nat
  | 0 => []
  | c + 1 => (h.a.toNat % h.m.toNat) ::
      positions { h with a := (h.a + h.b) % BitVec.ofInt 64 h.m } c

theorem next_eq {h : Hasher} (h1 : 1 ≤ h.m) (h2 : h.m < 2 ^ 63) :
    next h = .val (h.a % BitVec.ofInt 64 h.m, { h with a := (h.a + h.b) % BitVec.ofInt 64 h.m }) ∧
      (h.a % BitVec.ofInt 64 h.m).toInt = ((h.a.toNat % h.m.toNat : Nat) : Int) := by
  obtain ⟨m, hm⟩ := Int.eq_ofNat_of_zero_le (by omega : 0 ≤ h.m)
  have ht : (BitVec.ofInt 64 h.m).toNat = m := by
    rw [hm, BitVec.ofInt_natCast, BitVec.toNat_ofNat]; omega
  constructor
  · unfold next
    simp only
    rw [if_neg]
    intro hz
    rw [hz] at ht
    simp at ht; omega
  · have hlt : (h.a % BitVec.ofInt 64 h.m).toNat = h.a.toNat % m := by
      rw [BitVec.toNat_umod, ht]
    have : h.a.toNat % m < m := Nat.mod_lt _ (by omega)
    rw [BitVec.toInt_eq_toNat_of_lt (by omega), hlt, hm]
    rfl

theorem positions_lt {m : Int} (h1 : 1 ≤ m) : ∀ (c : Nat) (h : Hasher), h.m = m →
    ∀ x ∈ positions h c, (x : Int) < m := by
  intro c
  induction c with
  | zero => intro h _ x hx; simp [positions] at hx
  | succ c ih =>
    intro h hm x hx
    simp only [positions, List.mem_cons] at hx
    rcases hx with rfl | hx
    · have := Nat.mod_lt h.a.toNat (by omega : h.m.toNat > 0)
      omega
    · exact ih { h with a := (h.a + h.b) % BitVec.ofInt 64 h.m } hm x hx

theorem positions_length : ∀ (c : Nat) (h : Hasher), (positions h c).length = c := by
  intro c
  induction c with
  | zero => intro h; rfl
  | succ c ih => intro h; simp [positions, ih]

theorem newHasher_m (v : Bytes) {m : Int} (h : 1 ≤ m) :
    1 ≤ (newHasher v m).m ∧ (newHasher v m).m ≤ m := by
  unfold newHasher
  simp only
  split <;> simp only
  · omega
  · split <;> omega

/-- set one bit -/
def setBit (d : Bytes) (i : Nat) : Bytes := putField d i 1 1#16

theorem setBit_length (d : Bytes) (i : Nat) : (setBit d i).length = d.length := putField_length _ _ _ _

theorem setBit_bit (d : Bytes) (i j : Nat) (hi : i < 8 * d.length) (hj : j < 8 * d.length) :
    bitAt (setBit d i) j = (decide (j = i) || bitAt d j) := by
  unfold setBit
  rw [putField_bit _ _ _ _ _ (by omega) (by omega) (by omega) hj (by decide)]
  by_cases h : j = i
  · subst h
    rw [if_pos (by omega), show 1 - 1 - (j - j) = 0 by omega]
    simp
  · rw [if_neg (by omega)]; simp [h]

theorem foldl_setBit_length (ps : List Nat) (d : Bytes) : (ps.foldl setBit d).length = d.length := by
  induction ps generalizing d with
  | nil => rfl
  | cons p ps ih => rw [List.foldl_cons, ih, setBit_length]

theorem foldl_setBit_bit (ps : List Nat) (d : Bytes) (j : Nat) (hp : ∀ p ∈ ps, p < 8 * d.length)
    (hj : j < 8 * d.length) :
    bitAt (ps.foldl setBit d) j = (decide (j ∈ ps) || bitAt d j) := by
  induction ps generalizing d with
  | nil => simp
  | cons p ps ih =>
    rw [List.foldl_cons, ih _ (by rw [setBit_length]; exact fun q hq => hp q (by simp [hq]))
      (by rw [setBit_length]; exact hj), setBit_bit _ _ _ (hp p (by simp)) hj]
    by_cases h1 : j = p <;> by_cases h2 : j ∈ ps <;> simp [h1, h2]

/-- data strings are determined by their bits -/
theorem bytes_ext {d d' : Bytes} (hl : d.length = d'.length)
    (h : ∀ j, j < 8 * d.length → bitAt d j = bitAt d' j) : d = d' := by
  apply List.ext_getElem hl
  intro i h1 h2
  have e1 : d.getD i 0#8 = d[i] := by
    rw [List.getD_eq_getElem?_getD, List.getElem?_eq_getElem h1]; rfl
  have e2 : d'.getD i 0#8 = d'[i] := by
    rw [List.getD_eq_getElem?_getD, List.getElem?_eq_getElem h2]; rfl
  apply BitVec.eq_of_getMsbD_eq
  intro k hk
  have := h (8 * i + k) (by omega)
  unfold bitAt at this
  have e3 : (8 * i + k) / 8 = i := by omega
  have e4 : (8 * i + k) % 8 = k := by omega
  rw [e3, e4, e1, e2] at this
  exact this

/-- a filter whose bucket is a well-formed width-1 bucket of `m ≥ 1` bits -/
structure WF (b : Filter) : Prop where
  bits : Bitbucket.WF b.bits
  w : b.bits.w = 1#8
  n : b.bits.n = b.m
  m : 1 ≤ b.m

theorem WF.m_lt {b : Filter} (h : WF b) : b.m < 2 ^ 63 := by rw [← h.n]; exact n_lt h.bits

theorem pos_bound {b : BB} (hb : Bitbucket.WF b) (hw : b.w = 1#8) {x : Nat} (hx : (x : Int) < b.n) :
    x < 8 * b.data.length := by
  have := bucket_end hb (i := x) (by omega)
  rw [hw] at this
  have e : (1#8).toNat = 1 := rfl
  rw [e] at this; omega

theorem set1_eq {b : BB} (hb : Bitbucket.WF b) (hw : b.w = 1#8) {x : Nat} (hx : (x : Int) < b.n) :
    Bitbucket.set b (x : Int) 1#8 = .val { b with data := setBit b.data x } := by
  have hv : ((if (1#8 : Byte) > max8 1#8 then max8 1#8 else 1#8).setWidth 16 : BitVec 16) = 1#16 := by
    decide
  have e : (1#8).toNat = 1 := rfl
  rw [set_eq hb (by omega), hw, hv, e, Nat.mul_one]
  rfl

theorem get1_eq {b : BB} (hb : Bitbucket.WF b) (hw : b.w = 1#8) {x : Nat} (hx : (x : Int) < b.n) :
    ∃ g, Bitbucket.get b (x : Int) = .val g ∧ ((g = 1#8) ↔ bitAt b.data x = true) := by
  have e : (1#8).toNat = 1 := rfl
  refine ⟨_, get_eq hb (by omega), ?_⟩
  rw [hw, e, Nat.mul_one]
  constructor
  · intro h
    have := field_bit b.data x 1 0 (by omega) (by omega) (by omega)
    rw [h] at this
    simpa using this.symm
  · intro h
    apply BitVec.eq_of_getLsbD_eq
    intro t ht
    rw [field_bit _ _ _ _ (by omega) (by omega) ht]
    by_cases h0 : t = 0
    · subst h0; simpa using h
    · rw [decide_eq_false (by omega)]
      have : ∀ t < 8, t ≠ 0 → (1#8).getLsbD t = false := by decide
      rw [this t ht h0]; rfl

theorem addLoop_eq : ∀ (c : Nat) (h : Hasher) (b : BB), Bitbucket.WF b → b.w = 1#8 → 1 ≤ h.m → h.m ≤ b.n →
    addLoop b h c = .val { b with data := (positions h c).foldl setBit b.data } := by
  intro c
  induction c with
  | zero => intro h b _ _ _ _; rfl
  | succ c ih =>
    intro h b hb hw h1 h2
    have hlt := n_lt hb
    obtain ⟨e1, e2⟩ := next_eq h1 (by omega)
    have hx : ((h.a.toNat % h.m.toNat : Nat) : Int) < b.n := by
      have := positions_lt (m := h.m) h1 (c + 1) h rfl (h.a.toNat % h.m.toNat) (by simp [positions])
      omega
    rw [addLoop, e1]
    simp only [Out.bind_val]
    rw [e2, set1_eq hb hw hx]
    simp only [Out.bind_val]
    rw [ih { h with a := (h.a + h.b) % BitVec.ofInt 64 h.m } { b with data := setBit b.data (h.a.toNat % h.m.toNat) }
      ⟨hb.w0, hb.w8, hb.n0, hb.fits, by simp only [setBit_length]; exact hb.len⟩ hw h1 h2]
    simp [positions]

theorem hasLoop_eq : ∀ (c : Nat) (h : Hasher) (b : BB), Bitbucket.WF b → b.w = 1#8 → 1 ≤ h.m → h.m ≤ b.n →
    hasLoop b h c = .val ((positions h c).all fun p => bitAt b.data p) := by
  intro c
  induction c with
  | zero => intro h b _ _ _ _; rfl
  | succ c ih =>
    intro h b hb hw h1 h2
    have hlt := n_lt hb
    obtain ⟨e1, e2⟩ := next_eq h1 (by omega)
    have hx : ((h.a.toNat % h.m.toNat : Nat) : Int) < b.n := by
      have := positions_lt (m := h.m) h1 (c + 1) h rfl (h.a.toNat % h.m.toNat) (by simp [positions])
      omega
    obtain ⟨g, eg, hg⟩ := get1_eq hb hw hx
    rw [hasLoop, e1]
    simp only [Out.bind_val]
    rw [e2, eg]
    simp only [Out.bind_val]
    by_cases h1' : g = 1#8
    · rw [if_neg (by simpa using h1')]
      rw [ih { h with a := (h.a + h.b) % BitVec.ofInt 64 h.m } _ hb hw h1 h2, positions, List.all_cons, hg.mp h1', Bool.true_and]
    · rw [if_pos h1']
      have : bitAt b.data (h.a.toNat % h.m.toNat) = false := by
        cases hbt : bitAt b.data (h.a.toNat % h.m.toNat) with
        | false => rfl
        | true => exact absurd (hg.mpr hbt) h1'
      rw [positions, List.all_cons, this, Bool.false_and]
      rfl

/-- the positions of a value in a filter -/
def posOf (b : Filter) (v : Bytes) : List Nat := positions (newHasher v b.m) b.k.toNat

theorem posOf_bound {b : Filter} (hb : WF b) (v : Bytes) : ∀ p ∈ posOf b v, p < 8 * b.bits.data.length := by
  intro p hp
  have h1 := newHasher_m v hb.m
  have := positions_lt h1.1 _ _ rfl p hp
  exact pos_bound hb.bits hb.w (by rw [hb.n]; omega)

theorem add_eq {b : Filter} (hb : WF b) (v : Bytes) :
    add b v = .val { b with bits := { b.bits with data := (posOf b v).foldl setBit b.bits.data } } := by
  have h1 := newHasher_m v hb.m
  unfold add
  rw [addLoop_eq _ _ _ hb.bits hb.w h1.1 (by rw [hb.n]; exact h1.2)]
  rfl

theorem has_eq {b : Filter} (hb : WF b) (v : Bytes) :
    has b v = .val ((posOf b v).all fun p => bitAt b.bits.data p) := by
  have h1 := newHasher_m v hb.m
  unfold has
  rw [hasLoop_eq _ _ _ hb.bits hb.w h1.1 (by rw [hb.n]; exact h1.2)]
  rfl

theorem WF.withData {b : Filter} (hb : WF b) (d : Bytes) (hd : d.length = b.bits.data.length) :
    WF { b with bits := { b.bits with data := d } } :=
  ⟨⟨hb.bits.w0, hb.bits.w8, hb.bits.n0, hb.bits.fits, by simp only; rw [hd]; exact hb.bits.len⟩,
    hb.w, hb.n, hb.m⟩

/-- a sequence of Add calls -/
def addAll (b : Filter) : List Bytes → Out Filter
  | [] => .val b
  | v :: vs => do
    let b' ← add b v
    addAll b' vs

theorem addAll_eq (vs : List Bytes) : ∀ {b : Filter}, WF b →
    addAll b vs = .val { b with bits := { b.bits with data := ((vs.flatMap (posOf b)).foldl setBit b.bits.data) } } := by
  induction vs with
  | nil => intro b _; rfl
  | cons v vs ih =>
    intro b hb
    rw [addAll, add_eq hb v, Out.bind_val, ih (hb.withData _ (foldl_setBit_length _ _))]
    simp only [List.flatMap_cons, List.foldl_append]
    rfl

end Starbow.Bloom
