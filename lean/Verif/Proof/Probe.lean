import Verif.Model.Probe
/- Linear probing: the invariant that makes every key unique, and what lookup and claim find. -/
namespace Starbow.Probe

/-- every key in the table was placed at one of its candidate positions, after passing over positions that
are (still) held by other keys -/
def KeyInv (l : Nat) (keys : Nat → U64) : Prop :=
  ∀ x, x < l → keys x ≠ 0 → ∃ j, j ≤ maxReprobe ∧ pos l (keys x) j = x ∧
    ∀ j', j' < j → keys (pos l (keys x) j') ≠ 0 ∧ keys (pos l (keys x) j') ≠ keys x

theorem pos_lt {l : Nat} (hl : 0 < l) (k : U64) (i : Nat) : pos l k i < l := Nat.mod_lt _ hl

theorem pos_zero {l : Nat} (k : U64) : pos l k 0 = k.toNat % l := by
  unfold pos; rw [Nat.add_zero, Nat.mod_mod]

theorem KeyInv.unique {l : Nat} {keys : Nat → U64} (h : KeyInv l keys) {x y : Nat} (hx : x < l) (hy : y < l)
    (h0 : keys x ≠ 0) (he : keys x = keys y) : x = y := by
  obtain ⟨jx, _, ex, px⟩ := h x hx h0
  obtain ⟨jy, _, ey, py⟩ := h y hy (he ▸ h0)
  rw [← he] at ey py
  rcases Nat.lt_trichotomy jx jy with hlt | heq | hgt
  · have := (py jx hlt).2
    rw [ex] at this; exact absurd rfl this
  · rw [heq] at ex; exact ex.symm.trans ey
  · have := (px jy hgt).2
    rw [ey] at this; exact absurd he.symm this

theorem KeyInv.empty (l : Nat) : KeyInv l (fun _ => 0) := by
  intro x _ h; exact absurd rfl h

theorem lookup_some {keys : Nat → U64} {l : Nat} {k : U64} : ∀ {n i x : Nat}, lookup keys l k n i = some x →
    ∃ j, i ≤ j ∧ j < i + n ∧ pos l k j = x ∧ keys x = k ∧ ∀ j', i ≤ j' → j' < j → keys (pos l k j') ≠ k := by
  intro n
  induction n with
  | zero => intro i x h; simp [lookup] at h
  | succ n ih =>
    intro i x h
    unfold lookup at h
    by_cases hk : keys (pos l k i) = k
    · rw [if_pos hk] at h
      have h := Option.some.inj h
      refine ⟨i, Nat.le_refl _, by omega, h, h ▸ hk, ?_⟩
      intro j' h1 h2; omega
    · rw [if_neg hk] at h
      obtain ⟨j, h1, h2, h3, h4, h5⟩ := ih h
      refine ⟨j, by omega, by omega, h3, h4, ?_⟩
      intro j' g1 g2
      rcases Nat.eq_or_lt_of_le g1 with g | g
      · rw [← g]; exact hk
      · exact h5 j' g g2

theorem lookup_none {keys : Nat → U64} {l : Nat} {k : U64} : ∀ {n i : Nat}, lookup keys l k n i = none →
    ∀ j, i ≤ j → j < i + n → keys (pos l k j) ≠ k := by
  intro n
  induction n with
  | zero => intro i h j h1 h2; omega
  | succ n ih =>
    intro i h j h1 h2
    unfold lookup at h
    by_cases hk : keys (pos l k i) = k
    · rw [if_pos hk] at h; simp at h
    · rw [if_neg hk] at h
      rcases Nat.eq_or_lt_of_le h1 with g | g
      · rw [← g]; exact hk
      · exact ih h j g (by omega)

/-- a non-zero key is found exactly if it is in the table -/
theorem KeyInv.lookup_eq {l : Nat} {keys : Nat → U64} (h : KeyInv l keys) {k : U64} (hk : k ≠ 0) {x : Nat}
    (hx : x < l) (he : keys x = k) : lookup keys l k (maxReprobe + 1) 0 = some x := by
  cases hlk : lookup keys l k (maxReprobe + 1) 0 with
  | none =>
    obtain ⟨j, hj, ex, _⟩ := h x hx (he ▸ hk)
    rw [he] at ex
    have := lookup_none hlk j (Nat.zero_le _) (by omega)
    rw [ex] at this; exact absurd he this
  | some y =>
    obtain ⟨j, _, _, hp, hy, _⟩ := lookup_some hlk
    have hyl : y < l := by rw [← hp]; exact pos_lt (by omega) _ _
    rw [h.unique hx hyl (he ▸ hk) (he.trans hy.symm)]

theorem claim_at {keys : Nat → U64} {l : Nat} {k : U64} : ∀ {n i : Nat} {init : Bool} {x : Nat} {ini : Bool},
    claim keys l k n i init = .at x ini →
    ∃ j, i ≤ j ∧ j < i + n ∧ pos l k j = x ∧ (keys x = k ∨ keys x = 0) ∧
      (∀ j', i ≤ j' → j' < j → keys (pos l k j') ≠ k ∧ keys (pos l k j') ≠ 0) ∧
      ini = (if keys x = k then init || decide (i < j) else true) := by
  intro n
  induction n with
  | zero => intro i init x ini h; simp [claim] at h
  | succ n ih =>
    intro i init x ini h
    unfold claim at h
    by_cases hk : keys (pos l k i) = k
    · rw [if_pos hk] at h
      have e1 := (Found.at.inj h).1
      have e2 := (Found.at.inj h).2
      subst e1
      refine ⟨i, Nat.le_refl _, by omega, rfl, Or.inl hk, fun j' _ _ => by omega, ?_⟩
      rw [if_pos hk, ← e2]; simp
    · rw [if_neg hk] at h
      by_cases hz : keys (pos l k i) = 0
      · rw [if_pos hz] at h
        have e1 := (Found.at.inj h).1
        have e2 := (Found.at.inj h).2
        subst e1
        refine ⟨i, Nat.le_refl _, by omega, rfl, Or.inr hz, fun j' _ _ => by omega, ?_⟩
        rw [if_neg hk, ← e2]
      · rw [if_neg hz] at h
        obtain ⟨j, h1, h2, h3, h4, h5, h6⟩ := ih h
        refine ⟨j, by omega, by omega, h3, h4, ?_, ?_⟩
        · intro j' g1 g2
          rcases Nat.eq_or_lt_of_le g1 with g | g
          · rw [← g]; exact ⟨hk, hz⟩
          · exact h5 j' g g2
        · rw [h6]
          have : decide (i < j) = true := by simp; omega
          rw [this]; simp

theorem claim_full {keys : Nat → U64} {l : Nat} {k : U64} : ∀ {n i : Nat} {init : Bool},
    claim keys l k n i init = .full → ∀ j, i ≤ j → j < i + n → keys (pos l k j) ≠ k ∧ keys (pos l k j) ≠ 0 := by
  intro n
  induction n with
  | zero => intro i init h j h1 h2; omega
  | succ n ih =>
    intro i init h j h1 h2
    unfold claim at h
    by_cases hk : keys (pos l k i) = k
    · rw [if_pos hk] at h; simp at h
    · rw [if_neg hk] at h
      by_cases hz : keys (pos l k i) = 0
      · rw [if_pos hz] at h; simp at h
      · rw [if_neg hz] at h
        rcases Nat.eq_or_lt_of_le h1 with g | g
        · rw [← g]; exact ⟨hk, hz⟩
        · exact ih h j g (by omega)

/-- a key that is present is claimed where it is -/
theorem KeyInv.claim_present {l : Nat} {keys : Nat → U64} (h : KeyInv l keys) {k : U64} (hk : k ≠ 0) {x : Nat}
    (hx : x < l) (he : keys x = k) :
    claim keys l k (maxReprobe + 1) 0 false = .at x (decide (x ≠ k.toNat % l)) := by
  obtain ⟨j, hj, ex, pj⟩ := h x hx (he ▸ hk)
  rw [he] at ex pj
  cases hc : claim keys l k (maxReprobe + 1) 0 false with
  | full =>
    have := (claim_full hc j (Nat.zero_le _) (by omega)).1
    rw [ex] at this; exact absurd he this
  | «at» y ini =>
    obtain ⟨jy, _, hjy, ey, hky, py, hini⟩ := claim_at hc
    have hyl : y < l := by rw [← ey]; exact pos_lt (by omega) _ _
    have hyk : keys y = k := by
      rcases hky with h1 | h1
      · exact h1
      · -- an empty slot: then the key would have been placed there
        rcases Nat.lt_trichotomy j jy with hlt | heq | hgt
        · have := (py j (Nat.zero_le _) hlt).1
          rw [ex] at this; exact absurd he this
        · rw [← heq, ex] at ey; rw [← ey]; exact he
        · have := (pj jy hgt).1
          rw [ey] at this; exact absurd h1 this
    have hxy : x = y := h.unique hx hyl (he ▸ hk) (he.trans hyk.symm)
    subst hxy
    rw [if_pos hyk] at hini
    have : ini = decide (x ≠ k.toNat % l) := by
      rw [hini]
      by_cases hj0 : 0 < jy
      · have : x ≠ k.toNat % l := by
          intro hx0
          have h0 := (py 0 (Nat.le_refl _) hj0).1
          rw [pos_zero, ← hx0] at h0
          exact h0 hyk
        simp [hj0, this]
      · have : jy = 0 := by omega
        subst this
        rw [pos_zero] at ey
        simp [ey]
    rw [this]

/-- storing a key into the slot it claimed keeps the invariant -/
theorem KeyInv.store {l : Nat} {keys : Nat → U64} (h : KeyInv l keys) {k : U64} (hk : k ≠ 0) {j x : Nat}
    (hj : j ≤ maxReprobe) (hp : pos l k j = x) (hz : keys x = 0)
    (hprev : ∀ j', j' < j → keys (pos l k j') ≠ k ∧ keys (pos l k j') ≠ 0) :
    KeyInv l (fun y => if y = x then k else keys y) := by
  intro y hy h0
  simp only at h0 ⊢
  by_cases hyx : y = x
  · subst hyx
    simp only [if_true]
    refine ⟨j, hj, hp, ?_⟩
    intro j' hj'
    have hne : pos l k j' ≠ y := by
      intro he
      have := (hprev j' hj').2
      rw [he] at this; exact this hz
    rw [if_neg hne]
    exact ⟨(hprev j' hj').2, (hprev j' hj').1⟩
  · rw [if_neg hyx] at h0 ⊢
    obtain ⟨i, hi, ey, pi⟩ := h y hy h0
    refine ⟨i, hi, ey, ?_⟩
    intro j' hj'
    have hne : pos l (keys y) j' ≠ x := by
      intro he
      have := (pi j' hj').1
      rw [he] at this; exact this hz
    rw [if_neg hne]
    exact pi j' hj'

/-- an absent key with a free candidate gets a free slot; otherwise there is no room -/
theorem claim_absent {l : Nat} {keys : Nat → U64} {k : U64} (hl : 0 < l) (habs : ∀ x, x < l → keys x ≠ k) :
    (∃ j x, j ≤ maxReprobe ∧ pos l k j = x ∧ keys x = 0 ∧
      (∀ j', j' < j → keys (pos l k j') ≠ k ∧ keys (pos l k j') ≠ 0) ∧
      claim keys l k (maxReprobe + 1) 0 false = .at x true) ∨
    ((∀ j, j ≤ maxReprobe → keys (pos l k j) ≠ 0) ∧ claim keys l k (maxReprobe + 1) 0 false = .full) := by
  cases hc : claim keys l k (maxReprobe + 1) 0 false with
  | full =>
    right
    exact ⟨fun j hj => (claim_full hc j (Nat.zero_le _) (by omega)).2, rfl⟩
  | «at» x ini =>
    left
    obtain ⟨j, _, hj, hp, hk, hprev, hini⟩ := claim_at hc
    have hx : x < l := by rw [← hp]; exact pos_lt hl _ _
    have hne := habs x hx
    rw [if_neg hne] at hini
    refine ⟨j, x, by omega, hp, hk.resolve_left hne, fun j' h => hprev j' (Nat.zero_le _) h, ?_⟩
    rw [hini]

end Starbow.Probe
