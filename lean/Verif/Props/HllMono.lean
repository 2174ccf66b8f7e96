import Verif.Proof.HllRaw
import Verif.Props.HllEst
/-
Property theorems C56, C57 and C67: when the HyperLogLog estimate is not negative, does not drop, and is the published F64.one.
-/
namespace Starbow.Props
open Starbow Starbow.Spec Starbow.Hll

/-- the registers of a counter, as a function -/
theorem regs_field {c : Counter} {hs : List Nat} (hr : Regs c (regsOf c.p.toNat hs)) : ∀ i, i < 2 ^ c.p.toNat →
    (Bitbucket.field c.bits.data (i * c.bits.w.toNat) c.bits.w.toNat).toNat = hllRegister c.p.toNat hs i := by
  intro i hi
  rw [hr.holds.val i (by rw [hr.wf.n, Int.toNat_natCast]; exact hi)]
  unfold regsOf
  rw [List.getD_eq_getElem?_getD, List.getElem?_map, List.getElem?_range hi]
  rfl

theorem upTo_eq (p : Nat) (hs : List Nat) (R : Nat) : upTo (hllRegister p hs) R 0 (2 ^ p) = registersUpTo p hs R := by
  unfold upTo registersUpTo
  rw [← List.range_eq_range', List.countP_eq_length_filter]

theorem registersUpTo_le (p : Nat) (hs : List Nat) (R : Nat) : registersUpTo p hs R ≤ 2 ^ p := by
  rw [← upTo_eq]; exact upTo_le _ _ _ _

theorem registersUpTo_mono (p : Nat) (hs : List Nat) {R S : Nat} (h : R ≤ S) : registersUpTo p hs R ≤ registersUpTo p hs S := by
  unfold registersUpTo
  apply List.Sublist.length_le
  apply List.monotone_filter_right
  intro i hi
  simp only [decide_eq_true_eq] at *
  omega

/-- enough small registers: the estimate stays below `2^63` -/
def Roomy (p : Nat) (hs : List Nat) : Prop := ∃ R, 2 ^ (2 * p + R) ≤ 2 ^ 63 * registersUpTo p hs R

theorem Roomy.pos {p : Nat} (h18 : p ≤ 18) {hs : List Nat} (h : Roomy p hs) : ∃ R, 1 ≤ R ∧ R ≤ 64 - p ∧
    2 ^ (2 * p + R) ≤ 2 ^ 63 * registersUpTo p hs R := by
  obtain ⟨R, hR⟩ := h
  by_cases h0 : R = 0
  · subst h0
    refine ⟨1, by omega, by omega, ?_⟩
    have h1 := registersUpTo_mono p hs (by omega : 0 ≤ 1)
    have h2 : 1 ≤ registersUpTo p hs 0 := by
      rcases Nat.eq_zero_or_pos (registersUpTo p hs 0) with h | h
      · rw [h] at hR
        have := Nat.two_pow_pos (2 * p + 0)
        omega
      · exact h
    have h3 : 2 ^ (2 * p + 1) ≤ 2 ^ 63 := Nat.pow_le_pow_right (by omega) (by omega)
    calc 2 ^ (2 * p + 1) ≤ 2 ^ 63 * 1 := by omega
      _ ≤ _ := Nat.mul_le_mul_left _ (by omega)
  · refine ⟨R, by omega, ?_, hR⟩
    have h1 : 2 ^ (2 * p + R) ≤ 2 ^ (63 + p) := by
      refine Nat.le_trans hR ?_
      rw [Nat.pow_add]; exact Nat.mul_le_mul_left _ (registersUpTo_le p hs R)
    have := (Nat.pow_le_pow_iff_right (by omega : 1 < 2)).1 h1
    omega

theorem room_units {p R u Z : Nat} (hR : R ≤ 64) (h : 2 ^ (2 * p + R) ≤ 2 ^ 63 * u) (hZ : u * 2 ^ (F64.expOne - R) ≤ Z) :
    2 ^ (2 * p) * F64.one ≤ Z * 2 ^ 63 := by
  have e : F64.one = 2 ^ R * 2 ^ (F64.expOne - R) := by
    rw [F64.one_eq, ← Nat.pow_add]; congr 1; rw [F64.expOne_eq]; omega
  calc 2 ^ (2 * p) * F64.one = 2 ^ (2 * p + R) * 2 ^ (F64.expOne - R) := by rw [e, Nat.pow_add]; ring
    _ ≤ 2 ^ 63 * u * 2 ^ (F64.expOne - R) := Nat.mul_le_mul_right _ h
    _ = u * 2 ^ (F64.expOne - R) * 2 ^ 63 := by ring
    _ ≤ _ := Nat.mul_le_mul_right _ hZ

/-- the harmonic denominator -/
theorem harmonic_room {c : Counter} {hs : List Nat} (hr : Regs c (regsOf c.p.toNat hs)) (hroom : Roomy c.p.toNat hs) :
    2 ^ (2 * c.p.toNat) * F64.one ≤ hsum (hllRegister c.p.toNat hs) (2 ^ c.p.toNat) 0 0 * 2 ^ 63 := by
  have h18 := hr.wf.p18
  have hm : 2 ^ c.p.toNat ≤ 2 ^ 18 := Nat.pow_le_pow_right (by omega) h18
  obtain ⟨R, h1, h2, h3⟩ := hroom.pos h18
  have := hsum_ge (f := hllRegister c.p.toNat hs) (R := R) h1 (2 ^ c.p.toNat) 0 (z := 0) (C := 0) (by omega) (by omega)
  rw [Nat.zero_add, upTo_eq] at this
  exact room_units (by omega) h3 this

theorem harmonicCount_is {c : Counter} {hs : List Nat} (hr : Regs c (regsOf c.p.toNat hs)) (hroom : Roomy c.p.toNat hs)
    {A : Nat} (hA : alpha c.p = .fin false A) (hrep : F64.Rep A) (h34 : 4 * A ≤ 3 * F64.one) :
    harmonicCount c = .val (est A c.p.toNat (hsum (hllRegister c.p.toNat hs) (2 ^ c.p.toNat) 0 0) : Nat) := by
  unfold harmonicCount
  rw [harmonic_is hr.wf (regs_field hr), Out.bind_val, (estimate_is hr.wf hA hrep h34 (harmonic_room hr hroom)).2.1]
  rfl

theorem estimate_inf {c : Counter} (h : WF c) {A : Nat} (hA : alpha c.p = .fin false A) (hrep : F64.Rep A) (h34 : 4 * A ≤ 3 * F64.one) :
    F64.toInt64 (F64.ceil (normalize c (.inf false))) = 0 := by
  rw [normalize_is h hA hrep h34, F64.div, F64.ceil, if_pos (Nat.zero_mod _)]
  have := toInt64_is 0 (by omega) false (.inl rfl)
  rw [Nat.zero_mul] at this
  exact this

theorem poissonCount_nonneg {c : Counter} {hs : List Nat} (hr : Regs c (regsOf c.p.toNat hs)) (hroom : Roomy c.p.toNat hs) :
    ∃ z, poisson c = .val z ∧ 0 ≤ F64.toInt64 (F64.ceil (normalize c z)) := by
  have h18 := hr.wf.p18
  obtain ⟨A, T, hA, _, _, h34, hrep, _⟩ := alpha_is hr.wf.p4 h18
  obtain ⟨R, h1, h2, h3⟩ := hroom.pos h18
  obtain ⟨z, ez, hz⟩ := poisson_is hr.wf (regs_field hr) h2
  refine ⟨z, ez, ?_⟩
  rcases hz with rfl | ⟨Z, rfl, hZ⟩
  · rw [estimate_inf hr.wf hA hrep h34]
  · rw [upTo_eq] at hZ
    rw [(estimate_is hr.wf hA hrep h34 (room_units (by omega) h3 hZ)).2.1]
    exact Int.natCast_nonneg _

theorem countLarge_nonneg {c : Counter} {hs : List Nat} (hr : Regs c (regsOf c.p.toNat hs)) (hroom : Roomy c.p.toNat hs) :
    ∃ n, countLarge c = .val n ∧ 0 ≤ n := by
  obtain ⟨A, T, hA, _, _, h34, hrep, _⟩ := alpha_is hr.wf.p4 hr.wf.p18
  unfold countLarge
  rw [harmonic_is hr.wf (regs_field hr), Out.bind_val]
  split
  · obtain ⟨z, ez, hz⟩ := poissonCount_nonneg hr hroom
    rw [ez, Out.bind_val]
    exact ⟨_, rfl, hz⟩
  · rw [Out.bind_val]
    refine ⟨_, rfl, ?_⟩
    rw [(estimate_is hr.wf hA hrep h34 (harmonic_room hr hroom)).2.1]
    exact Int.natCast_nonneg _

/-- `Count` in terms of the rounded linear estimate `K` -/
theorem count_split {log : F64 → F64} {c : Counter} (h : WF c) {v K : Nat} {s : Bool}
    (hv : Bitbucket.countN c.bits 0#8 = .val v) (hv1 : 1 ≤ v) (hK : K ≤ 2 ^ 24) (hs : K = 0 ∨ s = false)
    (e : F64.ceil (F64.mul (F64.ofInt ((2 ^ c.p.toNat : Nat) : Int))
      (log (F64.div (F64.ofInt ((2 ^ c.p.toNat : Nat) : Int)) (F64.ofNat v)))) = .fin s (K * F64.one)) :
    linearCount log c = .val (K : Int) ∧
    count log c = if K ≤ linearThreshold c.p.toNat then .val (K : Int) else countLarge c := by
  obtain ⟨t1, t2, t3⟩ := threshold_eq c.p h.p4 h.p18
  unfold count linearCount linear
  rw [hv, Out.bind_val, Out.bind_val, t1, mInt_eq c.p h.p18, e, toInt64_is K (by omega) s hs]
  refine ⟨rfl, ?_⟩
  have hle : F64.le (.fin s (K * F64.one)) (F64.ofNat (linearThreshold c.p.toNat)) = true ↔ K ≤ linearThreshold c.p.toNat := by
    rw [ofNat_is (by omega)]
    rw [F64.Is.le_iff (z := ((K * F64.one : Nat) : Int)) (w := ((linearThreshold c.p.toNat * F64.one : Nat) : Int))
      ⟨_, _, rfl, by rcases hs with rfl | rfl <;> [(cases s <;> simp [F64.signed]); rfl]⟩ ⟨_, _, rfl, rfl⟩]
    constructor
    · intro h1
      exact Nat.le_of_mul_le_mul_right (by exact_mod_cast h1) F64.one_pos
    · intro h1
      exact_mod_cast Nat.mul_le_mul_right _ h1
  by_cases hc : K ≤ linearThreshold c.p.toNat
  · rw [if_pos ⟨hv1, hle.2 hc⟩, if_pos hc]; rfl
  · rw [if_neg (fun h => hc (hle.1 h.2)), if_neg hc]

theorem count_full {log : F64 → F64} {c : Counter} (hv : Bitbucket.countN c.bits 0#8 = .val 0) : count log c = countLarge c := by
  unfold count
  rw [hv, Out.bind_val, if_neg (fun h => absurd h.1 (by omega))]

theorem emptyRegisters_le (p : Nat) (hs : List Nat) : emptyRegisters p hs ≤ 2 ^ p := by
  unfold emptyRegisters
  refine Nat.le_trans (List.length_filter_le _ _) ?_
  rw [List.length_range]

/-- **C57**, what holds: as long as enough registers are small, `Count`, `HarmonicCount` and `PoissonCount` are not negative.
`R` is any rank; "enough" means that the registers holding at most `R` contribute `2^(2p-63)` to the sum of `2^-M`. Missing:
without the hypothesis the claim is false (`C57_count_can_be_negative`). -/
theorem C57_partial (log : F64 → F64) (hl : LogOk log) (p : Byte) (h4 : 4 ≤ p.toNat) (h18 : p.toNat ≤ 18) (h : AddHist) (R : Nat)
    (hR : 2 ^ (2 * p.toNat + R) ≤ 2 ^ 63 * registersUpTo p.toNat ((live h).map fun v => fnv1 (nats v)) R) :
    ∃ c0 c, new p = .val c0 ∧ runHll c0 h = .val c ∧ (∃ n, count log c = .val n ∧ 0 ≤ n) ∧
      (∃ n, harmonicCount c = .val n ∧ 0 ≤ n) ∧ (∃ n, poissonCount c = .val n ∧ 0 ≤ n) := by
  obtain ⟨c0, c, e0, e, hp, hr⟩ := runHll_fresh p h4 h18 h
  have hroom : Roomy c.p.toNat (hashes (live h)) := by rw [hp]; exact ⟨R, hR⟩
  rw [← hp] at hr
  obtain ⟨A, T, hA, _, _, h34, hrep, _⟩ := alpha_is hr.wf.p4 hr.wf.p18
  refine ⟨c0, c, e0, e, ?_, ⟨_, harmonicCount_is hr hroom hA hrep h34, Int.natCast_nonneg _⟩, ?_⟩
  · have hz := zeroRegisters hr
    have hle := emptyRegisters_le c.p.toNat (hashes (live h))
    generalize emptyRegisters c.p.toNat (hashes (live h)) = v at *
    by_cases hv : v = 0
    · subst hv
      rw [count_full hz]
      exact countLarge_nonneg hr hroom
    · obtain ⟨K, L, s, t, hKL, hL, hs, ht, _, _, eK, _⟩ := linear_mono hl hr.wf.p18 (by omega : 1 ≤ v) (Nat.le_refl v) hle
      rw [(count_split (log := log) hr.wf hz (by omega) (by omega) hs eK).2]
      split
      · exact ⟨_, rfl, Int.natCast_nonneg _⟩
      · exact countLarge_nonneg hr hroom
  · obtain ⟨z, ez, hz⟩ := poissonCount_nonneg hr hroom
    unfold poissonCount
    rw [ez, Out.bind_val]
    exact ⟨_, rfl, hz⟩

/-- **C57**, in particular: if no register has reached one of the two highest ranks (`64-p` and `65-p`), no estimate is
negative. -/
theorem C57_ranks_partial (log : F64 → F64) (hl : LogOk log) (p : Byte) (h4 : 4 ≤ p.toNat) (h18 : p.toNat ≤ 18) (h : AddHist)
    (hR : ∀ v ∈ live h, hllRank p.toNat (fnv1 (nats v)) ≤ 63 - p.toNat) :
    ∃ c0 c, new p = .val c0 ∧ runHll c0 h = .val c ∧ (∃ n, count log c = .val n ∧ 0 ≤ n) ∧
      (∃ n, harmonicCount c = .val n ∧ 0 ≤ n) ∧ (∃ n, poissonCount c = .val n ∧ 0 ≤ n) := by
  apply C57_partial log hl p h4 h18 h (63 - p.toNat)
  have : registersUpTo p.toNat ((live h).map fun v => fnv1 (nats v)) (63 - p.toNat) = 2 ^ p.toNat := by
    unfold registersUpTo
    rw [List.filter_eq_self.2, List.length_range]
    intro i _
    rw [decide_eq_true_eq]
    unfold hllRegister
    rcases foldl_max_mem (((live h).map fun v => fnv1 (nats v)).map fun h => if hllIndex p.toNat h = i then hllRank p.toNat h else 0) 0 with h | h
    · omega
    · obtain ⟨x, hx, e⟩ := List.mem_map.1 h
      rw [← e]
      obtain ⟨v, hv, rfl⟩ := List.mem_map.1 hx
      have := hR v hv
      split <;> omega
  rw [this, ← Nat.pow_add]
  exact Nat.pow_le_pow_right (by omega) (by omega)

/-! ### adding a value -/

theorem live_snoc (h : AddHist) (v : Bytes) : live (h ++ [some v]) = live h ++ [v] := by
  rw [live_eq, live_eq, List.foldl_append]; rfl

theorem hllRegister_grows (p : Nat) (hs : List Nat) (x i : Nat) : hllRegister p hs i ≤ hllRegister p (hs ++ [x]) i := by
  rw [hllRegister_append]; exact Nat.le_max_left _ _

theorem emptyRegisters_snoc (p : Nat) (hs : List Nat) (x : Nat) : emptyRegisters p (hs ++ [x]) ≤ emptyRegisters p hs := by
  unfold emptyRegisters
  apply List.Sublist.length_le
  apply List.monotone_filter_right
  intro i hi
  simp only [List.all_eq_true, List.mem_append] at *
  exact fun h hh => hi h (.inl hh)

theorem registersUpTo_snoc (p : Nat) (hs : List Nat) (x R : Nat) : registersUpTo p (hs ++ [x]) R ≤ registersUpTo p hs R := by
  unfold registersUpTo
  apply List.Sublist.length_le
  apply List.monotone_filter_right
  intro i hi
  simp only [decide_eq_true_eq] at *
  exact Nat.le_trans (hllRegister_grows p hs x i) hi

theorem Roomy.back {p : Nat} {hs : List Nat} {x : Nat} (h : Roomy p (hs ++ [x])) : Roomy p hs := by
  obtain ⟨R, hR⟩ := h
  exact ⟨R, Nat.le_trans hR (Nat.mul_le_mul_left _ (registersUpTo_snoc p hs x R))⟩

/-- the counter before and after adding one more value -/
theorem before_after (p : Byte) (h4 : 4 ≤ p.toNat) (h18 : p.toNat ≤ 18) (h : AddHist) (v : Bytes) :
    ∃ c0 c c', new p = .val c0 ∧ runHll c0 h = .val c ∧ runHll c0 (h ++ [some v]) = .val c' ∧ c.p = p ∧ c'.p = p ∧
      Regs c (regsOf p.toNat (hashes (live h))) ∧ Regs c' (regsOf p.toNat (hashes (live h) ++ [fnv1 (nats v)])) := by
  obtain ⟨c0, c, e0, e, hp, hr⟩ := runHll_fresh p h4 h18 h
  obtain ⟨c1, c', e1, e', hp', hr'⟩ := runHll_fresh p h4 h18 (h ++ [some v])
  rw [e0] at e1
  have e1 := Out.val.inj e1
  subst e1
  rw [live_snoc] at hr'
  unfold hashes at hr'
  rw [List.map_append] at hr'
  exact ⟨c0, c, c', e0, e, e', hp, hp', hr, hr'⟩

theorem hsum_snoc (p : Nat) (hs : List Nat) (x : Nat) :
    hsum (hllRegister p (hs ++ [x])) (2 ^ p) 0 0 ≤ hsum (hllRegister p hs) (2 ^ p) 0 0 :=
  hsum_mono _ _ (fun j _ _ => hllRegister_grows p hs x j) (Nat.le_refl _)

theorem harmonicCount_mono {c c' : Counter} {p : Byte} {hs : List Nat} {x : Nat} (hp : c.p = p) (hp' : c'.p = p)
    (hr : Regs c (regsOf p.toNat hs)) (hr' : Regs c' (regsOf p.toNat (hs ++ [x]))) (hroom : Roomy p.toNat (hs ++ [x])) :
    ∃ n n' : Int, harmonicCount c = .val n ∧ harmonicCount c' = .val n' ∧ n ≤ n' := by
  rw [← hp] at hr
  rw [← hp'] at hr' hroom
  have hroom1 : Roomy c.p.toNat hs := by rw [hp, ← hp']; exact hroom.back
  obtain ⟨A, T, hA, _, _, h34, hrep, _⟩ := alpha_is hr'.wf.p4 hr'.wf.p18
  have hA1 : alpha c.p = .fin false A := by rw [hp, ← hp']; exact hA
  have hpos := (estimate_is hr'.wf hA hrep h34 (harmonic_room hr' hroom)).1
  refine ⟨_, _, harmonicCount_is hr hroom1 hA1 hrep h34, harmonicCount_is hr' hroom hA hrep h34, ?_⟩
  rw [hp, ← hp']
  exact_mod_cast est_anti hpos (hsum_snoc _ _ _)

/-- **C56**, for `HarmonicCount`: adding a value never lowers it, as long as the estimate after the Add stays within the range
of an int64 (same condition as in `C57_partial`). -/
theorem C56_harmonic_partial (p : Byte) (h4 : 4 ≤ p.toNat) (h18 : p.toNat ≤ 18) (h : AddHist) (v : Bytes) (R : Nat)
    (hR : 2 ^ (2 * p.toNat + R) ≤ 2 ^ 63 * registersUpTo p.toNat ((live (h ++ [some v])).map fun v => fnv1 (nats v)) R) :
    ∃ c0 c c', ∃ n n' : Int, new p = .val c0 ∧ runHll c0 h = .val c ∧ runHll c0 (h ++ [some v]) = .val c' ∧
      harmonicCount c = .val n ∧ harmonicCount c' = .val n' ∧ n ≤ n' := by
  obtain ⟨c0, c, c', e0, e, e', hp, hp', hr, hr'⟩ := before_after p h4 h18 h v
  rw [live_snoc, List.map_append] at hR
  obtain ⟨n, n', g, g', hle⟩ := harmonicCount_mono hp hp' hr hr' ⟨R, hR⟩
  exact ⟨c0, c, c', n, n', e0, e, e', g, g', hle⟩

/-- **C56**, for `LinearCount`: adding a value never lowers it, as long as a register stays empty. -/
theorem C56_linear_partial (log : F64 → F64) (hl : LogOk log) (p : Byte) (h4 : 4 ≤ p.toNat) (h18 : p.toNat ≤ 18) (h : AddHist)
    (v : Bytes) (hv : 1 ≤ emptyRegisters p.toNat ((live (h ++ [some v])).map fun v => fnv1 (nats v))) :
    ∃ c0 c c', ∃ n n' : Int, new p = .val c0 ∧ runHll c0 h = .val c ∧ runHll c0 (h ++ [some v]) = .val c' ∧
      linearCount log c = .val n ∧ linearCount log c' = .val n' ∧ 0 ≤ n ∧ n ≤ n' := by
  obtain ⟨c0, c, c', e0, e, e', hp, hp', hr, hr'⟩ := before_after p h4 h18 h v
  rw [live_snoc, List.map_append] at hv
  have hle := emptyRegisters_snoc p.toNat (hashes (live h)) (fnv1 (nats v))
  have hle2 := emptyRegisters_le p.toNat (hashes (live h))
  rw [← hp] at hr
  rw [← hp'] at hr'
  have hz := zeroRegisters hr
  have hz' := zeroRegisters hr'
  rw [hp] at hz
  rw [hp'] at hz'
  obtain ⟨K, L, s, t, hKL, hL, hs, ht, _, _, eK, eL⟩ := linear_mono hl h18 hv hle hle2
  have g := (count_split (log := log) hr.wf hz (Nat.le_trans hv hle) (by omega) hs (by rw [hp]; exact eK)).1
  have g' := (count_split (log := log) hr'.wf hz' hv hL ht (by rw [hp']; exact eL)).1
  exact ⟨c0, c, c', K, L, e0, e, e', g, g', Int.natCast_nonneg _, by exact_mod_cast hKL⟩

/-! ### the harmonic regime of `Count` -/

theorem register_lt {c : Counter} {hs : List Nat} (hr : Regs c (regsOf c.p.toNat hs)) {i : Nat} (hi : i < 2 ^ c.p.toNat) :
    hllRegister c.p.toNat hs i < 64 := by
  rw [← regs_field hr i hi]
  have hlt := Bitbucket.field_lt c.bits.data (i * c.bits.w.toNat) c.bits.w.toNat hr.wf.bits.w0 hr.wf.bits.w8
  have e6 : c.bits.w.toNat = 6 := by rw [hr.wf.w]; rfl
  rw [e6] at hlt ⊢
  exact hlt

theorem tsum_div (f : Nat → Nat) (m : Nat) : tsum f 0 m / F64.one = ((List.range m).map fun i => (term (f i) : ℝ) / F64.one).sum := by
  unfold Hll.tsum
  rw [← List.range_eq_range']
  generalize List.range m = l
  induction l with
  | nil => simp
  | cons x l ih => rw [List.map_cons, List.map_cons, List.sum_cons, List.sum_cons, add_div, ih]

theorem tsum_eq {c : Counter} {hs : List Nat} (hr : Regs c (regsOf c.p.toNat hs)) :
    tsum (hllRegister c.p.toNat hs) 0 (2 ^ c.p.toNat) / F64.one = countedSum c.p.toNat hs := by
  rw [tsum_div]
  unfold countedSum
  congr 1
  apply List.map_congr_left
  intro i hi
  have h64 := register_lt hr (List.mem_range.1 hi)
  rw [term_real (by omega)]
  split
  · rename_i h0; rw [h0]; norm_num
  · rw [Nat.max_eq_left (by omega)]

/-- without empty registers the sum is the published one -/
theorem countedSum_full {p : Nat} {hs : List Nat} (hfull : emptyRegisters p hs = 0) : countedSum p hs = registerSum p hs := by
  unfold registerSum countedSum
  congr 1
  apply List.map_congr_left
  intro i hi
  have h1 : hllRegister p hs i ≠ 0 := by
    intro h0
    rw [hllRegister_zero] at h0
    unfold emptyRegisters at hfull
    rw [List.length_eq_zero_iff, List.filter_eq_nil_iff] at hfull
    apply hfull i hi
    rw [List.all_eq_true]
    intro h hh
    rw [bne_iff_ne]
    exact h0 h hh
  rw [if_neg h1]

theorem hsum_real {c : Counter} {hs : List Nat} (hr : Regs c (regsOf c.p.toNat hs)) :
    |(hsum (hllRegister c.p.toNat hs) (2 ^ c.p.toNat) 0 0 : ℝ) / F64.one - countedSum c.p.toNat hs| ≤ countedSum c.p.toNat hs / 2 ^ 34 := by
  have hm : 2 ^ c.p.toNat ≤ 2 ^ 18 := Nat.pow_le_pow_right (by omega) hr.wf.p18
  have hclose := hsum_close (f := hllRegister c.p.toNat hs) (fun j hj => register_lt hr hj) hm
  have ho := one_real_pos
  rw [← tsum_eq hr, ← sub_div, abs_div, abs_of_pos ho, div_right_comm]
  exact div_le_div_of_nonneg_right hclose ho.le

theorem countedSum_nonneg (p : Nat) (hs : List Nat) : 0 ≤ countedSum p hs := by
  unfold countedSum
  apply List.sum_nonneg
  intro x hx
  obtain ⟨j, _, rfl⟩ := List.mem_map.1 hx
  split <;> positivity

theorem countLimit_pos {p : Nat} (h4 : 4 ≤ p) (h18 : p ≤ 18) : 0 < countLimit p := by
  have := (used_close h4 h18).1
  unfold countLimit; positivity

/-- with a small harmonic sum `Count` uses the harmonic mean -/
theorem countLarge_harmonic {c : Counter} {hs : List Nat} (hr : Regs c (regsOf c.p.toNat hs))
    (hsmall : countedSum c.p.toNat hs ≤ countLimit c.p.toNat * (1 - 1 / 2 ^ 30)) : countLarge c = harmonicCount c := by
  have ho := one_real_pos
  obtain ⟨T, hT, h1, _⟩ := limit_real hr.wf.p4 hr.wf.p18
  have hz := (abs_le.1 (hsum_real hr)).2
  have hc := countLimit_pos hr.wf.p4 hr.wf.p18
  have hlt : hsum (hllRegister c.p.toNat hs) (2 ^ c.p.toNat) 0 0 < T := by
    have : (hsum (hllRegister c.p.toNat hs) (2 ^ c.p.toNat) 0 0 : ℝ) / F64.one < T / F64.one := by
      generalize (hsum (hllRegister c.p.toNat hs) (2 ^ c.p.toNat) 0 0 : ℝ) / F64.one = z at *
      generalize (T / F64.one : ℝ) = t at *
      norm_num at *; linarith
    have := (div_lt_div_iff_of_pos_right ho).1 this
    exact_mod_cast this
  unfold countLarge harmonicCount
  rw [harmonic_is hr.wf (regs_field hr), Out.bind_val, Out.bind_val, hT, if_neg]
  · rfl
  · unfold F64.ge
    rw [F64.Is.le_iff (z := (T : Int)) (w := (hsum (hllRegister c.p.toNat hs) (2 ^ c.p.toNat) 0 0 : Nat)) ⟨_, _, rfl, rfl⟩ ⟨_, _, rfl, rfl⟩]
    omega

/-- with a large harmonic sum `Count` uses the Poisson estimator -/
theorem countLarge_poisson {c : Counter} {hs : List Nat} (hr : Regs c (regsOf c.p.toNat hs))
    (hlarge : countLimit c.p.toNat * (1 + 1 / 2 ^ 30) ≤ countedSum c.p.toNat hs) : countLarge c = poissonCount c := by
  have ho := one_real_pos
  obtain ⟨T, hT, _, h1⟩ := limit_real hr.wf.p4 hr.wf.p18
  have hz := (abs_le.1 (hsum_real hr)).1
  have hc := countLimit_pos hr.wf.p4 hr.wf.p18
  have hlt : T < hsum (hllRegister c.p.toNat hs) (2 ^ c.p.toNat) 0 0 := by
    have : (T / F64.one : ℝ) < (hsum (hllRegister c.p.toNat hs) (2 ^ c.p.toNat) 0 0 : ℝ) / F64.one := by
      generalize (hsum (hllRegister c.p.toNat hs) (2 ^ c.p.toNat) 0 0 : ℝ) / F64.one = z at *
      generalize (T / F64.one : ℝ) = t at *
      norm_num at *; linarith
    have := (div_lt_div_iff_of_pos_right ho).1 this
    exact_mod_cast this
  unfold countLarge poissonCount
  rw [harmonic_is hr.wf (regs_field hr), Out.bind_val, hT, if_pos]
  unfold F64.ge
  rw [F64.Is.le_iff (z := (T : Int)) (w := (hsum (hllRegister c.p.toNat hs) (2 ^ c.p.toNat) 0 0 : Nat)) ⟨_, _, rfl, rfl⟩ ⟨_, _, rfl, rfl⟩]
  omega

theorem countedSum_snoc (p : Nat) (hs : List Nat) (x : Nat) : countedSum p (hs ++ [x]) ≤ countedSum p hs := by
  unfold countedSum
  apply List.sum_le_sum
  intro i _
  have h := hllRegister_grows p hs x i
  have hhalf : ∀ n : Nat, n ≠ 0 → (1 : ℝ) / 2 ^ n ≤ 1 / 2 := fun n hn => by
    apply one_div_le_one_div_of_le (by norm_num)
    calc (2 : ℝ) = 2 ^ 1 := by norm_num
      _ ≤ 2 ^ n := pow_le_pow_right₀ (by norm_num) (by omega)
  by_cases h1 : hllRegister p hs i = 0
  · rw [if_pos h1]
    split
    · exact le_refl _
    · exact hhalf _ ‹_›
  · rw [if_neg h1, if_neg (by omega)]
    exact one_div_le_one_div_of_le (by positivity) (pow_le_pow_right₀ (by norm_num) h)

/-- **C56**, for `Count` while linear counting applies: adding a value does not lower it if linear counting still applies
afterwards. -/
theorem C56_count_linear_partial (log : F64 → F64) (hl : LogOk log) (p : Byte) (h4 : 4 ≤ p.toNat) (h18 : p.toNat ≤ 18) (h : AddHist)
    (v : Bytes) (hv : 1 ≤ emptyRegisters p.toNat ((live (h ++ [some v])).map fun v => fnv1 (nats v)))
    (hT : linearEstimate p.toNat (emptyRegisters p.toNat ((live (h ++ [some v])).map fun v => fnv1 (nats v))) * (1 + 1 / 2 ^ 33)
      ≤ linearThreshold p.toNat) :
    ∃ c0 c c', ∃ n n' : Int, new p = .val c0 ∧ runHll c0 h = .val c ∧ runHll c0 (h ++ [some v]) = .val c' ∧
      count log c = .val n ∧ count log c' = .val n' ∧ n ≤ n' := by
  obtain ⟨c0, c, c', e0, e, e', hp, hp', hr, hr'⟩ := before_after p h4 h18 h v
  rw [live_snoc, List.map_append] at hv hT
  have hle := emptyRegisters_snoc p.toNat (hashes (live h)) (fnv1 (nats v))
  have hle2 := emptyRegisters_le p.toNat (hashes (live h))
  rw [← hp] at hr
  rw [← hp'] at hr'
  have hz := zeroRegisters hr
  have hz' := zeroRegisters hr'
  rw [hp] at hz
  rw [hp'] at hz'
  obtain ⟨K, L, s, t, hKL, hL, hs, ht, hup, _, eK, eL⟩ := linear_mono hl h18 hv hle hle2
  have hLT := hup _ hT
  have g := (count_split (log := log) hr.wf hz (Nat.le_trans hv hle) (by omega) hs (by rw [hp]; exact eK)).2
  have g' := (count_split (log := log) hr'.wf hz' hv hL ht (by rw [hp']; exact eL)).2
  rw [hp, if_pos (by omega)] at g
  rw [hp', if_pos hLT] at g'
  exact ⟨c0, c, c', K, L, e0, e, e', g, g', by exact_mod_cast hKL⟩

/-- linear counting has been left for good: `Count` is the harmonic or Poisson estimate -/
theorem count_is_large {log : F64 → F64} (hl : LogOk log) {c : Counter} {p : Byte} {hs : List Nat} (hp : c.p = p)
    (hr : Regs c (regsOf p.toNat hs)) (hbeyond : emptyRegisters p.toNat hs = 0 ∨
      linearThreshold p.toNat < linearEstimate p.toNat (emptyRegisters p.toNat hs) * (1 - 1 / 2 ^ 33)) :
    count log c = countLarge c := by
  rw [← hp] at hr hbeyond
  have hz := zeroRegisters hr
  have hle := emptyRegisters_le c.p.toNat hs
  generalize emptyRegisters c.p.toNat hs = v at *
  by_cases hv : v = 0
  · subst hv; exact count_full hz
  · obtain ⟨K, L, s, t, hKL, hL, hs, ht, _, hdn, eK, _⟩ := linear_mono hl hr.wf.p18 (by omega : 1 ≤ v) (Nat.le_refl v) hle
    rcases hbeyond with h | h
    · exact absurd h hv
    · have := hdn _ h
      rw [(count_split (log := log) hr.wf hz (by omega) (by omega) hs eK).2, if_neg (by omega)]

theorem beyond_snoc {p : Byte} {h : AddHist} (v : Bytes) (hbeyond : emptyRegisters p.toNat (hashes (live h)) = 0 ∨ linearThreshold p.toNat
      < linearEstimate p.toNat (emptyRegisters p.toNat (hashes (live h))) * (1 - 1 / 2 ^ 33)) :
    emptyRegisters p.toNat (hashes (live h) ++ [fnv1 (nats v)]) = 0 ∨ linearThreshold p.toNat
      < linearEstimate p.toNat (emptyRegisters p.toNat (hashes (live h) ++ [fnv1 (nats v)])) * (1 - 1 / 2 ^ 33) := by
  have hmono := emptyRegisters_snoc p.toNat (hashes (live h)) (fnv1 (nats v))
  have hle2 := emptyRegisters_le p.toNat (hashes (live h))
  by_cases h0 : emptyRegisters p.toNat (hashes (live h) ++ [fnv1 (nats v)]) = 0
  · exact .inl h0
  · right
    rcases hbeyond with hb | hb
    · exact absurd (Nat.le_zero.1 (hb ▸ hmono)) h0
    · refine lt_of_lt_of_le hb ?_
      apply mul_le_mul_of_nonneg_right _ (by norm_num)
      by_cases heq : emptyRegisters p.toNat (hashes (live h) ++ [fnv1 (nats v)]) = emptyRegisters p.toNat (hashes (live h))
      · rw [heq]
      · have := linearEstimate_step (p := p.toNat) (by omega : 1 ≤ emptyRegisters p.toNat (hashes (live h) ++ [fnv1 (nats v)]))
          (by omega : _ < emptyRegisters p.toNat (hashes (live h))) hle2
        linarith

/-- **C56**, for `Count` in the harmonic regime: once linear counting no longer applies and the sum of `2^-M` (an
empty register counting one half) is below the limit `α m / 7`, adding a value never lowers `Count` (as long as the estimate fits into an int64). -/
theorem C56_count_harmonic_partial (log : F64 → F64) (hl : LogOk log) (p : Byte) (h4 : 4 ≤ p.toNat) (h18 : p.toNat ≤ 18) (h : AddHist)
    (v : Bytes) (R : Nat)
    (hbeyond : emptyRegisters p.toNat ((live h).map fun v => fnv1 (nats v)) = 0 ∨ linearThreshold p.toNat
      < linearEstimate p.toNat (emptyRegisters p.toNat ((live h).map fun v => fnv1 (nats v))) * (1 - 1 / 2 ^ 33))
    (hsmall : countedSum p.toNat ((live h).map fun v => fnv1 (nats v)) ≤ countLimit p.toNat * (1 - 1 / 2 ^ 30))
    (hR : 2 ^ (2 * p.toNat + R) ≤ 2 ^ 63 * registersUpTo p.toNat ((live (h ++ [some v])).map fun v => fnv1 (nats v)) R) :
    ∃ c0 c c', ∃ n n' : Int, new p = .val c0 ∧ runHll c0 h = .val c ∧ runHll c0 (h ++ [some v]) = .val c' ∧
      count log c = .val n ∧ count log c' = .val n' ∧ n ≤ n' := by
  obtain ⟨c0, c, c', e0, e, e', hp, hp', hr, hr'⟩ := before_after p h4 h18 h v
  rw [live_snoc, List.map_append] at hR
  obtain ⟨n, n', g, g', hle⟩ := harmonicCount_mono hp hp' hr hr' ⟨R, hR⟩
  have hbeyond' := beyond_snoc v hbeyond
  have k := count_is_large hl hp hr hbeyond
  have k' := count_is_large hl hp' hr' hbeyond'
  have hsmall' := le_trans (countedSum_snoc p.toNat (hashes (live h)) (fnv1 (nats v))) hsmall
  rw [← hp] at hr hsmall
  rw [← hp'] at hr' hsmall'
  rw [countLarge_harmonic hr hsmall] at k
  rw [countLarge_harmonic hr' hsmall'] at k'
  exact ⟨c0, c, c', n, n', e0, e, e', k.trans g, k'.trans g', hle⟩

/-! ### the published estimate -/

theorem usedEstimate_close {p : Nat} (h4 : 4 ≤ p) (h18 : p ≤ 18) (hs : List Nat) (hS : 0 ≤ registerSum p hs) :
    rawEstimate p hs * 0.997 ≤ usedEstimate p hs ∧ usedEstimate p hs ≤ rawEstimate p hs * 1.003 := by
  obtain ⟨_, _, h1, h2⟩ := used_close h4 h18
  unfold rawEstimate usedEstimate
  have hk : (0 : ℝ) ≤ (2 ^ p) ^ 2 / registerSum p hs := by positivity
  simp only [mul_div_assoc]
  generalize ((2 : ℝ) ^ p) ^ 2 / registerSum p hs = k at *
  constructor
  · have := mul_le_mul_of_nonneg_right h1 hk
    linarith
  · have := mul_le_mul_of_nonneg_right h2 hk
    linarith

theorem registerSum_nonneg (p : Nat) (hs : List Nat) : 0 ≤ registerSum p hs := by
  unfold registerSum
  apply List.sum_nonneg
  intro x hx
  obtain ⟨j, _, rfl⟩ := List.mem_map.1 hx
  positivity

/-- rounding the quotient of a constant close to `α` times `M` by a sum close to `S` -/
theorem quotient_close {α a M S z x ε : ℝ} (hα : 0 < α) (hM : 0 ≤ M) (hS : 0 < S) (hx : 0 ≤ x) (he : 1 / 2 ^ 34 ≤ ε) (he2 : ε ≤ 1 / 2 ^ 20)
    (ha : |a - α| ≤ α / 2 ^ 40) (hz : |z - S| ≤ S * ε) (hxe : |x - a * M / z| ≤ a * M / z / 2 ^ 53) :
    α * M / S * (1 - 2 * ε) ≤ ⌈x⌉₊ ∧ ⌈x⌉₊ < α * M / S * (1 + 2 * ε) + 1 := by
  have a1 := abs_le.1 ha
  have z0 := abs_le.1 hz
  have x0 := abs_le.1 hxe
  have z1 : S * (1 - ε) ≤ z := by linarith
  have z2 : z ≤ S * (1 + ε) := by linarith
  have hε0 : 0 < ε := lt_of_lt_of_le (by norm_num) he
  have hε1 : 0 < 1 - ε := by norm_num at *; linarith
  have hz0 : 0 < z := lt_of_lt_of_le (mul_pos hS hε1) z1
  have hεε : ε * ε ≤ 1 / 2 ^ 40 := by
    calc ε * ε ≤ 1 / 2 ^ 20 * (1 / 2 ^ 20) := mul_le_mul he2 he2 hε0.le (by norm_num)
      _ = _ := by norm_num
  have k1 : (1 - ε - 1 / 2 ^ 38) * (1 + ε) ≤ 1 - 1 / 2 ^ 40 := by norm_num at *; nlinarith
  have k2 : 1 + 1 / 2 ^ 40 ≤ (1 + ε + 1 / 2 ^ 38) * (1 - ε) := by norm_num at *; nlinarith
  have hMS : 0 ≤ α * (M * S) := by positivity
  have hq1 : α * M / S * (1 - ε - 1 / 2 ^ 38) ≤ a * M / z := by
    rw [div_mul_eq_mul_div, div_le_div_iff₀ hS hz0]
    have h1 : α * M * (1 - ε - 1 / 2 ^ 38) * z ≤ α * M * (1 - ε - 1 / 2 ^ 38) * (S * (1 + ε)) :=
      mul_le_mul_of_nonneg_left z2 (mul_nonneg (by positivity) (by norm_num at *; linarith))
    have h2 : α * (1 - 1 / 2 ^ 40) * (M * S) ≤ a * (M * S) := mul_le_mul_of_nonneg_right (by linarith) (by positivity)
    have h3 := mul_le_mul_of_nonneg_left k1 hMS
    linarith
  have hq2 : a * M / z ≤ α * M / S * (1 + ε + 1 / 2 ^ 38) := by
    rw [div_mul_eq_mul_div, div_le_div_iff₀ hz0 hS]
    have h1 : α * M * (1 + ε + 1 / 2 ^ 38) * (S * (1 - ε)) ≤ α * M * (1 + ε + 1 / 2 ^ 38) * z :=
      mul_le_mul_of_nonneg_left z1 (by positivity)
    have h2 : a * (M * S) ≤ α * (1 + 1 / 2 ^ 40) * (M * S) := mul_le_mul_of_nonneg_right (by linarith) (by positivity)
    have h3 := mul_le_mul_of_nonneg_left k2 hMS
    linarith
  have hraw : 0 ≤ α * M / S := by positivity
  generalize α * M / S = r at *
  generalize a * M / z = q at *
  have hre : r * (1 / 2 ^ 34) ≤ r * ε := mul_le_mul_of_nonneg_left he hraw
  have hre2 : r * ε ≤ r * (1 / 2 ^ 20) := mul_le_mul_of_nonneg_left he2 hraw
  constructor
  · refine le_trans ?_ (Nat.le_ceil x)
    have e1 : r * (1 - 2 * ε) = r - 2 * (r * ε) := by ring
    have e2 : r * (1 - ε - 1 / 2 ^ 38) = r - r * ε - r / 2 ^ 38 := by ring
    rw [e1]; rw [e2] at hq1
    have e3 : r * (1 + ε + 1 / 2 ^ 38) = r + r * ε + r / 2 ^ 38 := by ring
    rw [e3] at hq2
    generalize r * ε = t at *
    norm_num at *; linarith
  · refine lt_of_lt_of_le (Nat.ceil_lt_add_one hx) ?_
    have e1 : r * (1 + 2 * ε) = r + 2 * (r * ε) := by ring
    have e2 : r * (1 - ε - 1 / 2 ^ 38) = r - r * ε - r / 2 ^ 38 := by ring
    rw [e1]; rw [e2] at hq1
    have e3 : r * (1 + ε + 1 / 2 ^ 38) = r + r * ε + r / 2 ^ 38 := by ring
    rw [e3] at hq2
    generalize r * ε = t at *
    norm_num at *; linarith

/-- the last division -/
theorem est_close {A Z p : Nat} {S ε : ℝ} (h4 : 4 ≤ p) (h18 : p ≤ 18) (hA2 : F64.one ≤ 2 * A) (hZ0 : 0 < Z) (hZle : Z ≤ 2 ^ 100 * F64.one)
    (he : 1 / 2 ^ 34 ≤ ε) (he2 : ε ≤ 1 / 2 ^ 20)
    (hA : |(A : ℝ) / F64.one - usedAlpha p| ≤ usedAlpha p / 2 ^ 40) (hS : 0 < S) (hZ : |(Z : ℝ) / F64.one - S| ≤ S * ε) :
    usedAlpha p * (2 ^ p) ^ 2 / S * (1 - 2 * ε) ≤ est A p Z ∧ est A p Z < usedAlpha p * (2 ^ p) ^ 2 / S * (1 + 2 * ε) + 1 := by
  have ho := one_real_pos
  have hbig : Z * 2 ^ 52 ≤ A * 2 ^ (2 * p) * F64.one := by
    have h2 : 2 ^ 153 ≤ F64.one := by rw [F64.one_eq]; exact Nat.pow_le_pow_right (by omega) (by rw [F64.expOne_eq]; omega)
    calc Z * 2 ^ 52 ≤ 2 ^ 100 * F64.one * 2 ^ 52 := Nat.mul_le_mul_right _ hZle
      _ = 2 ^ 152 * F64.one := by rw [show (152 : Nat) = 100 + 52 by rfl, Nat.pow_add]; ring
      _ ≤ A * F64.one := Nat.mul_le_mul_right _ (by rw [show (153 : Nat) = 152 + 1 by rfl, Nat.pow_succ] at h2; omega)
      _ ≤ A * 2 ^ (2 * p) * F64.one := Nat.mul_le_mul_right _ (Nat.le_mul_of_pos_right _ (Nat.two_pow_pos _))
  have hx := rnd_rel_real hZ0 hbig
  unfold est
  generalize F64.rnd (A * 2 ^ (2 * p) * F64.one) Z = X at *
  have hZr : (0 : ℝ) < Z := by exact_mod_cast hZ0
  refine quotient_close (a := A / F64.one) (z := Z / F64.one) (used_close h4 h18).1 (sq_nonneg _) hS (div_nonneg (Nat.cast_nonneg _) ho.le) he he2
    hA hZ ?_
  have e1 : ((A * 2 ^ (2 * p) * F64.one : Nat) : ℝ) / Z = A / F64.one * (2 ^ p) ^ 2 / (Z / F64.one) * F64.one := by
    rw [Nat.mul_comm 2, pow_mul]
    push_cast
    field_simp
  rw [e1] at hx
  generalize (A : ℝ) / F64.one * (2 ^ p) ^ 2 / (Z / F64.one) = q at *
  have e2 : (X : ℝ) / F64.one - q = (X - q * F64.one) / F64.one := by field_simp
  rw [e2, abs_div, abs_of_pos ho, div_le_iff₀ ho]
  refine le_trans hx (le_of_eq ?_)
  ring

theorem harmonicCount_raw {c : Counter} {hs : List Nat} (hr : Regs c (regsOf c.p.toNat hs)) (hroom : Roomy c.p.toNat hs) :
    ∃ n : Nat, harmonicCount c = .val (n : Int) ∧ usedAlpha c.p.toNat * (2 ^ c.p.toNat) ^ 2 / countedSum c.p.toNat hs * (1 - 1 / 2 ^ 33) ≤ n ∧
      n < usedAlpha c.p.toNat * (2 ^ c.p.toNat) ^ 2 / countedSum c.p.toNat hs * (1 + 1 / 2 ^ 33) + 1 := by
  have h18 := hr.wf.p18
  have h4 := hr.wf.p4
  have hm : 2 ^ c.p.toNat ≤ 2 ^ 18 := Nat.pow_le_pow_right (by omega) h18
  have ho := one_real_pos
  obtain ⟨A, hA, hA2, h34, hrep, hAr⟩ := alpha_real hr.wf.p4 hr.wf.p18
  have hpos := (estimate_is hr.wf hA hrep h34 (harmonic_room hr hroom)).1
  refine ⟨_, harmonicCount_is hr hroom hA hrep h34, ?_⟩
  have hZle := hsum_le (f := hllRegister c.p.toNat hs) (2 ^ c.p.toNat) 0 (z := 0) (by omega) (by omega)
  have zS := hsum_real hr
  generalize hsum (hllRegister c.p.toNat hs) (2 ^ c.p.toNat) 0 0 = Z at *
  have hS0 : 0 < countedSum c.p.toNat hs := by
    rcases lt_or_eq_of_le (countedSum_nonneg c.p.toNat hs) with h | h
    · exact h
    · exfalso
      rw [← h] at zS
      simp only [sub_zero, zero_div] at zS
      have hZ : (0 : ℝ) < Z / F64.one := by
        have : (0 : ℝ) < Z := by exact_mod_cast hpos
        positivity
      rw [abs_of_pos hZ] at zS
      linarith
  have hZl : Z ≤ 2 ^ 100 * F64.one := by
    refine Nat.le_trans hZle (Nat.mul_le_mul (Nat.le_trans (by omega : 0 + 2 ^ c.p.toNat ≤ 2 ^ 18) (Nat.pow_le_pow_right (by omega) (by omega))) ?_)
    rw [F64.one_eq]; exact Nat.pow_le_pow_right (by omega) (by omega)
  have := est_close h4 h18 hA2 hpos hZl (le_refl _) (by norm_num) hAr hS0 (by rw [mul_one_div]; exact zS)
  rw [show (2 : ℝ) * (1 / 2 ^ 34) = 1 / 2 ^ 33 by norm_num] at this
  exact this

/-- **C67**, what `HarmonicCount` is on every counter: `α m² / Σ` rounded up, to within `2^-33`, where `Σ` is the sum of `2^-M` with an
empty register counting one half (the published sum counts it as one), and `α` is the published constant up to 256 registers and
0.7213475 above. Missing: the published sum. -/
theorem C67_counted_partial (p : Byte) (h4 : 4 ≤ p.toNat) (h18 : p.toNat ≤ 18) (h : AddHist) (R : Nat)
    (hR : 2 ^ (2 * p.toNat + R) ≤ 2 ^ 63 * registersUpTo p.toNat ((live h).map fun v => fnv1 (nats v)) R) :
    ∃ c0 c, ∃ n : Int, new p = .val c0 ∧ runHll c0 h = .val c ∧ harmonicCount c = .val n ∧
      usedAlpha p.toNat * (2 ^ p.toNat) ^ 2 / countedSum p.toNat ((live h).map fun v => fnv1 (nats v)) * (1 - 1 / 2 ^ 33) ≤ n ∧
      n < usedAlpha p.toNat * (2 ^ p.toNat) ^ 2 / countedSum p.toNat ((live h).map fun v => fnv1 (nats v)) * (1 + 1 / 2 ^ 33) + 1 := by
  obtain ⟨c0, c, e0, e, hp, hr⟩ := runHll_fresh p h4 h18 h
  have hroom : Roomy c.p.toNat (hashes (live h)) := by rw [hp]; exact ⟨R, hR⟩
  rw [← hp] at hr
  obtain ⟨n, g, g1, g2⟩ := harmonicCount_raw hr hroom
  rw [hp] at g1 g2
  exact ⟨c0, c, n, e0, e, g, by exact_mod_cast g1, by exact_mod_cast g2⟩

/-- **C67**, what holds: when no register is empty, `HarmonicCount` is the raw estimate `α m² / Σ 2^-M` rounded up, to within
`2^-33`, where `α` is the published constant up to 256 registers and 0.7213475 above; it is within 0.4% of the published raw
estimate for every precision. -/
theorem C67_harmonic_partial (p : Byte) (h4 : 4 ≤ p.toNat) (h18 : p.toNat ≤ 18) (h : AddHist) (R : Nat)
    (hR : 2 ^ (2 * p.toNat + R) ≤ 2 ^ 63 * registersUpTo p.toNat ((live h).map fun v => fnv1 (nats v)) R)
    (hfull : emptyRegisters p.toNat ((live h).map fun v => fnv1 (nats v)) = 0) :
    ∃ c0 c, ∃ n : Int, new p = .val c0 ∧ runHll c0 h = .val c ∧ harmonicCount c = .val n ∧
      usedEstimate p.toNat ((live h).map fun v => fnv1 (nats v)) * (1 - 1 / 2 ^ 33) ≤ n ∧
      n < usedEstimate p.toNat ((live h).map fun v => fnv1 (nats v)) * (1 + 1 / 2 ^ 33) + 1 ∧
      rawEstimate p.toNat ((live h).map fun v => fnv1 (nats v)) * 0.996 ≤ n ∧
      n < rawEstimate p.toNat ((live h).map fun v => fnv1 (nats v)) * 1.004 + 1 := by
  obtain ⟨c0, c, e0, e, hp, hr⟩ := runHll_fresh p h4 h18 h
  have hroom : Roomy c.p.toNat (hashes (live h)) := by rw [hp]; exact ⟨R, hR⟩
  rw [← hp] at hr
  obtain ⟨n, g, g1, g2⟩ := harmonicCount_raw hr hroom
  rw [hp, countedSum_full (hs := hashes (live h)) hfull] at g1 g2
  obtain ⟨k1, k2⟩ := usedEstimate_close h4 h18 (hashes (live h)) (registerSum_nonneg _ _)
  have h0 : 0 ≤ rawEstimate p.toNat (hashes (live h)) := by linarith
  change usedEstimate p.toNat ((live h).map fun v => fnv1 (nats v)) * (1 - 1 / 2 ^ 33) ≤ n at g1
  change n < usedEstimate p.toNat ((live h).map fun v => fnv1 (nats v)) * (1 + 1 / 2 ^ 33) + 1 at g2
  refine ⟨c0, c, n, e0, e, g, by exact_mod_cast g1, by exact_mod_cast g2, ?_, ?_⟩
  · rw [Int.cast_natCast]
    refine le_trans ?_ g1
    change rawEstimate p.toNat (hashes (live h)) * 0.996 ≤ usedEstimate p.toNat (hashes (live h)) * (1 - 1 / 2 ^ 33)
    norm_num at *; linarith
  · rw [Int.cast_natCast]
    refine lt_of_lt_of_le g2 ?_
    change usedEstimate p.toNat (hashes (live h)) * (1 + 1 / 2 ^ 33) + 1 ≤ rawEstimate p.toNat (hashes (live h)) * 1.004 + 1
    norm_num at *; linarith

/-- **C67** for `Count`: when no register is empty and the sum of `2^-M` is below the limit `α m / 7`. -/
theorem C67_count_partial (log : F64 → F64) (hl : LogOk log) (p : Byte) (h4 : 4 ≤ p.toNat) (h18 : p.toNat ≤ 18) (h : AddHist) (R : Nat)
    (hR : 2 ^ (2 * p.toNat + R) ≤ 2 ^ 63 * registersUpTo p.toNat ((live h).map fun v => fnv1 (nats v)) R)
    (hfull : emptyRegisters p.toNat ((live h).map fun v => fnv1 (nats v)) = 0)
    (hsmall : countedSum p.toNat ((live h).map fun v => fnv1 (nats v)) ≤ countLimit p.toNat * (1 - 1 / 2 ^ 30)) :
    ∃ c0 c, ∃ n : Int, new p = .val c0 ∧ runHll c0 h = .val c ∧ count log c = .val n ∧
      usedEstimate p.toNat ((live h).map fun v => fnv1 (nats v)) * (1 - 1 / 2 ^ 33) ≤ n ∧
      n < usedEstimate p.toNat ((live h).map fun v => fnv1 (nats v)) * (1 + 1 / 2 ^ 33) + 1 ∧
      rawEstimate p.toNat ((live h).map fun v => fnv1 (nats v)) * 0.996 ≤ n ∧
      n < rawEstimate p.toNat ((live h).map fun v => fnv1 (nats v)) * 1.004 + 1 := by
  obtain ⟨c0, c, n, e0, e, g, g1⟩ := C67_harmonic_partial p h4 h18 h R hR hfull
  refine ⟨c0, c, n, e0, e, ?_, g1⟩
  obtain ⟨c1, c', e1, e', hp, hr⟩ := runHll_fresh p h4 h18 h
  rw [e0] at e1
  have e1 := Out.val.inj e1
  subst e1
  rw [e] at e'
  have e' := Out.val.inj e'
  subst e'
  rw [count_is_large hl hp hr (.inl hfull), countLarge_harmonic (hs := hashes (live h)) (by rw [hp]; exact hr) (by rw [hp]; exact hsmall)]
  exact g

/-- **C67** is false in general: on an empty counter of precision 4 `HarmonicCount` is 22, where the published raw estimate is
10.768 (the code lets an empty register contribute 1/2 to the sum, the published formula lets it contribute `2^-0 = 1`). -/
theorem C67_empty_refuted : (do
    let c0 ← new 4#8
    let c ← runHll c0 []
    harmonicCount c) = .val 22 ∧ rawEstimate 4 [] = 10.768 := by
  refine ⟨by decide +kernel, ?_⟩
  have e : ((List.range (2 ^ 4)).map fun i => (1 : ℝ) / 2 ^ hllRegister 4 [] i) = List.replicate 16 1 := by
    have : hllRegister 4 [] = fun _ => 0 := rfl
    rw [this]; simp [List.map_const']
  unfold rawEstimate registerSum publishedAlpha alphaNum alphaDen
  rw [e, List.sum_replicate]
  norm_num

/-! ### the hypotheses can be met -/

/-- sixteen values that fill the sixteen registers of a counter of precision 4 -/
def full16 : AddHist := ["155000", "44000", "77000", "148000", "29000", "166000", "160000", "135000", "34000", "61000", "78000",
  "13000", "89000", "26000", "96000", "39000"].map fun s => some (asc s)

theorem full16_regs : (List.range (2 ^ 4)).map (hllRegister 4 ((live full16).map fun v => fnv1 (nats v)))
    = [4, 4, 5, 4, 4, 6, 5, 4, 4, 4, 8, 5, 6, 9, 6, 4] := by decide +kernel

theorem full16_sum : registerSum 4 ((live full16).map fun v => fnv1 (nats v)) = 331 / 512 := by
  unfold registerSum
  have : ((List.range (2 ^ 4)).map fun i => (1 : ℝ) / 2 ^ hllRegister 4 ((live full16).map fun v => fnv1 (nats v)) i)
      = ((List.range (2 ^ 4)).map (hllRegister 4 ((live full16).map fun v => fnv1 (nats v)))).map fun r => (1 : ℝ) / 2 ^ r := by
    rw [List.map_map]; rfl
  rw [this, full16_regs]
  norm_num

/-- the sixteen values meet the hypotheses of `C57_partial`, `C67_harmonic_partial` and `C67_count_partial`, and together with one
more value those of `C56_harmonic_partial` and `C56_count_harmonic_partial` -/
example : 2 ^ (2 * 4 + 9) ≤ 2 ^ 63 * registersUpTo 4 ((live full16).map fun v => fnv1 (nats v)) 9 ∧
    emptyRegisters 4 ((live full16).map fun v => fnv1 (nats v)) = 0 ∧
    countedSum 4 ((live full16).map fun v => fnv1 (nats v)) ≤ countLimit 4 * (1 - 1 / 2 ^ 30) ∧
    2 ^ (2 * 4 + 9) ≤ 2 ^ 63 * registersUpTo 4 ((live (full16 ++ [some (asc "Paris")])).map fun v => fnv1 (nats v)) 9 := by
  refine ⟨by decide +kernel, by decide +kernel, ?_, by decide +kernel⟩
  rw [countedSum_full (by decide +kernel), full16_sum]
  norm_num [countLimit, usedAlpha, usedNum, usedDen, alphaNum, alphaDen]

/-- the values of C14's crowd have ranks far below the highest ones (hypothesis of `C57_ranks_partial`) -/
example : ∀ v ∈ live crowd, hllRank 6 (fnv1 (nats v)) ≤ 63 - 6 := by decide +kernel

/-- adding a second value to one that is there keeps registers empty and linear counting in force (hypotheses of
`C56_linear_partial` and `C56_count_linear_partial`) -/
example : 1 ≤ emptyRegisters 4 ((live ([some (asc "26000")] ++ [some (asc "13000")])).map fun v => fnv1 (nats v)) ∧
    linearEstimate 4 (emptyRegisters 4 ((live ([some (asc "26000")] ++ [some (asc "13000")])).map fun v => fnv1 (nats v)))
      * (1 + 1 / 2 ^ 33) ≤ linearThreshold 4 := by
  have e : emptyRegisters 4 ((live ([some (asc "26000")] ++ [some (asc "13000")])).map fun v => fnv1 (nats v)) = 14 := by decide +kernel
  rw [e]
  refine ⟨by omega, ?_⟩
  have hT : linearThreshold 4 = 10 := rfl
  rw [hT]
  unfold linearEstimate
  have := Real.log_le_sub_one_of_pos (x := 2 ^ 4 / ((14 : Nat) : ℝ)) (by norm_num)
  norm_num at *
  linarith

end Starbow.Props
