import Verif.Proof.Stat64
import Mathlib.Algebra.Order.Field.Basic
/-
Property theorems C17-C21 and C53: streaming statistics.
-/
namespace Starbow.Props
open Starbow.Spec Starbow.Stat64

/-! ### C17 -/

/-- **C17**: without rounding, after any sequence of fewer than 2^64 observations `Count` is their number, `Sum` their
sum, `Mean` their arithmetic mean and `Variance` their sample variance (NaN, here `none`, for fewer than two). The code
run is the same `observe` the doubles go through, interpreted over the rationals. -/
theorem C17_exact (xs : List ℚ) (hn : xs.length < 2 ^ 64) :
    let a := xs.foldl observe (Acc.init ℚ)
    a.count.toNat = xs.length ∧ a.sum = xs.sum ∧ (xs ≠ [] → a.mean = meanOf xs) ∧
      a.variance = if xs.length < 2 then none else some (sampleVar xs) := by
  obtain ⟨h1, h2, h3, h4⟩ := observe_rat xs hn
  dsimp only
  generalize xs.foldl observe (Acc.init ℚ) = a at *
  have hm : xs ≠ [] → a.mean = meanOf xs := by
    intro hne
    unfold meanOf
    have : (xs.length : ℚ) ≠ 0 := by
      have := List.length_pos_of_ne_nil hne
      positivity
    rw [← h3]; field_simp
  refine ⟨h1, h2, hm, ?_⟩
  unfold Acc.variance
  rw [h1]
  split
  · rfl
  · rename_i hl
    have hne : xs ≠ [] := by intro h0; subst h0; simp at hl
    congr 1
    unfold sampleVar
    rw [sq_dev_sum, ← hm hne]
    have e : (Arith.ofCount (a.count - 1) : ℚ) = (xs.length : ℚ) - 1 := by
      have : (a.count - 1).toNat = xs.length - 1 := by
        have := a.count.isLt
        rw [BitVec.toNat_sub, show (1 : U64).toNat = 1 from rfl]; omega
      show (((a.count - 1).toNat : Nat) : ℚ) = _
      rw [this, Nat.cast_sub (by omega), Nat.cast_one]
    show a.ss / Arith.ofCount (a.count - 1) = _
    rw [e, h4, ← h3]
    congr 1
    ring

/-- non-trivial instance: 1, 2, 4 have mean 7/3 and sample variance 7/3 -/
example : ([1, 2, 4] : List ℚ).length < 2 ^ 64 ∧ meanOf [1, 2, 4] = 7 / 3 ∧ sampleVar [1, 2, 4] = 7 / 3 := by
  refine ⟨by decide, ?_, ?_⟩ <;> norm_num [meanOf, sampleVar]

/-! ### C18 -/

/-- one call on a summary -/
inductive Call where
  | update (v : F64)
  | updateMulti (vs : List F64)
  | reset

/-- perform the calls on a buffer -/
def runStat (b : Bytes) : List Call → Out Bytes
  | [] => .val b
  | .update v :: cs => do
    let b' ← Stat64.update b v
    runStat b' cs
  | .updateMulti vs :: cs => do
    let b' ← Stat64.updateMulti b vs
    runStat b' cs
  | .reset :: cs => runStat (Stat64.reset b) cs

/-- the observations since the last reset -/
def observed : List F64 → List Call → List F64
  | acc, [] => acc
  | acc, .update v :: cs => observed (acc ++ [v]) cs
  | acc, .updateMulti vs :: cs => observed (acc ++ vs) cs
  | _, .reset :: cs => observed [] cs

/-- **C18**: `UpdateMulti(vs)` and calling `Update` for each element in turn leave exactly the same bytes in the
buffer — for every buffer of at least 32 bytes, whatever it contains, and every list of doubles, including NaN and
infinities (the empty list aside, the bytes after the first 32 are untouched by both). -/
theorem C18_multi (b : Bytes) (h : 32 ≤ b.length) (v : F64) (vs : List F64) :
    Stat64.updateMulti b (v :: vs) = runStat b ((v :: vs).map Call.update) := by
  have key : ∀ (vs : List F64) (a : Acc F64), WfAcc a →
      runStat (store b a) (vs.map Call.update) = .val (store b (vs.foldl observe a)) := by
    intro vs
    induction vs with
    | nil => intro a _; rfl
    | cons v vs ih =>
      intro a ha
      rw [List.map_cons, runStat, update, if_neg (by rw [store_length _ _ h, size]; omega), load_store _ _ h ha,
        store_store _ _ _ h]
      exact ih _ (wf_observe _ _)
  rw [List.map_cons, runStat, update, updateMulti, if_neg (by rw [size]; omega), if_neg (by rw [size]; omega)]
  exact (key vs _ (wf_observe _ _)).symm

/-- **C18**, empty batch: nothing but the representation of NaNs can change; the four statistics are the same -/
theorem C18_multi_nil (b : Bytes) (h : 32 ≤ b.length) :
    ∃ b', Stat64.updateMulti b [] = .val b' ∧ load b' = load b ∧ b'.drop 32 = b.drop 32 := by
  refine ⟨store b (load b), ?_, load_store _ _ h (wf_load b), ?_⟩
  · rw [updateMulti, if_neg (by rw [size]; omega)]; rfl
  · rw [store_eq _ _ h]
    generalize load b = a
    have e : ∀ (c s m q : Bytes) (r : Bytes), c.length = 8 → s.length = 8 → m.length = 8 → q.length = 8 →
        (c ++ (s ++ (m ++ (q ++ r)))).drop 32 = r := by
      intro c s m q r h1 h2 h3 h4
      rw [← List.append_assoc, ← List.append_assoc, ← List.append_assoc]
      exact List.drop_left' (by simp; omega)
    exact e _ _ _ _ _ (le64_length _) (le64_length _) (le64_length _) (le64_length _)

theorem runStat_eq (cs : List Call) : ∀ (b : Bytes) (acc : List F64), 32 ≤ b.length →
    load b = acc.foldl observe (Acc.init F64) →
    ∃ b', runStat b cs = .val b' ∧ b'.length = b.length ∧ load b' = (observed acc cs).foldl observe (Acc.init F64) := by
  induction cs with
  | nil => intro b acc h hl; exact ⟨b, rfl, rfl, hl⟩
  | cons c cs ih =>
    intro b acc h hl
    cases c with
    | update v =>
      rw [runStat, update, if_neg (by rw [size]; omega)]
      have hle : (store b (observe (load b) v)).length = b.length := store_length _ _ h
      obtain ⟨b', e, hlen, hld⟩ := ih (store b (observe (load b) v)) (acc ++ [v]) (by rw [hle]; exact h) (by
        rw [load_store _ _ h (wf_observe _ _), hl, List.foldl_append]; rfl)
      exact ⟨b', e, hlen.trans hle, hld⟩
    | updateMulti vs =>
      rw [runStat, updateMulti, if_neg (by rw [size]; omega)]
      have hle : (store b (vs.foldl observe (load b))).length = b.length := store_length _ _ h
      obtain ⟨b', e, hlen, hld⟩ := ih (store b (vs.foldl observe (load b))) (acc ++ vs) (by rw [hle]; exact h) (by
        rw [load_store _ _ h (wf_foldl _ _ (wf_load b)), hl, List.foldl_append])
      exact ⟨b', e, hlen.trans hle, hld⟩
    | reset =>
      rw [runStat]
      have hle := reset_length b
      obtain ⟨b', e, hlen, hld⟩ := ih (Stat64.reset b) [] (by rw [hle]; exact h) (load_reset b h)
      exact ⟨b', e, hlen.trans hle, hld⟩

theorem load_count (b : Bytes) : (load b).count = leU64 (slice b 0 8) := rfl
theorem load_sum (b : Bytes) : (load b).sum = F64.ofBits (leU64 (slice b 8 16)) := rfl
theorem load_mean (b : Bytes) : (load b).mean = F64.ofBits (leU64 (slice b 16 24)) := rfl
theorem load_ss (b : Bytes) : (load b).ss = F64.ofBits (leU64 (slice b 24 32)) := rfl
theorem arith_div (x y : F64) : Arith.div x y = F64.div x y := rfl
theorem arith_ofCount (c : U64) : (Arith.ofCount c : F64) = F64.ofU64 c := rfl

/-- what the four accessors return -/
theorem accessors (b : Bytes) (h : 32 ≤ b.length) :
    Stat64.count b = .val (load b).count ∧ Stat64.sum b = .val (load b).sum ∧ Stat64.mean b = .val (load b).mean ∧
      Stat64.variance b = .val ((load b).variance.getD .nan) := by
  refine ⟨?_, ?_, ?_, ?_⟩
  · rw [Stat64.count, if_neg (by omega), load_count]
  · rw [Stat64.sum, if_neg (by omega), load_sum]
  · rw [Stat64.mean, if_neg (by omega), load_mean]
  · rw [Stat64.variance, if_neg (by omega), Acc.variance, load_count, load_ss, arith_div, arith_ofCount]
    split
    · rw [Option.getD_none]
    · rw [if_neg (by rw [size]; omega), Option.getD_some]

/-- **C18**, batching never changes a statistic: after any history of `Update`, `UpdateMulti` and `Reset` calls on a
zeroed buffer nothing panics, and the four accessors return what feeding the observations since the last reset one by
one gives. -/
theorem C18_history (r : Bytes) (cs : List Call) :
    ∃ b, runStat (Stat64.new ++ r) cs = .val b ∧
      let a := (observed [] cs).foldl observe (Acc.init F64)
      Stat64.count b = .val a.count ∧ Stat64.sum b = .val a.sum ∧ Stat64.mean b = .val a.mean ∧
        Stat64.variance b = .val (a.variance.getD .nan) := by
  have hl : 32 ≤ (Stat64.new ++ r).length := by simp [Stat64.new, size]
  obtain ⟨b, e, hlen, hld⟩ := runStat_eq cs (Stat64.new ++ r) [] hl (load_zero r)
  refine ⟨b, e, ?_⟩
  have := accessors b (by rw [hlen]; exact hl)
  rw [hld] at this
  exact this

/-! ### values -/

theorem value_iff {x : F64} {z : Int} : F64.Is x z ↔ value x = some ((z : ℚ) / 2 ^ 1074) := by
  constructor
  · rintro ⟨s, m, rfl, rfl⟩
    unfold value F64.signed
    cases s <;> simp
  · intro h
    cases x with
    | nan => simp [value] at h
    | inf s => simp [value] at h
    | fin s m =>
      refine ⟨s, m, rfl, ?_⟩
      unfold value at h
      have h := Option.some.inj h
      have hp : (2 : ℚ) ^ 1074 ≠ 0 := by positivity
      generalize (2 : ℚ) ^ 1074 = P at *
      have h2 : (if s = true then -(m : ℚ) else m) = z := by
        field_simp at h; exact h
      have h3 : ((F64.signed s m : Int) : ℚ) = z := by
        rw [← h2]; unfold F64.signed; cases s <;> simp
      exact_mod_cast h3

theorem one_rat : ((F64.one : Nat) : ℚ) = 2 ^ 1074 := by
  rw [F64.one_eq, F64.expOne_eq]
  exact Nat.cast_pow 2 1074

theorem value_int {x : F64} {k : Int} : F64.Is x (k * F64.one) ↔ value x = some (k : ℚ) := by
  rw [value_iff, Int.cast_mul, Int.cast_natCast, one_rat]
  have hp : (2 : ℚ) ^ 1074 ≠ 0 := by positivity
  generalize (2 : ℚ) ^ 1074 = P at *
  rw [mul_div_assoc, div_self hp, mul_one]

theorem isDouble_iff {x : F64} : IsDouble x ↔ F64.Wf x :=
  ⟨fun ⟨b, h⟩ => h ▸ F64.wf_ofBits b, fun h => ⟨F64.toBits x, F64.ofBits_toBits h⟩⟩

theorem fin64_of {x : F64} (hd : IsDouble x) (hf : IsFinite x) : ∃ z, Fin64 x z := by
  obtain ⟨q, hq⟩ := hf
  cases x with
  | nan => simp [value] at hq
  | inf s => simp [value] at hq
  | fin s m => exact ⟨_, Fin64.of_wf (isDouble_iff.1 hd)⟩

/-- the accumulated state after the observations `xs` -/
def after (xs : List F64) : Acc F64 := xs.foldl observe (Acc.init F64)

/-! ### C19 -/

/-- **C19**: if every observation is an integer-valued double and every running total is at most 2^53 in magnitude,
`Sum` is the exact integer sum, in IEEE double arithmetic; `Count` is the exact number of observations (below 2^64)
whatever they are. -/
theorem C19_integer_sum (xs : List F64) (ks : List Int) (hv : List.Forall₂ (fun x (k : Int) => value x = some (k : ℚ)) xs ks)
    (hb : ∀ i, |(ks.take i).sum| ≤ 2 ^ 53) :
    value (after xs).sum = some ((ks.sum : Int) : ℚ) := by
  have h := sum_foldl_int ks xs (Acc.init F64) 0 (by rw [Int.zero_mul]; exact ⟨false, 0, rfl, rfl⟩)
    (hv.imp fun _ _ h => value_int.2 h) (by
      intro i
      have := hb i
      rw [Int.zero_add]
      zify
      exact this)
  rw [Int.zero_add] at h
  exact value_int.1 h

theorem C19_count (xs : List F64) (h : xs.length < 2 ^ 64) : (after xs).count.toNat = xs.length := by
  have := count_foldl xs (Acc.init F64) (by simpa [Acc.init] using h)
  simpa [Acc.init, after] using this

/-- instance: 2^53 - 1, -3, 4 -/
example : ∃ xs : List F64, ∃ ks : List Int, ks = [2 ^ 53 - 1, -3, 4] ∧
    List.Forall₂ (fun x (k : Int) => value x = some (k : ℚ)) xs ks ∧ (∀ i, |(ks.take i).sum| ≤ 2 ^ 53) ∧
    value (after xs).sum = some (((2 ^ 53 : Int)) : ℚ) := by
  have hv : List.Forall₂ (fun x (k : Int) => value x = some (k : ℚ))
      [F64.fin false ((2 ^ 53 - 1) * F64.one), F64.fin true (3 * F64.one), F64.fin false (4 * F64.one)]
      [2 ^ 53 - 1, -3, 4] := by
    refine .cons ?_ (.cons ?_ (.cons ?_ .nil)) <;> apply value_int.1
    · exact ⟨_, _, rfl, by simp [F64.signed]⟩
    · exact ⟨_, _, rfl, by simp [F64.signed]⟩
    · exact ⟨_, _, rfl, by simp [F64.signed]⟩
  have hb : ∀ i, |(([2 ^ 53 - 1, -3, 4] : List Int).take i).sum| ≤ 2 ^ 53 := by
    intro i
    match i with
    | 0 => decide
    | 1 => decide
    | 2 => decide
    | i + 3 => rw [List.take_of_length_le (by simp)]; decide
  exact ⟨_, _, rfl, hv, hb, C19_integer_sum _ _ hv hb⟩

/-! ### C20, C53 -/

theorem exists_extreme (xs : List F64) (hne : xs ≠ []) (h : ∀ x ∈ xs, ∃ z, Fin64 x z) :
    ∃ l ∈ xs, ∃ u ∈ xs, ∃ lo hi, Fin64 l lo ∧ Fin64 u hi ∧ ∀ x ∈ xs, ∃ z, Fin64 x z ∧ lo ≤ z ∧ z ≤ hi := by
  induction xs with
  | nil => exact absurd rfl hne
  | cons x xs ih =>
    obtain ⟨z, hz⟩ := h x (by simp)
    by_cases he : xs = []
    · subst he
      exact ⟨x, by simp, x, by simp, z, z, hz, hz, fun y hy => by
        have : y = x := by simpa using hy
        subst this; exact ⟨z, hz, le_refl _, le_refl _⟩⟩
    · obtain ⟨l, hl, u, hu, lo, hi, h1, h2, h3⟩ := ih he (fun y hy => h y (by simp [hy]))
      have ⟨l', hl', lo', h1', hlo, hlz⟩ : ∃ l' ∈ x :: xs, ∃ lo', Fin64 l' lo' ∧ lo' ≤ lo ∧ lo' ≤ z := by
        rcases le_total z lo with h | h
        · exact ⟨x, by simp, z, hz, h, le_refl _⟩
        · exact ⟨l, by simp [hl], lo, h1, le_refl _, h⟩
      have ⟨u', hu', hi', h2', hhi, hzh⟩ : ∃ u' ∈ x :: xs, ∃ hi', Fin64 u' hi' ∧ hi ≤ hi' ∧ z ≤ hi' := by
        rcases le_total z hi with h | h
        · exact ⟨u, by simp [hu], hi, h2, le_refl _, h⟩
        · exact ⟨x, by simp, z, hz, h, le_refl _⟩
      refine ⟨l', hl', u', hu', lo', hi', h1', h2', ?_⟩
      intro y hy
      rcases List.mem_cons.1 hy with rfl | hy
      · exact ⟨z, hz, hlz, hzh⟩
      · obtain ⟨w, hw, ha, hb⟩ := h3 y hy
        exact ⟨w, hw, by omega, by omega⟩

theorem after_inv (xs : List F64) (hne : xs ≠ []) (hn : xs.length < 2 ^ 64) (hd : ∀ x ∈ xs, IsDouble x ∧ IsFinite x)
    (hs : ∀ x ∈ xs, ∀ y ∈ xs, IsFinite (F64.sub x y)) :
    ∃ l ∈ xs, ∃ u ∈ xs, ∃ lo hi, Fin64 l lo ∧ Fin64 u hi ∧ (∀ x ∈ xs, ∃ z, Fin64 x z ∧ lo ≤ z ∧ z ≤ hi) ∧
      Inv lo hi (after xs) := by
  obtain ⟨l, hl, u, hu, lo, hi, h1, h2, h3⟩ := exists_extreme xs hne (fun x hx => fin64_of (hd x hx).1 (hd x hx).2)
  refine ⟨l, hl, u, hu, lo, hi, h1, h2, h3, ?_⟩
  apply inv_foldl _ xs _ (inv_init lo hi) (by simpa [Acc.init] using hn) h3
  have r := F64.sub_res h2.is h1.is
  unfold F64.Res at r
  split at r
  · assumption
  · obtain ⟨q, hq⟩ := hs u hu l hl
    rw [r] at hq
    simp [value] at hq

/-- **C20**: for every sequence of at least two (and fewer than 2^64) finite doubles no two of which differ by more than
the largest double, `Variance()` computed in IEEE double arithmetic is a number (not NaN) and not negative, whatever the
rounding errors. -/
theorem C20_nonneg (xs : List F64) (h2 : 2 ≤ xs.length) (hn : xs.length < 2 ^ 64)
    (hd : ∀ x ∈ xs, IsDouble x ∧ IsFinite x) (hs : ∀ x ∈ xs, ∀ y ∈ xs, IsFinite (F64.sub x y)) :
    ∃ v, (after xs).variance = some v ∧ v ≠ .nan ∧ F64.le F64.zero v = true := by
  obtain ⟨l, hl, u, hu, lo, hi, _, _, _, hinv⟩ := after_inv xs (by intro h; subst h; simp at h2) hn hd hs
  have hc := C19_count xs hn
  have := variance_nonneg hinv.ss (by rw [hc]; exact h2)
  refine ⟨_, by rw [Acc.variance, if_neg (by rw [hc]; omega), arith_div, arith_ofCount], ?_, this.le⟩
  intro h0
  have hle := this.le
  have e : F64.div (after xs).ss (F64.ofU64 ((after xs).count - 1)) = .nan := h0
  rw [e] at hle
  exact absurd hle (by decide)

/-- **C53**: under the same conditions, with one observation or more, `Mean()` lies between the smallest and the largest
observation: any two doubles that enclose all observations enclose the mean. -/
theorem C53_mean_within (xs : List F64) (hne : xs ≠ []) (hn : xs.length < 2 ^ 64)
    (hd : ∀ x ∈ xs, IsDouble x ∧ IsFinite x) (hs : ∀ x ∈ xs, ∀ y ∈ xs, IsFinite (F64.sub x y))
    (lo hi : F64) (hlo : ∀ x ∈ xs, F64.le lo x = true) (hhi : ∀ x ∈ xs, F64.le x hi = true) :
    F64.le lo (after xs).mean = true ∧ F64.le (after xs).mean hi = true := by
  obtain ⟨l, hl, u, hu, zl, zu, h1, h2, _, ⟨m, hm, hmr⟩, _⟩ := after_inv xs hne hn hd hs
  have hc := C19_count xs hn
  rw [if_neg (by
    intro h0
    rw [h0] at hc
    have := List.length_pos_of_ne_nil hne
    simp at hc; omega)] at hmr
  constructor
  · have hll := hlo l hl
    cases lo with
    | nan => exact absurd hll (by unfold F64.le F64.cmp; simp)
    | inf s =>
      obtain ⟨s', m', e, _⟩ := hm.is
      obtain ⟨sl, ml, el, _⟩ := h1.is
      rw [e]; rw [el] at hll
      cases s
      · exact absurd hll (by unfold F64.le F64.cmp; simp)
      · rfl
    | fin s k =>
      have hi1 : F64.Is (.fin s k) (F64.signed s k) := ⟨s, k, rfl, rfl⟩
      have := (F64.Is.le_iff hi1 h1.is).1 hll
      exact (F64.Is.le_iff hi1 hm.is).2 (by omega)
  · have hll := hhi u hu
    cases hi with
    | nan =>
      obtain ⟨sl, ml, el, _⟩ := h2.is
      rw [el] at hll
      exact absurd hll (by unfold F64.le F64.cmp; simp)
    | inf s =>
      obtain ⟨s', m', e, _⟩ := hm.is
      obtain ⟨sl, ml, el, _⟩ := h2.is
      rw [e]; rw [el] at hll
      cases s
      · rfl
      · exact absurd hll (by unfold F64.le F64.cmp; simp)
    | fin s k =>
      have hi1 : F64.Is (.fin s k) (F64.signed s k) := ⟨s, k, rfl, rfl⟩
      have := (F64.Is.le_iff h2.is hi1).1 hll
      exact (F64.Is.le_iff hm.is hi1).2 (by omega)

/-- 0.1, 0.3, 1e16 and -5: the hypotheses of C20 and C53 hold -/
def sample : List F64 := [0x3FB999999999999A#64, 0x3FD3333333333333#64, 0x4341C37937E08000#64, 0xC014000000000000#64].map
  F64.ofBits

instance : DecidablePred IsFinite := fun x =>
  match x with
  | .nan => isFalse (fun ⟨_, h⟩ => by simp [value] at h)
  | .inf _ => isFalse (fun ⟨_, h⟩ => by simp [value] at h)
  | .fin s m => isTrue ⟨_, rfl⟩

example : 2 ≤ sample.length ∧ (∀ x ∈ sample, IsDouble x ∧ IsFinite x) ∧
    (∀ x ∈ sample, ∀ y ∈ sample, IsFinite (F64.sub x y)) := by
  refine ⟨by decide, ?_, by decide +kernel⟩
  intro x hx
  refine ⟨?_, ?_⟩
  · unfold sample at hx
    obtain ⟨b, _, e⟩ := List.mem_map.1 hx
    exact ⟨b, e⟩
  · revert x; decide +kernel

/-- The exclusion in C20 is needed: the difference of 1.5e308 and -1.5e308 overflows, and the variance of that stream
comes out as minus infinity. -/
theorem C20_overflow : ∃ x y : F64, IsDouble x ∧ IsDouble y ∧ IsFinite x ∧ IsFinite y ∧
    ∃ v, (after [x, y]).variance = some v ∧ F64.lt v F64.zero = true := by
  refine ⟨F64.ofBits 0x7FEAB36D48F4F0CD#64, F64.ofBits 0xFFEAB36D48F4F0CD#64, ⟨_, rfl⟩, ⟨_, rfl⟩, ?_, ?_, ?_⟩
  · decide +kernel
  · decide +kernel
  · exact ⟨.inf true, by decide +kernel, by decide⟩

/-! ### C54 -/

/-- the exact values of finite doubles -/
def values (xs : List F64) : List ℚ := xs.filterMap value

/-- **C54**: however many doubles are summed, if none is NaN or infinite and `Sum()` is finite, it differs from the exact
sum by at most `((1 + 2^-53)^n - 1)` times the sum of the magnitudes. -/
theorem C54_sum_error (xs : List F64) (hd : ∀ x ∈ xs, IsFinite x) (hf : IsFinite (after xs).sum) :
    ∃ s, value (after xs).sum = some s ∧
      |s - (values xs).sum| ≤ ((1 + 1 / 2 ^ 53) ^ xs.length - 1) * ((values xs).map abs).sum := by
  have hz : ∃ zs : List Int, List.Forall₂ (fun x z => F64.Is x z) xs zs ∧
      values xs = zs.map fun z : Int => (z : ℚ) / 2 ^ 1074 := by
    clear hf
    induction xs with
    | nil => exact ⟨[], .nil, rfl⟩
    | cons x xs ih =>
      obtain ⟨zs, h1, h2⟩ := ih (fun y hy => hd y (by simp [hy]))
      obtain ⟨q, hq⟩ := hd x (by simp)
      cases x with
      | nan => simp [value] at hq
      | inf s => simp [value] at hq
      | fin s m =>
        have hx : F64.Is (.fin s m) (F64.signed s m) := ⟨s, m, rfl, rfl⟩
        refine ⟨F64.signed s m :: zs, .cons hx h1, ?_⟩
        rw [values, List.filterMap_cons_some (value_iff.1 hx), List.map_cons, ← h2]
        rfl
  obtain ⟨zs, h1, h2⟩ := hz
  have hfin : ∃ r, F64.Is (after xs).sum r := by
    obtain ⟨q, hq⟩ := hf
    generalize (after xs).sum = y at *
    cases y with
    | nan => simp [value] at hq
    | inf s => simp [value] at hq
    | fin s m => exact ⟨_, s, m, rfl, rfl⟩
  obtain ⟨r, hr, hb⟩ := sum_foldl_err zs xs (Acc.init F64) 0 0 0 0 ⟨false, 0, rfl, rfl⟩ (by simp) (by simp) (le_refl _) h1
    hfin
  refine ⟨_, value_iff.1 hr, ?_⟩
  have e1 : (values xs).sum = ((zs.sum : Int) : ℚ) / 2 ^ 1074 := by
    rw [h2]
    generalize (2 : ℚ) ^ 1074 = P
    clear h1 h2 hb
    induction zs with
    | nil => simp
    | cons z zs ih => rw [List.map_cons, List.sum_cons, ih, List.sum_cons]; push_cast; ring
  have hP : (0 : ℚ) < 2 ^ 1074 := by positivity
  have e2 : ((values xs).map abs).sum = (((zs.map abs).sum : Int) : ℚ) / 2 ^ 1074 := by
    rw [h2]
    generalize (2 : ℚ) ^ 1074 = P at *
    clear h1 h2 hb e1
    induction zs with
    | nil => simp
    | cons z zs ih =>
      rw [List.map_cons, List.map_cons, List.sum_cons, ih, List.map_cons, List.sum_cons]
      push_cast
      rw [abs_div, abs_of_pos hP]; ring
  rw [e1, e2]
  generalize (2 : ℚ) ^ 1074 = P at *
  rw [add_zero, one_mul, Int.zero_add, Int.zero_add] at hb
  rw [← sub_div, abs_div, abs_of_pos hP, ← mul_div_assoc]
  exact div_le_div_of_nonneg_right hb hP.le

/-- instance: the bound is about a sum that really rounds -/
example : (∀ x ∈ sample, IsFinite x) ∧ IsFinite (after sample).sum := by
  constructor <;> decide +kernel

/-! ### C21 -/

/-- **C21**: if the same finite double is observed `n ≥ 1` times, `Mean()` is exactly that number and, from the second
observation on, `Variance()` is exactly zero. -/
theorem C21_constant (v : F64) (hd : IsDouble v) (hf : IsFinite v) (n : Nat) (h1 : 1 ≤ n) (hn : n < 2 ^ 64) :
    value (after (List.replicate n v)).mean = value v ∧
    (2 ≤ n → ∃ r, (after (List.replicate n v)).variance = some r ∧ value r = some 0) := by
  obtain ⟨z, hz⟩ := fin64_of hd hf
  obtain ⟨k, rfl⟩ : ∃ k, n = k + 1 := ⟨n - 1, by omega⟩
  have hc := const_foldl hz k hn
  constructor
  · rw [value_iff.1 hz.is]; exact value_iff.1 hc.mean
  · intro h2
    have hcnt := C19_count (List.replicate (k + 1) v) (by simpa using hn)
    rw [List.length_replicate] at hcnt
    refine ⟨_, by rw [Acc.variance, if_neg (by rw [hcnt]; omega)], ?_⟩
    have ho := F64.one_pos
    have hN := cmag_le (c := (after (List.replicate (k + 1) v)).count - 1) (k := 1) (by omega) (by
      have := (after (List.replicate (k + 1) v)).count.isLt
      rw [BitVec.toNat_sub, show (1 : U64).toNat = 1 from rfl]; omega)
    have r := F64.div_res hc.ss (ofU64_is ((after (List.replicate (k + 1) v)).count - 1)) (by omega) (ofU64_eq _)
    rw [Int.zero_mul] at r
    have e := F64.rq_zero (cmag ((after (List.replicate (k + 1) v)).count - 1)) (by omega)
    have := r.is (by rw [e]; exact F64.limit_pos)
    rw [e] at this
    have := value_iff.1 this
    rw [Int.cast_zero, zero_div] at this
    exact this

example : IsDouble (F64.ofBits 0x3FB999999999999A#64) ∧ IsFinite (F64.ofBits 0x3FB999999999999A#64) :=
  ⟨⟨_, rfl⟩, by decide +kernel⟩

end Starbow.Props
