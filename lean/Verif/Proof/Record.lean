import Verif.Proof.Collation
import Verif.Proof.HllEst
import Verif.Props.Stat64
/-
What the bytes of each kind of measure hold after accepted rows.
-/
namespace Starbow.Collation
open Starbow Starbow.Spec

/-! ### folding over rows is folding over values -/

theorem foldl_rows {α β γ : Type} (k : β → List γ) (g : α → γ → α) (rows : List β) : ∀ d : α,
    rows.foldl (fun d r => (k r).foldl g d) d = (rows.flatMap k).foldl g d := by
  induction rows with
  | nil => intro d; rfl
  | cons r rows ih => intro d; rw [List.foldl_cons, List.flatMap_cons, List.foldl_append, ih]

theorem fold_cont (lib : Lib) (f : Bytes) (m : Measure) (init : Bool) (fvs : List FV) : ∀ d : Bytes,
    fvs.foldl (fvEff lib (.cont f) m init) d =
      ((fvs.filterMap fun fv => if fv.f = f then some fv.v else none).filterMap lib.parseFloat).foldl
        (fun d x => (contWriterFn m d init x).1) d := by
  induction fvs with
  | nil => intro d; rfl
  | cons fv fvs ih =>
    intro d
    rw [List.foldl_cons, ih, List.filterMap_cons]
    unfold fvEff
    dsimp only
    by_cases hf : fv.f = f
    · rw [if_pos hf, if_pos hf, List.filterMap_cons]
      cases lib.parseFloat fv.v <;> rfl
    · rw [if_neg hf, if_neg hf]

theorem fold_disc (lib : Lib) (f : Bytes) (m : Measure) (init : Bool) (fvs : List FV) : ∀ d : Bytes,
    fvs.foldl (fvEff lib (.disc f) m init) d =
      (fvs.filterMap fun fv => if fv.f = f then some fv.v else none).foldl (fun d x => (discWriterFn m d init x).1) d := by
  induction fvs with
  | nil => intro d; rfl
  | cons fv fvs ih =>
    intro d
    rw [List.foldl_cons, ih, List.filterMap_cons]
    unfold fvEff
    dsimp only
    by_cases hf : fv.f = f
    · rw [if_pos hf, if_pos hf]; rfl
    · rw [if_neg hf, if_neg hf]

theorem fold_row (lib : Lib) (m : Measure) (init : Bool) (fvs : List FV) : ∀ d : Bytes,
    fvs.foldl (fvEff lib .row m init) d = d := by
  induction fvs with
  | nil => intro d; rfl
  | cons fv fvs ih => intro d; rw [List.foldl_cons, ih]; rfl

theorem valuesOf_cons (f : Bytes) (r : Row) (rows : List Row) : valuesOf f (r :: rows) = valuesOf f [r] ++ valuesOf f rows := by
  unfold valuesOf; simp [List.filterMap_append]

theorem numbersOf_cons (lib : Lib) (f : Bytes) (r : Row) (rows : List Row) :
    numbersOf lib f (r :: rows) = numbersOf lib f [r] ++ numbersOf lib f rows := by
  unfold numbersOf; rw [valuesOf_cons, List.filterMap_append]

section
variable {b : Building} {L : List (Owner × Cell)} {D : List (Bytes × Measure)}

/-- the bytes of a continuous writer -/
theorem cont_bytes (lib : Lib) (h : Laid b L D) {f : Bytes} {v : Cell} (hv : (Owner.cont f, v) ∈ L) (r : Row) (rows : List Row)
    (buf : Bytes) (hr : RecordOf lib b.coll (r :: rows) buf) :
    buf.length = b.coll.size.toNat ∧ slice buf v.low.toNat v.high.toNat =
      (numbersOf lib f rows).foldl (fun d x => (contWriterFn v.m d false x).1)
        ((numbersOf lib f [r]).foldl (fun d x => (contWriterFn v.m d true x).1) (List.replicate v.m.size.toNat 0#8)) := by
  obtain ⟨h1, h2⟩ := record_effect lib h hv r rows buf hr
  refine ⟨h1, ?_⟩
  rw [h2]
  unfold rowEff
  dsimp only
  rw [foldl_rows, fold_cont, fold_cont]
  unfold numbersOf valuesOf
  simp

/-- the bytes of a discrete writer -/
theorem disc_bytes (lib : Lib) (h : Laid b L D) {f : Bytes} {v : Cell} (hv : (Owner.disc f, v) ∈ L) (r : Row) (rows : List Row)
    (buf : Bytes) (hr : RecordOf lib b.coll (r :: rows) buf) :
    buf.length = b.coll.size.toNat ∧ slice buf v.low.toNat v.high.toNat =
      (valuesOf f rows).foldl (fun d x => (discWriterFn v.m d false x).1)
        ((valuesOf f [r]).foldl (fun d x => (discWriterFn v.m d true x).1) (List.replicate v.m.size.toNat 0#8)) := by
  obtain ⟨h1, h2⟩ := record_effect lib h hv r rows buf hr
  refine ⟨h1, ?_⟩
  rw [h2]
  unfold rowEff
  dsimp only
  rw [foldl_rows, fold_disc, fold_disc]
  unfold valuesOf
  simp

/-- the bytes of a record measure -/
theorem row_bytes (lib : Lib) (h : Laid b L D) {v : Cell} (hv : (Owner.row, v) ∈ L) (rows : List Row) (hne : rows ≠ [])
    (buf : Bytes) (hr : RecordOf lib b.coll rows buf) :
    buf.length = b.coll.size.toNat ∧ slice buf v.low.toNat v.high.toNat =
      rows.foldl (fun d _ => (countWriter d).1) (List.replicate v.m.size.toNat 0#8) := by
  cases rows with
  | nil => exact absurd rfl hne
  | cons r rows =>
    obtain ⟨h1, h2⟩ := record_effect lib h hv r rows buf hr
    refine ⟨h1, ?_⟩
    rw [h2]
    simp only [fold_row]
    rfl

end

/-! ### count -/

theorem countWriter_eq (d : Bytes) (hd : d.length = 8) : (countWriter d).1 = le64 (leU64 d + 1) := by
  unfold countWriter
  rw [if_neg (by omega)]
  unfold splice
  simp [hd]

theorem count_fold {α : Type} (rows : List α) : ∀ d : Bytes, d.length = 8 →
    rows.foldl (fun d _ => (countWriter d).1) d = le64 (leU64 d + BitVec.ofNat 64 rows.length) ∨
    (rows = [] ∧ rows.foldl (fun d _ => (countWriter d).1) d = d) := by
  induction rows with
  | nil => intro d _; exact .inr ⟨rfl, rfl⟩
  | cons r rows ih =>
    intro d hd
    left
    rw [List.foldl_cons, countWriter_eq d hd]
    rcases ih (le64 (leU64 d + 1)) (by simp) with h | ⟨h0, h⟩
    · rw [h, leU64_le64]
      congr 1
      rw [List.length_cons]
      apply BitVec.eq_of_toNat_eq
      simp only [BitVec.toNat_add, BitVec.toNat_ofNat, show (1 : U64).toNat = 1 from rfl]
      omega
    · rw [h0]; rfl

/-! ### sum, mean, variance -/

theorem statWriter_eq (d : Bytes) (hd : 32 ≤ d.length) (x : F64) :
    statWriter d x = (Stat64.store d (Stat64.observe (Stat64.load d) x), .val none) := by
  unfold statWriter Stat64.update
  rw [if_neg (by unfold Stat64.size; omega)]

theorem stat_fold (xs : List F64) : ∀ d : Bytes, 32 ≤ d.length →
    (xs.foldl (fun d x => (statWriter d x).1) d).length = d.length ∧
    Stat64.load (xs.foldl (fun d x => (statWriter d x).1) d) = xs.foldl Stat64.observe (Stat64.load d) := by
  induction xs with
  | nil => intro d _; exact ⟨rfl, rfl⟩
  | cons x xs ih =>
    intro d hd
    rw [List.foldl_cons, List.foldl_cons, statWriter_eq d hd]
    have hl := Stat64.store_length d (Stat64.observe (Stat64.load d) x) hd
    obtain ⟨h1, h2⟩ := ih (Stat64.store d (Stat64.observe (Stat64.load d) x)) (by omega)
    exact ⟨h1.trans hl, by rw [h2, Stat64.load_store _ _ hd (Stat64.wf_observe _ _)]⟩

theorem contWriterFn_stat {m : Measure} (hs : m.stat = true) (d : Bytes) (i : Bool) (x : F64) :
    contWriterFn m d i x = statWriter d x := by
  cases m <;> first | rfl | simp [Measure.stat] at hs

theorem stat_size {m : Measure} (hs : m.stat = true) (hc : m.continuousInput = true) : m.size = 32 := by
  cases m <;> first | rfl | simp [Measure.stat, Measure.continuousInput] at hs hc

/-! ### max and min -/

theorem le_fin (u : Bool) (v : Nat) (w : Bool) (t : Nat) :
    F64.le (.fin u v) (.fin w t) = true ↔ F64.signed u v ≤ F64.signed w t := by
  simp only [F64.le, F64.cmp]
  generalize F64.signed u v = a
  generalize F64.signed w t = b
  rcases lt_trichotomy a b with h | h | h
  · simp [compare_lt_iff_lt.2 h]; omega
  · subst h; simp
  · simp [compare_gt_iff_gt.2 h]; omega

theorem le_trans' {x y z : F64} (h1 : F64.le x y = true) (h2 : F64.le y z = true) : F64.le x z = true := by
  cases x with
  | nan => simp [F64.le, F64.cmp] at h1
  | inf a =>
    cases y with
    | nan => simp [F64.le, F64.cmp] at h1
    | inf b =>
      cases z with
      | nan => simp [F64.le, F64.cmp] at h2
      | inf c => cases a <;> cases b <;> cases c <;> simp [F64.le, F64.cmp] at *
      | fin c n => cases a <;> cases b <;> simp [F64.le, F64.cmp] at *
    | fin b n =>
      cases z with
      | nan => simp [F64.le, F64.cmp] at h2
      | inf c => cases a <;> cases c <;> simp [F64.le, F64.cmp] at *
      | fin c k => cases a <;> simp [F64.le, F64.cmp] at *
  | fin a m =>
    cases y with
    | nan => simp [F64.le, F64.cmp] at h1
    | inf b =>
      cases z with
      | nan => simp [F64.le, F64.cmp] at h2
      | inf c => cases b <;> cases c <;> simp [F64.le, F64.cmp] at *
      | fin c n => cases b <;> simp [F64.le, F64.cmp] at *
    | fin b n =>
      cases z with
      | nan => simp [F64.le, F64.cmp] at h2
      | inf c => cases c <;> simp [F64.le, F64.cmp] at *
      | fin c k =>
        rw [le_fin] at *
        omega

theorem le_total' {x y : F64} (hx : x ≠ .nan) (hy : y ≠ .nan) : F64.le x y = true ∨ F64.le y x = true := by
  cases x with
  | nan => exact absurd rfl hx
  | inf a =>
    cases y with
    | nan => exact absurd rfl hy
    | inf b => cases a <;> cases b <;> simp [F64.le, F64.cmp]
    | fin b n => cases a <;> simp [F64.le, F64.cmp]
  | fin a m =>
    cases y with
    | nan => exact absurd rfl hy
    | inf b => cases b <;> simp [F64.le, F64.cmp]
    | fin b n =>
      rw [le_fin, le_fin]
      omega

theorem le_refl' {x : F64} (hx : x ≠ .nan) : F64.le x x = true := by
  rcases le_total' hx hx with h | h <;> exact h

/-- what the max writer keeps -/
def pickMax (x v : F64) : F64 := if F64.ge x v then x else v
/-- what the min writer keeps -/
def pickMin (x v : F64) : F64 := if F64.le x v then x else v

theorem putFloat_eq (d : Bytes) (hd : d.length = 8) (v : F64) : putFloat d v = (le64 (F64.toBits v), .val none) := by
  unfold putFloat
  rw [if_neg (by omega)]
  unfold splice
  simp [hd]

theorem maxWriter_eq {x : F64} (hx : F64.Wf x) (v : F64) :
    maxWriter (le64 (F64.toBits x)) false v = (le64 (F64.toBits (pickMax x v)), .val none) := by
  unfold maxWriter pickMax
  rw [if_neg (by simp), if_neg (by simp), leU64_le64, F64.ofBits_toBits hx]
  split
  · rfl
  · exact putFloat_eq _ (by simp) v

theorem minWriter_eq {x : F64} (hx : F64.Wf x) (v : F64) :
    minWriter (le64 (F64.toBits x)) false v = (le64 (F64.toBits (pickMin x v)), .val none) := by
  unfold minWriter pickMin
  rw [if_neg (by simp), if_neg (by simp), leU64_le64, F64.ofBits_toBits hx]
  split
  · rfl
  · exact putFloat_eq _ (by simp) v

theorem wf_pickMax {x v : F64} (hx : F64.Wf x) (hv : F64.Wf v) : F64.Wf (pickMax x v) := by
  unfold pickMax; split <;> assumption

theorem wf_pickMin {x v : F64} (hx : F64.Wf x) (hv : F64.Wf v) : F64.Wf (pickMin x v) := by
  unfold pickMin; split <;> assumption

theorem max_fold (vs : List F64) (hvs : ∀ v ∈ vs, F64.Wf v) : ∀ x : F64, F64.Wf x →
    vs.foldl (fun d v => (maxWriter d false v).1) (le64 (F64.toBits x)) = le64 (F64.toBits (vs.foldl pickMax x)) ∧
      F64.Wf (vs.foldl pickMax x) := by
  induction vs with
  | nil => intro x hx; exact ⟨rfl, hx⟩
  | cons v vs ih =>
    intro x hx
    rw [List.foldl_cons, List.foldl_cons, maxWriter_eq hx]
    exact ih (fun v hv => hvs v (by simp [hv])) _ (wf_pickMax hx (hvs v (by simp)))

theorem min_fold (vs : List F64) (hvs : ∀ v ∈ vs, F64.Wf v) : ∀ x : F64, F64.Wf x →
    vs.foldl (fun d v => (minWriter d false v).1) (le64 (F64.toBits x)) = le64 (F64.toBits (vs.foldl pickMin x)) ∧
      F64.Wf (vs.foldl pickMin x) := by
  induction vs with
  | nil => intro x hx; exact ⟨rfl, hx⟩
  | cons v vs ih =>
    intro x hx
    rw [List.foldl_cons, List.foldl_cons, minWriter_eq hx]
    exact ih (fun v hv => hvs v (by simp [hv])) _ (wf_pickMin hx (hvs v (by simp)))

theorem pickMax_extreme (vs : List F64) : ∀ x : F64, x ≠ .nan → (∀ v ∈ vs, v ≠ .nan) →
    vs.foldl pickMax x ∈ x :: vs ∧ ∀ v ∈ x :: vs, F64.le v (vs.foldl pickMax x) = true := by
  induction vs with
  | nil =>
    intro x hx _
    refine ⟨by simp, ?_⟩
    intro v hv
    simp only [List.mem_singleton] at hv
    subst hv
    exact le_refl' hx
  | cons v vs ih =>
    intro x hx hvs
    rw [List.foldl_cons]
    have hv := hvs v (by simp)
    have hp : pickMax x v ≠ .nan := by unfold pickMax; split <;> assumption
    obtain ⟨h1, h2⟩ := ih (pickMax x v) hp fun w hw => hvs w (by simp [hw])
    have hx' : F64.le x (pickMax x v) = true := by
      unfold pickMax F64.ge
      split
      · exact le_refl' hx
      · next h => rcases le_total' hx hv with h' | h'
                  · exact h'
                  · exact absurd h' h
    have hv' : F64.le v (pickMax x v) = true := by
      unfold pickMax F64.ge
      split
      · assumption
      · exact le_refl' hv
    have htop := h2 (pickMax x v) (by simp)
    refine ⟨?_, ?_⟩
    · rcases List.mem_cons.1 h1 with h | h
      · rw [h]; unfold pickMax; split <;> simp
      · simp [h]
    · intro w hw
      rcases List.mem_cons.1 hw with rfl | hw
      · exact le_trans' hx' htop
      · rcases List.mem_cons.1 hw with rfl | hw
        · exact le_trans' hv' htop
        · exact h2 w (by simp [hw])

theorem pickMin_extreme (vs : List F64) : ∀ x : F64, x ≠ .nan → (∀ v ∈ vs, v ≠ .nan) →
    vs.foldl pickMin x ∈ x :: vs ∧ ∀ v ∈ x :: vs, F64.le (vs.foldl pickMin x) v = true := by
  induction vs with
  | nil =>
    intro x hx _
    refine ⟨by simp, ?_⟩
    intro v hv
    simp only [List.mem_singleton] at hv
    subst hv
    exact le_refl' hx
  | cons v vs ih =>
    intro x hx hvs
    rw [List.foldl_cons]
    have hv := hvs v (by simp)
    have hp : pickMin x v ≠ .nan := by unfold pickMin; split <;> assumption
    obtain ⟨h1, h2⟩ := ih (pickMin x v) hp fun w hw => hvs w (by simp [hw])
    have hx' : F64.le (pickMin x v) x = true := by
      unfold pickMin
      split
      · exact le_refl' hx
      · next h => rcases le_total' hx hv with h' | h'
                  · exact absurd h' h
                  · exact h'
    have hv' : F64.le (pickMin x v) v = true := by
      unfold pickMin
      split
      · assumption
      · exact le_refl' hv
    have htop := h2 (pickMin x v) (by simp)
    refine ⟨?_, ?_⟩
    · rcases List.mem_cons.1 h1 with h | h
      · rw [h]; unfold pickMin; split <;> simp
      · simp [h]
    · intro w hw
      rcases List.mem_cons.1 hw with rfl | hw
      · exact le_trans' htop hx'
      · rcases List.mem_cons.1 hw with rfl | hw
        · exact le_trans' htop hv'
        · exact h2 w (by simp [hw])

/-- a NaN replaces whatever was there, and is replaced by whatever comes next -/
theorem pick_nan (x : F64) : pickMax x .nan = .nan ∧ pickMin x .nan = .nan ∧ pickMax .nan x = x ∧ pickMin .nan x = x := by
  cases x <;> simp [pickMax, pickMin, F64.ge, F64.le, F64.cmp]

/-! ### uniquecount -/

/-- the bytes of a serialised counter -/
def enc (c : Hll.Counter) : Bytes := (Hll.writeTo c Writer.buffer).2.out

theorem enc_length {c : Hll.Counter} (hc : Hll.WF c) : ((enc c).length : Int) = Hll.len c.p := by
  obtain ⟨_, h2, h3⟩ := Props.C13_write c hc
  rw [show (enc c).length = Hll.lenOf c from h2]; exact h3

theorem copyTo_same {d v : Bytes} (h : d.length = v.length) : copyTo d v = v := by
  unfold copyTo; rw [h]; simp [← h]

theorem add_wf {c : Hll.Counter} (hc : Hll.WF c) (v : Bytes) : ∃ c', Hll.add c v = .val c' ∧ Hll.WF c' ∧ c'.p = c.p := by
  obtain ⟨c', e, hp, hr⟩ := Hll.add_eq ⟨hc, Bitbucket.holds_self hc.bits⟩ v
  exact ⟨c', e, hr.wf, hp⟩

theorem hll_new_wf {p : Byte} (h4 : 4 ≤ p.toNat) (h18 : p.toNat ≤ 18) : ∃ c, Hll.new p = .val c ∧ Hll.WF c ∧ c.p = p := by
  obtain ⟨c, e, hp, hr⟩ := Hll.new_regs p h4 h18
  exact ⟨c, e, hr.wf, hp⟩

/-- the writer on a new record -/
theorem cardWriter_init {p : Int} (h4 : 4 ≤ p) (h18 : p ≤ 18) {d : Bytes} (hd : (d.length : Int) = Hll.len (precision p)) (v : Bytes) :
    ∃ c0 c, Hll.new (precision p) = .val c0 ∧ Hll.add c0 v = .val c ∧ Hll.WF c ∧ c.p = precision p ∧
      cardWriter p d true v = (enc c, .val none) := by
  have hp := card_precision h4 h18
  obtain ⟨c0, e0, w0, p0⟩ := hll_new_wf (p := precision p) (by omega) (by omega)
  obtain ⟨c, e, w, hpc⟩ := add_wf w0 v
  refine ⟨c0, c, e0, e, w, hpc.trans p0, ?_⟩
  unfold cardWriter
  rw [if_pos rfl, e0, Out.bind_val, e]
  have hl := enc_length w
  rw [hpc, p0, ← hd] at hl
  simp only
  rw [(Props.C13_write c w).1]
  rw [show (Hll.writeTo c Writer.buffer).2.out = enc c from rfl, copyTo_same (by omega)]

theorem storeBack_enc {c c' : Hll.Counter} (hc : Hll.WF c) (hc' : Hll.WF c') (hp : c'.p = c.p) : cardStoreBack (enc c) c' = enc c' := by
  have hlen : c'.bits.data.length = c.bits.data.length := by
    rw [hc'.bits.len, hc.bits.len, hc'.n, hc.n, hc'.w, hc.w, hp]
  have hh : Bitbucket.header c'.bits = Bitbucket.header c.bits := by
    unfold Bitbucket.header; rw [hc'.n, hc.n, hc'.w, hc.w, hp]
  have e1 : ∀ c : Hll.Counter, enc c = [1#8, c.p] ++ (Bitbucket.header c.bits ++ c.bits.data) := by
    intro c
    unfold enc
    rw [(Props.hll_out c).1, Bitbucket.writeTo_out _ _ rfl]
    rfl
  rw [e1 c, e1 c']
  unfold cardStoreBack Bitbucket.storeBack splice
  rw [List.take_left' (by rfl), List.drop_left' (by rfl)]
  rw [List.take_left' (by simp [Bitbucket.hdrLen]), hh, hp, List.drop_of_length_le (by simp [Bitbucket.hdrLen, hlen]), List.append_nil]

/-- the writer on an existing record -/
theorem cardWriter_next {p : Int} {c : Hll.Counter} (hc : Hll.WF c) (v : Bytes) :
    ∃ c', Hll.add c v = .val c' ∧ Hll.WF c' ∧ c'.p = c.p ∧ cardWriter p (enc c) false v = (enc c', .val none) := by
  obtain ⟨c', e, w, hp⟩ := add_wf hc v
  refine ⟨c', e, w, hp, ?_⟩
  unfold cardWriter
  have := Props.C13_withBytes c hc []
  rw [List.append_nil] at this
  rw [if_neg (by simp), show enc c = (Hll.writeTo c Writer.buffer).2.out from rfl, this]
  simp only
  rw [e]
  simp only
  rw [← show enc c = (Hll.writeTo c Writer.buffer).2.out from rfl, storeBack_enc hc w hp]

/-- the writer on bytes that were never initialised -/
theorem cardWriter_zero (p : Int) (n : Nat) (hn : 0 < n) (v : Bytes) :
    cardWriter p (List.replicate n 0#8) false v = (List.replicate n 0#8, .val (some .incompatibleVersion)) := by
  unfold cardWriter Hll.withBytes
  rw [if_neg (by simp), if_neg (by simp; omega)]
  have : (List.replicate n 0#8).getD 0 0 ≠ Hll.version := by
    cases n with
    | zero => omega
    | succ n => simp [List.replicate_succ, Hll.version]
  rw [if_pos this]

theorem card_fold {p : Int} (vs : List Bytes) : ∀ {c : Hll.Counter}, Hll.WF c →
    ∃ c', Props.runHll c (vs.map some) = .val c' ∧ Hll.WF c' ∧ c'.p = c.p ∧
      vs.foldl (fun d v => (cardWriter p d false v).1) (enc c) = enc c' := by
  induction vs with
  | nil => intro c hc; exact ⟨c, rfl, hc, rfl, rfl⟩
  | cons v vs ih =>
    intro c hc
    obtain ⟨c1, e1, w1, p1, h1⟩ := cardWriter_next (p := p) hc v
    obtain ⟨c2, e2, w2, p2, h2⟩ := ih w1
    refine ⟨c2, ?_, w2, p2.trans p1, ?_⟩
    · rw [List.map_cons, Props.runHll, e1, Out.bind_val]; exact e2
    · rw [List.foldl_cons, h1]; exact h2

theorem card_read (lib : Lib) {p : Int} {c : Hll.Counter} (hc : Hll.WF c) :
    ∃ n, Hll.count lib.log c = .val n ∧ readerFn lib (.cardinality p) (enc c) = .val (.ok (F64.ofInt n)) := by
  obtain ⟨n, hn⟩ := Hll.count_ok lib.log hc
  refine ⟨n, hn, ?_⟩
  rw [readerFn]
  have := Props.C13_withBytes c hc []
  rw [List.append_nil] at this
  rw [show enc c = (Hll.writeTo c Writer.buffer).2.out from rfl, this, Out.bind_val]
  simp only
  rw [hn]
  rfl

/-! ### reading -/

theorem cell_read_eq (lib : Lib) {n : Nat} {r : Cell} (hr : InRec n r) {buf : Bytes} (hl : buf.length = n) :
    r.read lib buf = readerFn lib r.m (slice buf r.low.toNat r.high.toNat) := by
  have := hr.low; have := hr.le; have := hr.high
  unfold Cell.read
  rw [if_neg (by omega)]

theorem ask_eq (lib : Lib) {c : Collator} {f n : Bytes} {r : Cell} (h : readerAt c f n = some r) (buf : Bytes) :
    ask lib c buf f n = match r.read lib buf with
      | .panic => .panic
      | .val (.error e) => .val ([], some e)
      | .val (.ok v) => .val ([⟨f, n, v⟩], none) := by
  unfold readerAt at h
  cases e : c.contReaders f with
  | none => rw [e] at h; simp at h
  | some rs =>
    rw [e, Option.bind_some] at h
    unfold ask read
    rw [readLoop]
    simp only [e]
    rw [readField, h]
    simp only
    rcases r.read lib buf with (er | v) | _
    · rfl
    · rfl
    · rfl

end Starbow.Collation
