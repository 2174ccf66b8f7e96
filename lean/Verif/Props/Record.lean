import Verif.Props.Collation
/-
Property theorems C24, C25 and C27: what a record reports after the observations given to it.
-/
namespace Starbow.Props
open Starbow.Spec Starbow.Collation

/-! ### what a declared measure looks at -/

theorem name_inj {m m' : Measure} (h : m.name = m'.name) : m = m' ∨ ∃ p q, m = .cardinality p ∧ m' = .cardinality q := by
  cases m <;> cases m' <;> first | exact .inl rfl | exact .inr ⟨_, _, rfl, rfl⟩ | (exfalso; revert h; simp only [Measure.name]; decide)

section
variable {b : Building} {L : List (Owner × Cell)} {D : List (Bytes × Measure)}

theorem declared_reader (h : Laid b L D) {f : Bytes} {m : Measure} (hd : (f, m) ∈ D) :
    ∃ r o w, readerAt b.coll f m.name = some r ∧ r.m.name = m.name ∧ (f, r.m) ∈ D ∧ (o, w) ∈ L ∧ w.low = r.low ∧ w.high = r.high ∧
      o.serves f ∧ Compat w.m r.m ∧ InRec b.coll.size.toNat r := by
  obtain ⟨r, hr⟩ := h.served f m hd
  obtain ⟨h1, h2, o, w, hm, e1, e2, hs, hc⟩ := h.reader f _ r hr
  have := inRec h hm
  exact ⟨r, o, w, hr, h1, h2, hm, e1, e2, hs, hc, ⟨e1 ▸ this.low, by rw [← e1, ← e2]; exact this.le, e2 ▸ this.high⟩⟩

/-- a continuous measure reads the bytes of a continuous writer of its field -/
theorem cont_reader (h : Laid b L D) {f : Bytes} {m : Measure} (hd : (f, m) ∈ D) (hm : m.continuousInput = true) :
    ∃ r w, readerAt b.coll f m.name = some r ∧ r.m = m ∧ (Owner.cont f, w) ∈ L ∧ w.low = r.low ∧ w.high = r.high ∧ Compat w.m m ∧
      InRec b.coll.size.toNat r := by
  obtain ⟨r, o, w, h1, h2, _, hw, e1, e2, hs, hc, hr⟩ := declared_reader h hd
  have hrm : r.m = m := by
    rcases name_inj h2 with e | ⟨p, q, _, e⟩
    · exact e
    · rw [e] at hm; simp [Measure.continuousInput] at hm
  rw [hrm] at hc
  have hwm : w.m.continuousInput = true := by
    rcases hc with e | ⟨_, e, _⟩
    · rw [e]; exact hm
    · exact e
  have ht := (h.cell o w hw).2.2.2.2
  cases o with
  | row => rw [show w.m = .count from ht] at hwm; simp [Measure.continuousInput] at hwm
  | cont g =>
    have : f = g := hs
    subst this
    exact ⟨r, w, h1, hrm, hw, e1, e2, hc, hr⟩
  | disc g =>
    obtain ⟨p, hp, _⟩ := ht
    rw [hp] at hwm; simp [Measure.continuousInput] at hwm

/-- a uniquecount reads the bytes of a discrete writer of its field -/
theorem disc_reader (h : Laid b L D) {f : Bytes} {p : Int} (hd : (f, Measure.cardinality p) ∈ D) :
    ∃ r q w, readerAt b.coll f (asc "uniquecount") = some r ∧ r.m = .cardinality q ∧ (f, Measure.cardinality q) ∈ D ∧ 4 ≤ q ∧ q ≤ 18 ∧
      (Owner.disc f, w) ∈ L ∧ w.low = r.low ∧ w.high = r.high ∧ w.m = .cardinality q ∧ InRec b.coll.size.toNat r := by
  obtain ⟨r, o, w, h1, h2, h3, hw, e1, e2, hs, hc, hr⟩ := declared_reader h hd
  obtain ⟨q, hrm⟩ : ∃ q, r.m = .cardinality q := by
    rcases name_inj h2 with e | ⟨q, _, e, _⟩
    · exact ⟨p, e⟩
    · exact ⟨q, e⟩
  rw [hrm] at hc h3
  have hwm : w.m = .cardinality q := by
    rcases hc with e | ⟨_, _, e, _⟩
    · exact e
    · simp [Measure.stat] at e
  have ht := (h.cell o w hw).2.2.2.2
  cases o with
  | row => rw [show w.m = .count from ht] at hwm; simp at hwm
  | cont g =>
    rw [hwm] at ht
    exact absurd (show (Measure.cardinality q).continuousInput = true from ht) (by simp [Measure.continuousInput])
  | disc g =>
    have : f = g := hs
    subst this
    obtain ⟨q', hq', h4, h18⟩ := ht
    rw [hwm] at hq'
    injection hq' with hq'
    subst hq'
    exact ⟨r, q, w, h1, hrm, h3, h4, h18, hw, e1, e2, hwm, hr⟩

/-- the record count reads the bytes of a record writer -/
theorem row_reader (h : Laid b L D) (hd : (asc "*", Measure.count) ∈ D) :
    ∃ r w, readerAt b.coll (asc "*") (asc "count") = some r ∧ r.m = .count ∧ (Owner.row, w) ∈ L ∧ w.low = r.low ∧ w.high = r.high ∧
      w.m = .count ∧ InRec b.coll.size.toNat r := by
  obtain ⟨r, o, w, h1, h2, h3, hw, e1, e2, hs, hc, hr⟩ := declared_reader h hd
  have hrm : r.m = .count := by
    rcases name_inj h2 with e | ⟨_, _, _, e⟩
    · exact e
    · simp at e
  rw [hrm] at hc
  have hwm : w.m = .count := by
    rcases hc with e | ⟨_, _, _, e⟩
    · exact e
    · simp [Measure.continuousInput] at e
  have ht := (h.cell o w hw).2.2.2.2
  cases o with
  | row => exact ⟨r, w, h1, hrm, hw, e1, e2, hwm, hr⟩
  | cont g => rw [hwm] at ht; exact absurd (show Measure.count.continuousInput = true from ht) (by simp [Measure.continuousInput])
  | disc g => obtain ⟨p, hp, _⟩ := ht; rw [hwm] at hp; simp at hp

end

/-- the reply to a request for one measure, given the outcome of its reader -/
def reply (f n : Bytes) : Out (Except Err F64) → Out (List FMV × Option Err)
  | .panic => .panic
  | .val (.error e) => .val ([], some e)
  | .val (.ok v) => .val ([⟨f, n, v⟩], none)

theorem ask_reply (lib : Lib) {c : Collator} {f n : Bytes} {r : Cell} (h : readerAt c f n = some r) (buf : Bytes) :
    ask lib c buf f n = reply f n (r.read lib buf) := by
  rw [ask_eq lib h]
  rcases r.read lib buf with (e | v) | _ <;> rfl

/-- what a declared continuous measure reports, in terms of its bytes -/
theorem cont_ask (lib : Lib) {s : Schema} (hv : ValidSchema s) {f : Bytes} {m : Measure} (hd : Declares s f m)
    (hm : m.continuousInput = true) {r : Row} {rows : List Row} {buf : Bytes} (hr : RecordOf lib (compile s) (r :: rows) buf) :
    ∃ wm, Compat wm m ∧ ask lib (compile s) buf f m.name =
      reply f m.name (readerFn lib m ((numbersOf lib f rows).foldl (fun d x => (contWriterFn wm d false x).1)
        ((numbersOf lib f [r]).foldl (fun d x => (contWriterFn wm d true x).1) (List.replicate wm.size.toNat 0#8)))) := by
  obtain ⟨L, D, pos, h, hD⟩ := laid_compile s hv
  obtain ⟨c, w, h1, h2, h3, e1, e2, hc, hin⟩ := cont_reader h ((hD f m).2 hd) hm
  obtain ⟨k1, k2⟩ := cont_bytes lib h h3 r rows buf hr
  refine ⟨w.m, hc, ?_⟩
  rw [ask_reply lib h1, cell_read_eq lib hin k1, ← e1, ← e2, k2, h2]

theorem compat_stat {wm m : Measure} (hc : Compat wm m) (hs : m.stat = true) (hm : m.continuousInput = true) :
    wm.stat = true ∧ wm.continuousInput = true := by
  rcases hc with rfl | ⟨h1, h2, _⟩
  · exact ⟨hs, hm⟩
  · exact ⟨h1, h2⟩

theorem compat_eq {wm m : Measure} (hc : Compat wm m) (hs : m.stat = false) : wm = m := by
  rcases hc with rfl | ⟨_, _, h, _⟩
  · rfl
  · rw [hs] at h; simp at h

/-! ### C25: count, sum, mean, variance -/

/-- **C25**, count: after any accepted observations `count(*)` is their number (modulo 2^64, rounded to a double). -/
theorem C25_count (lib : Lib) (s : Schema) (hv : ValidSchema s) (rows : List Row) (buf : Bytes)
    (hr : RecordOf lib (compile s) rows buf) (hd : Declares s (asc "*") .count) :
    ask lib (compile s) buf (asc "*") (asc "count") =
      .val ([⟨asc "*", asc "count", F64.ofU64 (BitVec.ofNat 64 rows.length)⟩], none) := by
  obtain ⟨L, D, pos, h, hD⟩ := laid_compile s hv
  obtain ⟨c, w, h1, h2, h3, e1, e2, hwm, hin⟩ := row_reader h ((hD _ _).2 hd)
  have hz : leU64 (List.replicate 8 0#8) = 0 := by decide
  have key : buf.length = (compile s).size.toNat ∧
      slice buf w.low.toNat w.high.toNat = le64 (BitVec.ofNat 64 rows.length) := by
    cases rows with
    | nil =>
      have hb : buf = blank (compile s) := by
        unfold RecordOf applyRows at hr
        simp only [Prod.mk.injEq, and_true] at hr
        exact hr.symm
      obtain ⟨c1, c2, c3, c4, _⟩ := h.cell _ w h3
      have h4 : w.high ≤ pos := c4
      have h5 : (compile s).size = pos := h.size
      have h8 : w.m.size = 8 := by rw [hwm]; rfl
      subst hb
      refine ⟨by unfold blank; simp, ?_⟩
      unfold blank slice
      rw [List.drop_replicate, List.take_replicate]
      rw [show min (w.high.toNat - w.low.toNat) ((compile s).size.toNat - w.low.toNat) = 8 by omega]
      decide
    | cons r rows =>
      obtain ⟨k1, k2⟩ := row_bytes lib h h3 (r :: rows) (by simp) buf hr
      refine ⟨k1, ?_⟩
      rw [k2, hwm]
      rcases count_fold (r :: rows) (List.replicate 8 0#8) (by simp) with e | ⟨e, _⟩
      · rw [hz] at e; exact e.trans (by congr 1; exact BitVec.zero_add _)
      · simp at e
  rw [ask_reply lib h1, cell_read_eq lib hin key.1, ← e1, ← e2, key.2, h2]
  rw [readerFn, if_neg (by simp), leU64_le64]
  rfl

/-- a count up to 2^53 is exact -/
theorem C25_count_exact (n : Nat) (hn : n ≤ 2 ^ 53) : value (F64.ofU64 (BitVec.ofNat 64 n)) = some (n : ℚ) := by
  have : (BitVec.ofNat 64 n).toNat = n := by rw [BitVec.toNat_ofNat]; exact Nat.mod_eq_of_lt (by omega)
  have h : F64.Is (F64.ofU64 (BitVec.ofNat 64 n)) ((n : Int) * F64.one) := by
    rw [F64.ofU64, this, Hll.ofNat_is hn]
    exact ⟨false, _, rfl, by rw [F64.signed]; simp⟩
  have := value_int.1 h
  rw [Int.cast_natCast] at this
  exact this

/-! #### statistics of numbers -/

theorem foldl_stat {wm : Measure} (hs : wm.stat = true) (i : Bool) (xs : List F64) (d : Bytes) :
    xs.foldl (fun d x => (contWriterFn wm d i x).1) d = xs.foldl (fun d x => (statWriter d x).1) d := by
  simp only [contWriterFn_stat hs]

/-- the three summary measures read the same summary, that of the field's numbers -/
theorem stat_ask (lib : Lib) {s : Schema} (hv : ValidSchema s) {f : Bytes} {m : Measure} (hd : Declares s f m)
    (hs : m.stat = true) (hm : m.continuousInput = true) {r : Row} {rows : List Row} {buf : Bytes}
    (hr : RecordOf lib (compile s) (r :: rows) buf) :
    ∃ d, 32 ≤ d.length ∧ Stat64.load d = after (numbersOf lib f (r :: rows)) ∧
      ask lib (compile s) buf f m.name = reply f m.name (readerFn lib m d) := by
  obtain ⟨wm, hc, ha⟩ := cont_ask lib hv hd hm hr
  obtain ⟨h1, h2⟩ := compat_stat hc hs hm
  rw [foldl_stat h1, foldl_stat h1, stat_size h1 h2, ← List.foldl_append, ← numbersOf_cons] at ha
  have hl : 32 ≤ (List.replicate (32 : Int).toNat 0#8).length := by simp
  obtain ⟨k1, k2⟩ := stat_fold (numbersOf lib f (r :: rows)) (List.replicate (32 : Int).toNat 0#8) hl
  refine ⟨_, by rw [k1]; exact hl, ?_, ha⟩
  rw [k2]
  have := Stat64.load_zero []
  rw [List.append_nil] at this
  rw [show List.replicate (32 : Int).toNat 0#8 = Stat64.new from rfl, this]
  rfl

theorem after_sum (xs : List F64) : (after xs).sum = xs.foldl F64.add (.fin false 0) := by
  have : ∀ (xs : List F64) (a : Stat64.Acc F64), (xs.foldl Stat64.observe a).sum = xs.foldl F64.add a.sum := by
    intro xs
    induction xs with
    | nil => intro a; rfl
    | cons x xs ih => intro a; rw [List.foldl_cons, ih, List.foldl_cons]; rfl
  exact this xs _

/-- **C25**, sum: the running floating point sum, from 0, of the numbers the observations carried for the field, in order,
whether or not other fields and measures are present. (How far that is from the exact sum is the subject of C19.) -/
theorem C25_sum (lib : Lib) (s : Schema) (hv : ValidSchema s) (f : Bytes) (hd : Declares s f .sum) (r : Row) (rows : List Row)
    (buf : Bytes) (hr : RecordOf lib (compile s) (r :: rows) buf) :
    ask lib (compile s) buf f (asc "sum") =
      .val ([⟨f, asc "sum", (numbersOf lib f (r :: rows)).foldl F64.add (.fin false 0)⟩], none) := by
  obtain ⟨d, h1, h2, h3⟩ := stat_ask lib hv hd rfl rfl hr
  rw [show Measure.sum.name = asc "sum" from rfl] at h3
  rw [h3, readerFn, (accessors d h1).2.1, h2, after_sum]
  rfl

/-- **C25**, mean: the streaming mean (see C17, C20) of exactly those numbers. -/
theorem C25_mean (lib : Lib) (s : Schema) (hv : ValidSchema s) (f : Bytes) (hd : Declares s f .mean) (r : Row) (rows : List Row)
    (buf : Bytes) (hr : RecordOf lib (compile s) (r :: rows) buf) :
    ask lib (compile s) buf f (asc "mean") = .val ([⟨f, asc "mean", (after (numbersOf lib f (r :: rows))).mean⟩], none) := by
  obtain ⟨d, h1, h2, h3⟩ := stat_ask lib hv hd rfl rfl hr
  rw [show Measure.mean.name = asc "mean" from rfl] at h3
  rw [h3, readerFn, (accessors d h1).2.2.1, h2]
  rfl

/-- **C25**, variance: the streaming sample variance (see C17, C21) of exactly those numbers, NaN for fewer than two. -/
theorem C25_var (lib : Lib) (s : Schema) (hv : ValidSchema s) (f : Bytes) (hd : Declares s f .variance) (r : Row) (rows : List Row)
    (buf : Bytes) (hr : RecordOf lib (compile s) (r :: rows) buf) :
    ask lib (compile s) buf f (asc "var") =
      .val ([⟨f, asc "var", (after (numbersOf lib f (r :: rows))).variance.getD .nan⟩], none) := by
  obtain ⟨d, h1, h2, h3⟩ := stat_ask lib hv hd rfl rfl hr
  rw [show Measure.variance.name = asc "var" from rfl] at h3
  rw [h3, readerFn, (accessors d h1).2.2.2, h2]
  rfl

/-! #### the values of accepted observations are numbers -/

theorem runWriters_bad (ws : List (Bytes → Wrote)) (w : Bytes → Wrote) (hw : w ∈ ws) (hbad : ∀ buf, (w buf).2 ≠ .val none) :
    ∀ buf, (runWriters buf ws).2 ≠ .val none := by
  induction ws with
  | nil => simp at hw
  | cons w' ws ih =>
    intro buf
    rw [runWriters]
    rcases e1 : w' buf with ⟨b, e⟩
    rcases List.mem_cons.1 hw with rfl | hw
    · have := hbad buf
      rw [e1] at this
      rcases e with (e | e) | _
      · exact absurd rfl this
      · exact this
      · exact this
    · rcases e with (e | e) | _
      · exact ih hw b
      · simp
      · simp

theorem applyRows_mem (lib : Lib) (c : Collator) (rows : List Row) : ∀ (buf : Bytes) (init : Bool) (b : Bytes),
    applyRows lib c buf init rows = (b, .val none) → ∀ r ∈ rows, ∃ b0 i b1, update lib c r b0 i = (b1, .val none) := by
  induction rows with
  | nil => intro buf init b _ r hr; simp at hr
  | cons r0 rows ih =>
    intro buf init b h r hr
    rw [applyRows] at h
    rcases e1 : update lib c r0 buf init with ⟨b1, e⟩
    rw [e1] at h
    rcases e with (e | e) | _
    · rcases List.mem_cons.1 hr with rfl | hr
      · exact ⟨_, _, _, e1⟩
      · exact ih b1 false b h r hr
    · simp at h
    · simp at h

/-- **C25**, the numbers meant above: if the observations were accepted, every value they carried for a field with a numeric
measure is a number, so the list of numbers has one entry for each value, in order. -/
theorem C25_values_parse (lib : Lib) (s : Schema) (hv : ValidSchema s) (f : Bytes) (m : Measure) (hd : Declares s f m)
    (hm : m ≠ .count ∧ ∀ p, m ≠ .cardinality p) (rows : List Row) (buf : Bytes) (hr : RecordOf lib (compile s) rows buf) :
    (valuesOf f rows).map lib.parseFloat = (numbersOf lib f rows).map some := by
  have hm : m.continuousInput = true := by
    obtain ⟨h1, h2⟩ := hm
    cases m <;> first | rfl | (exfalso; exact h1 rfl) | (exfalso; exact h2 _ rfl)
  obtain ⟨L, D, pos, h, hD⟩ := laid_compile s hv
  obtain ⟨c, w, _, _, h3, _⟩ := cont_reader h ((hD f m).2 hd) hm
  have hparse : ∀ v ∈ valuesOf f rows, ∃ x, lib.parseFloat v = some x := by
    intro v hvm
    unfold valuesOf at hvm
    obtain ⟨fv, hfv, hf⟩ := List.mem_filterMap.1 hvm
    obtain ⟨r, hrr, hfv⟩ := List.mem_flatMap.1 hfv
    split at hf
    case isFalse => simp at hf
    rename_i hff
    simp only [Option.some.injEq] at hf
    subst hf
    cases hp : lib.parseFloat fv.v with
    | some x => exact ⟨x, rfl⟩
    | none =>
      obtain ⟨b0, i, b1, hu⟩ := applyRows_mem lib _ rows _ _ _ hr r hrr
      exfalso
      refine runWriters_bad ((compile s).writers.map (fun w buf => w.write buf countWriter) ++ r.data.flatMap (fieldWriters lib (compile s) i))
        (fun buf => (buf, .val (some .parseFloat))) ?_ (by simp) b0 ?_
      · refine List.mem_append.2 (.inr (List.mem_flatMap.2 ⟨fv, hfv, ?_⟩))
        unfold fieldWriters
        refine List.mem_append.2 (.inl ?_)
        have hne : cells L (.cont f) ≠ [] := by
          intro e
          have := mem_cells.2 h3
          rw [e] at this; simp at this
        rw [show (compile s).contWriters fv.f = _ from h.cont fv.f, hff, toOpt, if_neg hne, contWriters, hp]
        simp
      · unfold update at hu
        rw [hu]
  unfold numbersOf
  generalize valuesOf f rows = vs at hparse
  induction vs with
  | nil => rfl
  | cons v vs ih =>
    obtain ⟨x, hx⟩ := hparse v (by simp)
    rw [List.map_cons, List.filterMap_cons, hx, ih fun v hv => hparse v (by simp [hv])]
    rfl

/-! ### C25: max, min, uniquecount -/

theorem numbers_wf {lib : Lib} (hl : ParsesDoubles lib) (f : Bytes) (rows : List Row) : ∀ x ∈ numbersOf lib f rows, F64.Wf x := by
  intro x hx
  obtain ⟨v, _, h⟩ := List.mem_filterMap.1 hx
  exact isDouble_iff.1 (hl v x h)

theorem fold_put (m : Measure) (hm : m = .max ∨ m = .min) (xs : List F64) (x : F64) :
    xs.foldl (fun d v => (contWriterFn m d true v).1) (le64 (F64.toBits x)) = le64 (F64.toBits (xs.getLastD x)) := by
  induction xs generalizing x with
  | nil => rfl
  | cons y xs ih =>
    have e : (contWriterFn m (le64 (F64.toBits x)) true y).1 = le64 (F64.toBits y) := by
      have : contWriterFn m (le64 (F64.toBits x)) true y = putFloat (le64 (F64.toBits x)) y := by
        rcases hm with rfl | rfl
        · rw [contWriterFn, maxWriter, if_pos rfl]
        · rw [contWriterFn, minWriter, if_pos rfl]
      rw [this, putFloat_eq _ (by simp)]
    rw [List.foldl_cons, e, ih, List.getLastD_cons]

theorem zero_bits : List.replicate (8 : Int).toNat 0#8 = le64 (F64.toBits (.fin false 0)) := by decide +kernel

/-- **C25**, the exact law for max and min: the observation that creates the record sets the value, the last number it carries for
the field if it carries several and 0 if it carries none; from then on the extreme of that and the numbers observed is
reported. -/
theorem C25_extreme_law (lib : Lib) (hl : ParsesDoubles lib) (s : Schema) (hv : ValidSchema s) (f : Bytes) (r : Row) (rows : List Row)
    (buf : Bytes) (hr : RecordOf lib (compile s) (r :: rows) buf)
    (hn : ∀ x ∈ (numbersOf lib f [r]).getLastD (.fin false 0) :: numbersOf lib f rows, x ≠ .nan) :
    (Declares s f .max → ∃ x, ask lib (compile s) buf f (asc "max") = .val ([⟨f, asc "max", x⟩], none) ∧
      x ∈ (numbersOf lib f [r]).getLastD (.fin false 0) :: numbersOf lib f rows ∧
      ∀ y ∈ (numbersOf lib f [r]).getLastD (.fin false 0) :: numbersOf lib f rows, F64.le y x = true) ∧
    (Declares s f .min → ∃ x, ask lib (compile s) buf f (asc "min") = .val ([⟨f, asc "min", x⟩], none) ∧
      x ∈ (numbersOf lib f [r]).getLastD (.fin false 0) :: numbersOf lib f rows ∧
      ∀ y ∈ (numbersOf lib f [r]).getLastD (.fin false 0) :: numbersOf lib f rows, F64.le x y = true) := by
  have hw : F64.Wf ((numbersOf lib f [r]).getLastD (.fin false 0)) := by
    cases e : (numbersOf lib f [r]).getLast? with
    | none => rw [List.getLastD_eq_getLast?, e]; exact F64.wf_zero false
    | some x => rw [List.getLastD_eq_getLast?, e]; exact numbers_wf hl f [r] x (List.mem_of_getLast? e)
  constructor
  · intro hd
    obtain ⟨wm, hc, ha⟩ := cont_ask lib hv hd rfl hr
    have := compat_eq hc rfl
    subst this
    rw [show Measure.max.size = 8 from rfl, zero_bits, fold_put _ (.inl rfl)] at ha
    obtain ⟨h1, h2⟩ := max_fold (numbersOf lib f rows) (numbers_wf hl f rows) _ hw
    rw [show (fun d x => (contWriterFn Measure.max d false x).1) = (fun d x => (maxWriter d false x).1) from rfl, h1,
      (read_max lib h2).1] at ha
    obtain ⟨h3, h4⟩ := pickMax_extreme (numbersOf lib f rows) _ (hn _ (List.mem_cons_self ..)) fun y hy => hn y (List.mem_cons_of_mem _ hy)
    exact ⟨_, ha, h3, h4⟩
  · intro hd
    obtain ⟨wm, hc, ha⟩ := cont_ask lib hv hd rfl hr
    have := compat_eq hc rfl
    subst this
    rw [show Measure.min.size = 8 from rfl, zero_bits, fold_put _ (.inr rfl)] at ha
    obtain ⟨h1, h2⟩ := min_fold (numbersOf lib f rows) (numbers_wf hl f rows) _ hw
    rw [show (fun d x => (contWriterFn Measure.min d false x).1) = (fun d x => (minWriter d false x).1) from rfl, h1,
      (read_max lib h2).2] at ha
    obtain ⟨h3, h4⟩ := pickMin_extreme (numbersOf lib f rows) _ (hn _ (List.mem_cons_self ..)) fun y hy => hn y (List.mem_cons_of_mem _ hy)
    exact ⟨_, ha, h3, h4⟩

/-- **C25**, max and min, if the observation that creates the record carries the field exactly once and no number is NaN: the
reported value is one of the numbers observed and at least (at most) all of them. Without these hypotheses the claim fails, see
`C25_absent_refuted` and `C25_repeated_refuted`. -/
theorem C25_extreme_partial (lib : Lib) (hl : ParsesDoubles lib) (s : Schema) (hv : ValidSchema s) (f : Bytes) (r : Row)
    (rows : List Row) (buf : Bytes) (hr : RecordOf lib (compile s) (r :: rows) buf) (v : Bytes) (h1 : valuesOf f [r] = [v])
    (hn : ∀ x ∈ numbersOf lib f (r :: rows), x ≠ .nan) :
    (Declares s f .max → ∃ x, ask lib (compile s) buf f (asc "max") = .val ([⟨f, asc "max", x⟩], none) ∧
      x ∈ numbersOf lib f (r :: rows) ∧ ∀ y ∈ numbersOf lib f (r :: rows), F64.le y x = true) ∧
    (Declares s f .min → ∃ x, ask lib (compile s) buf f (asc "min") = .val ([⟨f, asc "min", x⟩], none) ∧
      x ∈ numbersOf lib f (r :: rows) ∧ ∀ y ∈ numbersOf lib f (r :: rows), F64.le x y = true) := by
  have hone : ∀ m, Declares s f m → m = .max ∨ m = .min → ∃ x, numbersOf lib f [r] = [x] := by
    intro m hd hm
    have hp := C25_values_parse lib s hv f m hd (by rcases hm with rfl | rfl <;> simp) _ _ hr
    rw [valuesOf_cons, numbersOf_cons, List.map_append, List.map_append, h1] at hp
    have : numbersOf lib f [r] = (lib.parseFloat v).toList := by
      unfold numbersOf; rw [h1]; cases h : lib.parseFloat v <;> simp [h]
    cases h : lib.parseFloat v with
    | some x => exact ⟨x, by rw [this, h]; rfl⟩
    | none =>
      rw [this, h] at hp
      exfalso
      cases hx : numbersOf lib f rows with
      | nil => rw [hx] at hp; simp at hp
      | cons y ys => rw [hx] at hp; simp [h] at hp
  have key : ∀ x, numbersOf lib f [r] = [x] →
      (numbersOf lib f [r]).getLastD (.fin false 0) :: numbersOf lib f rows = numbersOf lib f (r :: rows) := by
    intro x hx
    rw [numbersOf_cons lib f r rows, hx]; rfl
  constructor
  · intro hd
    obtain ⟨x, hx⟩ := hone _ hd (.inl rfl)
    have := (C25_extreme_law lib hl s hv f r rows buf hr (by rw [key x hx]; exact hn)).1 hd
    rw [key x hx] at this
    exact this
  · intro hd
    obtain ⟨x, hx⟩ := hone _ hd (.inr rfl)
    have := (C25_extreme_law lib hl s hv f r rows buf hr (by rw [key x hx]; exact hn)).2 hd
    rw [key x hx] at this
    exact this

/-- what a declared uniquecount reports, in terms of its bytes -/
theorem card_ask (lib : Lib) {s : Schema} (hv : ValidSchema s) {f : Bytes} {p : Int} (hd : Declares s f (.cardinality p))
    {r : Row} {rows : List Row} {buf : Bytes} (hr : RecordOf lib (compile s) (r :: rows) buf) :
    ∃ q, Declares s f (.cardinality q) ∧ 4 ≤ q ∧ q ≤ 18 ∧ 0 < (Measure.cardinality q).size ∧
      ask lib (compile s) buf f (asc "uniquecount") =
        reply f (asc "uniquecount") (readerFn lib (.cardinality q) ((valuesOf f rows).foldl (fun d x => (cardWriter q d false x).1)
        ((valuesOf f [r]).foldl (fun d x => (cardWriter q d true x).1) (List.replicate (Measure.cardinality q).size.toNat 0#8)))) := by
  obtain ⟨L, D, pos, h, hD⟩ := laid_compile s hv
  obtain ⟨c, q, w, h1, h2, hq, h4, h18, h3, e1, e2, hwm, hin⟩ := disc_reader h ((hD f _).2 hd)
  obtain ⟨k1, k2⟩ := disc_bytes lib h h3 r rows buf hr
  have hpos := (h.cell _ w h3).2.2.1
  rw [hwm] at k2 hpos
  refine ⟨q, (hD f _).1 hq, h4, h18, hpos, ?_⟩
  rw [ask_reply lib h1, cell_read_eq lib hin k1, ← e1, ← e2, k2, h2]
  rfl

/-- several values in the observation that creates the record: each starts a new counter -/
theorem card_init_fold {q : Int} (h4 : 4 ≤ q) (h18 : q ≤ 18) (vs : List Bytes) (v : Bytes) : ∀ d : Bytes,
    (d.length : Int) = Hll.len (precision q) →
    ∃ c0 c, Hll.new (precision q) = .val c0 ∧ Hll.add c0 v = .val c ∧ Hll.WF c ∧ c.p = precision q ∧
      (vs ++ [v]).foldl (fun d x => (cardWriter q d true x).1) d = enc c := by
  induction vs with
  | nil =>
    intro d hd
    obtain ⟨c0, c, a1, a2, a3, a4, a5⟩ := cardWriter_init h4 h18 hd v
    exact ⟨c0, c, a1, a2, a3, a4, by rw [List.nil_append, List.foldl_cons, a5]; rfl⟩
  | cons u vs ih =>
    intro d hd
    obtain ⟨c0, c, a1, a2, a3, a4, a5⟩ := cardWriter_init h4 h18 hd u
    rw [List.cons_append, List.foldl_cons, a5]
    exact ih (enc c) (by rw [← a4]; exact enc_length a3)

/-- the writers an update runs: those of the cells, and failures to parse -/
theorem update_writers (lib : Lib) {b : Building} {L : List (Owner × Cell)} {D : List (Bytes × Measure)} (h : Laid b L D) (r : Row)
    (init : Bool) : ∀ k ∈ (b.coll.writers.map fun w buf => w.write buf countWriter) ++ r.data.flatMap (fieldWriters lib b.coll init),
    (∃ o w fn, (o, w) ∈ L ∧ k = (fun buf => w.write buf fn) ∧ (∀ d, (fn d).1.length = d.length) ∧
      ∀ f, o = .disc f → ∃ v, fn = fun d => discWriterFn w.m d init v) ∨
    k = fun buf => (buf, .val (some .parseFloat)) := by
  intro k hk
  rcases List.mem_append.1 hk with hk | hk
  · rw [h.rows] at hk
    obtain ⟨w, hw, rfl⟩ := List.mem_map.1 hk
    exact .inl ⟨.row, w, countWriter, mem_cells.1 hw, rfl, countWriter_length, by simp⟩
  · obtain ⟨fv, hfv, hk⟩ := List.mem_flatMap.1 hk
    unfold fieldWriters at hk
    rcases List.mem_append.1 hk with hk | hk
    · rw [h.cont] at hk
      unfold toOpt at hk
      split at hk
      · simp [contWriters] at hk
      · rw [contWriters] at hk
        cases hp : lib.parseFloat fv.v with
        | none => rw [hp] at hk; exact .inr (List.mem_singleton.1 hk)
        | some x =>
          rw [hp] at hk
          obtain ⟨w, hw, rfl⟩ := List.mem_map.1 hk
          exact .inl ⟨.cont fv.f, w, _, mem_cells.1 hw, rfl, fun d => contWriterFn_length _ _ _ _, by simp⟩
    · rw [h.disc] at hk
      unfold toOpt at hk
      split at hk
      · simp [discWriters] at hk
      · obtain ⟨w, hw, rfl⟩ := List.mem_map.1 hk
        exact .inl ⟨.disc fv.f, w, _, mem_cells.1 hw, rfl, fun d => discWriterFn_length _ _ _ _, fun _ _ => ⟨fv.v, rfl⟩⟩

theorem runWriters_inv (P : Bytes → Prop) (ws : List (Bytes → Wrote)) (hk : ∀ w ∈ ws, ∀ buf, P buf → P (w buf).1) :
    ∀ buf, P buf → P (runWriters buf ws).1 ∧ ∀ w ∈ ws, (∀ buf, P buf → (w buf).2 ≠ .val none) → (runWriters buf ws).2 ≠ .val none := by
  induction ws with
  | nil => intro buf hP; exact ⟨hP, by simp⟩
  | cons w' ws ih =>
    intro buf hP
    have h1 := hk w' (by simp) buf hP
    rw [runWriters]
    rcases e1 : w' buf with ⟨b, e⟩
    rw [e1] at h1
    have ih := ih (fun w hw => hk w (by simp [hw])) b h1
    rcases e with (e | e) | _
    · refine ⟨ih.1, ?_⟩
      intro w hw hbad
      rcases List.mem_cons.1 hw with rfl | hw
      · have := hbad buf hP
        rw [e1] at this; exact absurd rfl this
      · exact ih.2 w hw hbad
    · exact ⟨h1, fun _ _ _ => by simp⟩
    · exact ⟨h1, fun _ _ _ => by simp⟩

/-- as long as the field's counter was never created no observation carrying the field is accepted -/
theorem zero_rejects (lib : Lib) {b : Building} {L : List (Owner × Cell)} {D : List (Bytes × Measure)} (h : Laid b L D) {f : Bytes}
    {w : Cell} (hw : (Owner.disc f, w) ∈ L) (rows : List Row) : ∀ buf, buf.length = b.coll.size.toNat →
    slice buf w.low.toNat w.high.toNat = List.replicate w.m.size.toNat 0#8 → ∀ b', applyRows lib b.coll buf false rows = (b', .val none) →
    valuesOf f rows = [] := by
  induction rows with
  | nil => intros; rfl
  | cons r rows ih =>
    intro buf hl hz b' hb
    obtain ⟨p, hm, _⟩ := (h.cell _ w hw).2.2.2.2
    have hpos := (h.cell _ w hw).2.2.1
    have hkeep := runWriters_inv
      (fun buf => buf.length = b.coll.size.toNat ∧ slice buf w.low.toNat w.high.toNat = List.replicate w.m.size.toNat 0#8)
      ((b.coll.writers.map fun w buf => w.write buf countWriter) ++ r.data.flatMap (fieldWriters lib b.coll false))
      (by
        intro k hk buf ⟨hl, hz⟩
        rcases update_writers lib h r false k hk with ⟨o, w', fn, hw', rfl, hfn, hd⟩ | rfl
        · obtain ⟨a1, a2, a3⟩ := write_slices (inRec h hw') hl fn hfn
          refine ⟨a1, ?_⟩
          by_cases he : (Owner.disc f, w) = (o, w')
          · simp only [Prod.mk.injEq] at he
            obtain ⟨rfl, rfl⟩ := he
            obtain ⟨v, rfl⟩ := hd f rfl
            rw [a2, hz]
            have : (cardWriter p (List.replicate w.m.size.toNat 0#8) false v).1 = List.replicate w.m.size.toNat 0#8 := by
              rw [cardWriter_zero _ _ (by omega)]
            rw [hm] at this ⊢
            exact this
          · rw [a3 w (inRec h hw) (apart h hw hw' he)]; exact hz
        · exact ⟨hl, hz⟩) buf ⟨hl, hz⟩
    rw [applyRows] at hb
    rcases e1 : update lib b.coll r buf false with ⟨b1, e⟩
    rw [e1] at hb
    unfold update at e1
    rw [e1] at hkeep
    rcases e with (e | e) | _
    · have hr : valuesOf f [r] = [] := by
        cases hvs : valuesOf f [r] with
        | nil => rfl
        | cons v vs =>
          exfalso
          have hv : v ∈ valuesOf f [r] := by rw [hvs]; simp
          unfold valuesOf at hv
          obtain ⟨fv, hfv, hf⟩ := List.mem_filterMap.1 hv
          simp only [List.flatMap_cons, List.flatMap_nil, List.append_nil] at hfv
          split at hf
          case isFalse => simp at hf
          rename_i hff
          refine hkeep.2 (fun buf => w.write buf fun d => discWriterFn w.m d false fv.v) ?_ ?_ rfl
          · refine List.mem_append.2 (.inr (List.mem_flatMap.2 ⟨fv, hfv, ?_⟩))
            unfold fieldWriters
            refine List.mem_append.2 (.inr ?_)
            have hne : cells L (.disc f) ≠ [] := by
              intro e
              have := mem_cells.2 hw
              rw [e] at this; simp at this
            rw [h.disc, hff, toOpt, if_neg hne, discWriters]
            exact List.mem_map.2 ⟨w, mem_cells.2 hw, rfl⟩
          · intro buf ⟨hl, hz⟩
            rw [write_eq (inRec h hw) hl, hz]
            have : (cardWriter p (List.replicate w.m.size.toNat 0#8) false fv.v).2 = .val (some .incompatibleVersion) := by
              rw [cardWriter_zero _ _ (by omega)]
            rw [hm] at this ⊢
            show (cardWriter _ _ _ _).2 ≠ _
            rw [this]
            simp
      rw [valuesOf_cons, hr, List.nil_append]
      exact ih b1 hkeep.1.1 hkeep.1.2 b' hb
    · simp at hb
    · simp at hb

/-- **C25**, the exact law for uniquecount. The counter is a new HyperLogLog counter of a declared precision to which the last value
carried by the observation that creates the record is added, then all later values, in order, and `uniquecount` is its
estimate. If that observation does not carry the field, there is no counter: asking for the measure gives an error, and no later
observation carries the field (it would have been rejected). -/
theorem C25_uniquecount_law (lib : Lib) (s : Schema) (hv : ValidSchema s) (f : Bytes) (p : Int) (hd : Declares s f (.cardinality p))
    (r : Row) (rows : List Row) (buf : Bytes) (hr : RecordOf lib (compile s) (r :: rows) buf) :
    (∀ vs v, valuesOf f [r] = vs ++ [v] → ∃ q c0 c n, Declares s f (.cardinality q) ∧ Hll.new (BitVec.ofInt 8 q) = .val c0 ∧
      runHll c0 ((v :: valuesOf f rows).map some) = .val c ∧ Hll.count lib.log c = .val n ∧
      ask lib (compile s) buf f (asc "uniquecount") = .val ([⟨f, asc "uniquecount", F64.ofInt n⟩], none)) ∧
    (valuesOf f [r] = [] → valuesOf f rows = [] ∧
      ask lib (compile s) buf f (asc "uniquecount") = .val ([], some .incompatibleVersion)) := by
  obtain ⟨q, hq, h4, h18, hpos, ha⟩ := card_ask lib hv hd hr
  constructor
  · intro vs v hvs
    rw [hvs] at ha
    obtain ⟨c0, c1, a1, a2, a3, a4, a5⟩ := card_init_fold h4 h18 vs v (List.replicate (Measure.cardinality q).size.toNat 0#8) (by
      have : (Measure.cardinality q).size = Hll.len (precision q) := rfl
      rw [List.length_replicate]; omega)
    obtain ⟨c, b1, b2, b3, b4⟩ := card_fold (p := q) (valuesOf f rows) a3
    obtain ⟨n, d1, d2⟩ := card_read lib (p := q) b2
    refine ⟨q, c0, c, n, hq, a1, ?_, d1, ?_⟩
    · rw [List.map_cons, runHll, a2, Out.bind_val]; exact b1
    · rw [ha, a5, b4, d2]; rfl
  · intro hvs
    have hz : ∀ (q : Int) (vs : List Bytes) (n : Nat), 0 < n →
        vs.foldl (fun d x => (cardWriter q d false x).1) (List.replicate n 0#8) = List.replicate n 0#8 := by
      intro q vs n hn
      induction vs with
      | nil => rfl
      | cons v vs ih => rw [List.foldl_cons, cardWriter_zero _ _ hn]; exact ih
    refine ⟨?_, ?_⟩
    · obtain ⟨L, D, pos, h, hD⟩ := laid_compile s hv
      obtain ⟨_, q', w, _, _, _, _, _, h3, _, _, hwm, _⟩ := disc_reader h ((hD f _).2 hd)
      unfold RecordOf at hr
      rw [applyRows] at hr
      rcases e1 : update lib (compile s) r (blank (compile s)) true with ⟨b1, e⟩
      rw [e1] at hr
      have hlb : (blank (compile s)).length = (compile s).size.toNat := by unfold blank; simp
      rcases e with (e | e) | _
      · obtain ⟨a1, a2⟩ := row_effect lib h h3 true r _ _ hlb e1
        rw [fold_disc] at a2
        have hvs' : (r.data.filterMap fun fv => if fv.f = f then some fv.v else none) = [] := by
          have := hvs
          unfold valuesOf at this
          simpa using this
        rw [hvs', List.foldl_nil] at a2
        refine zero_rejects lib h h3 rows b1 a1 ?_ buf hr
        rw [a2]
        exact blank_slice h h3
      · simp at hr
      · simp at hr
    · rw [ha, hvs, List.foldl_nil, hz q _ _ (by omega), readerFn]
      have : Hll.withBytes (List.replicate (Measure.cardinality q).size.toNat 0#8) = .val (.error .incompatibleVersion) := by
        unfold Hll.withBytes
        rw [if_neg (by simp; omega)]
        have : (List.replicate (Measure.cardinality q).size.toNat 0#8).getD 0 0 ≠ Hll.version := by
          cases h : (Measure.cardinality q).size.toNat with
          | zero => omega
          | succ n => simp [List.replicate_succ, Hll.version]
        rw [if_pos this]
      rw [this]
      rfl

/-- **C25**, uniquecount, if the observation that creates the record carries the field exactly once: the estimate of a HyperLogLog
counter of a declared precision to which exactly the observed values were added. (What that estimate is, see C12 and C14.) -/
theorem C25_uniquecount_partial (lib : Lib) (s : Schema) (hv : ValidSchema s) (f : Bytes) (p : Int) (hd : Declares s f (.cardinality p))
    (r : Row) (rows : List Row) (buf : Bytes) (hr : RecordOf lib (compile s) (r :: rows) buf) (v : Bytes) (h1 : valuesOf f [r] = [v]) :
    ∃ q c0 c n, Declares s f (.cardinality q) ∧ Hll.new (BitVec.ofInt 8 q) = .val c0 ∧
      runHll c0 ((valuesOf f (r :: rows)).map some) = .val c ∧ Hll.count lib.log c = .val n ∧
      ask lib (compile s) buf f (asc "uniquecount") = .val ([⟨f, asc "uniquecount", F64.ofInt n⟩], none) := by
  obtain ⟨q, c0, c, n, a1, a2, a3, a4, a5⟩ := (C25_uniquecount_law lib s hv f p hd r rows buf hr).1 [] v (by rw [h1]; rfl)
  exact ⟨q, c0, c, n, a1, a2, by rw [valuesOf_cons, h1]; exact a3, a4, a5⟩

/-! ### C25: which observations are accepted, and that nothing panics -/

theorem serve_hold (lib : Lib) {b : Building} {L : List (Owner × Cell)} {D : List (Bytes × Measure)} (h : Laid b L D)
    {F : List Bytes} (rows : List Row) : ∀ (buf : Bytes) (init : Bool), Hold b L F buf →
    Hold b L F (serve lib b.coll buf init rows).1 ∧ ∀ o ∈ (serve lib b.coll buf init rows).2, ∃ e, o = .val e := by
  induction rows with
  | nil => intro buf init hb; exact ⟨hb, by simp [serve]⟩
  | cons r rows ih =>
    intro buf init hb
    obtain ⟨b', e, h1, _, h3⟩ := hold_row lib h hb init r
    obtain ⟨i1, i2⟩ := ih b' false h3
    rw [serve, h1]
    refine ⟨i1, ?_⟩
    intro o ho
    rcases List.mem_cons.1 ho with rfl | ho
    · exact ⟨e, rfl⟩
    · exact i2 o ho

/-- reading a record in order does not panic -/
theorem read_hold (lib : Lib) {b : Building} {L : List (Owner × Cell)} {D : List (Bytes × Measure)} (h : Laid b L D)
    {F : List Bytes} {buf : Bytes} (hb : Hold b L F buf) {f n : Bytes} {r : Cell} (hr : readerAt b.coll f n = some r) :
    ∃ v, r.read lib buf = .val v ∧ ((∀ p, r.m ≠ .cardinality p) → ∃ x, v = .ok x) := by
  obtain ⟨_, _, o, w, hw, e1, e2, hs, hc⟩ := h.reader f n r hr
  have hin : InRec b.coll.size.toNat r := by
    have := inRec h hw
    exact ⟨e1 ▸ this.low, by rw [← e1, ← e2]; exact this.le, e2 ▸ this.high⟩
  rw [cell_read_eq lib hin hb.len]
  have hl : ((slice buf r.low.toNat r.high.toNat).length : Int) = w.m.size := by
    rw [slice_len hin hb.len]
    obtain ⟨c1, c2, c3, c4, _⟩ := h.cell o w hw
    omega
  have hok := hb.ok o w hw
  rw [e1, e2] at hok
  generalize slice buf r.low.toNat r.high.toNat = d at hl hok
  have h32 : r.m.stat = true → r.m.continuousInput = true → 32 ≤ d.length := by
    intro h1 h2
    have : w.m.stat = true ∧ w.m.continuousInput = true := compat_stat hc h1 h2
    have := stat_size this.1 this.2
    omega
  cases e : r.m with
  | count =>
    rw [e] at hc
    have : w.m = .count := by
      rcases hc with e | ⟨_, _, _, e⟩
      · exact e
      · simp [Measure.continuousInput] at e
    rw [this] at hl
    have hl : (d.length : Int) = 8 := hl
    exact ⟨_, by rw [readerFn, if_neg (by omega)], fun _ => ⟨_, rfl⟩⟩
  | sum =>
    have := h32 (by rw [e]; rfl) (by rw [e]; rfl)
    exact ⟨_, by rw [readerFn, (accessors d this).2.1]; rfl, fun _ => ⟨_, rfl⟩⟩
  | mean =>
    have := h32 (by rw [e]; rfl) (by rw [e]; rfl)
    exact ⟨_, by rw [readerFn, (accessors d this).2.2.1]; rfl, fun _ => ⟨_, rfl⟩⟩
  | variance =>
    have := h32 (by rw [e]; rfl) (by rw [e]; rfl)
    exact ⟨_, by rw [readerFn, (accessors d this).2.2.2]; rfl, fun _ => ⟨_, rfl⟩⟩
  | max =>
    rw [e] at hc
    rw [compat_eq hc rfl] at hl
    have hl : (d.length : Int) = 8 := hl
    exact ⟨_, by rw [readerFn, if_neg (by omega)], fun _ => ⟨_, rfl⟩⟩
  | min =>
    rw [e] at hc
    rw [compat_eq hc rfl] at hl
    have hl : (d.length : Int) = 8 := hl
    exact ⟨_, by rw [readerFn, if_neg (by omega)], fun _ => ⟨_, rfl⟩⟩
  | cardinality p =>
    rw [e] at hc
    have hwm := compat_eq hc rfl
    have hpos := (h.cell o w hw).2.2.1
    obtain ⟨g, ho⟩ : ∃ g, o = .disc g := by
      have ht := (h.cell o w hw).2.2.2.2
      rw [hwm] at ht
      cases o with
      | row => exact absurd ht (by simp [Owner.takes])
      | cont g => exact absurd (show (Measure.cardinality p).continuousInput = true from ht) (by simp [Measure.continuousInput])
      | disc g => exact ⟨g, rfl⟩
    rcases hok g p ho hwm with ⟨_, hz⟩ | ⟨c, hc, _, hz⟩
    · rw [hz]
      refine ⟨.error .incompatibleVersion, ?_, fun hne => absurd rfl (hne p)⟩
      rw [readerFn]
      have : Hll.withBytes (List.replicate w.m.size.toNat 0#8) = .val (.error .incompatibleVersion) := by
        unfold Hll.withBytes
        rw [if_neg (by simp; omega)]
        have : (List.replicate w.m.size.toNat 0#8).getD 0 0 ≠ Hll.version := by
          cases h : w.m.size.toNat with
          | zero => omega
          | succ n => simp [List.replicate_succ, Hll.version]
        rw [if_pos this]
      rw [this]
      rfl
    · obtain ⟨n, _, hn⟩ := card_read lib (p := p) hc
      rw [hz, hn]
      exact ⟨_, rfl, fun hne => absurd rfl (hne p)⟩

/-- **C25**, no crash: whatever observations are given to a new record, accepted or not, and whatever is then asked, nothing
panics. -/
theorem C25_never_panics (lib : Lib) (s : Schema) (hv : ValidSchema s) (init : Bool) (rows : List Row) (f n : Bytes) :
    (∀ o ∈ (serve lib (compile s) (blank (compile s)) init rows).2, o ≠ .panic) ∧
    ask lib (compile s) (serve lib (compile s) (blank (compile s)) init rows).1 f n ≠ .panic := by
  obtain ⟨L, D, pos, h, hD⟩ := laid_compile s hv
  obtain ⟨h1, h2⟩ := serve_hold lib h rows _ init (hold_blank h)
  constructor
  · intro o ho
    obtain ⟨e, rfl⟩ := h2 o ho
    simp
  · cases hr : readerAt (compile s) f n with
    | none => rw [ask_none lib hr]; simp
    | some r =>
      obtain ⟨v, hv, _⟩ := read_hold lib h h1 hr
      rw [ask_reply lib hr, show r.read lib (serve lib (compile s) (blank (compile s)) init rows).1 = _ from hv]
      rcases v with e | x <;> simp [reply]

theorem hold_rows (lib : Lib) {b : Building} {L : List (Owner × Cell)} {D : List (Bytes × Measure)} (h : Laid b L D) {F : List Bytes}
    (rows : List Row) : ∀ buf, Hold b L F buf → (∀ r ∈ rows, ∀ fv ∈ r.data, Usable lib L F false fv) →
    ∃ b', applyRows lib b.coll buf false rows = (b', .val none) ∧ Hold b L F b' := by
  induction rows with
  | nil => intro buf hb _; exact ⟨buf, rfl, hb⟩
  | cons r rows ih =>
    intro buf hb hu
    obtain ⟨b1, e, h1, h2, h3⟩ := hold_row lib h hb false r
    have := h2 (hu r (by simp))
    subst this
    rw [applyRows, h1]
    exact ih b1 h3 fun r' hr' => hu r' (by simp [hr'])

theorem mem_valuesOf {f : Bytes} {rows : List Row} {r : Row} (hr : r ∈ rows) {fv : FV} (hfv : fv ∈ r.data) (hf : fv.f = f) :
    fv.v ∈ valuesOf f rows := by
  unfold valuesOf
  exact List.mem_filterMap.2 ⟨fv, List.mem_flatMap.2 ⟨r, hr, hfv⟩, by rw [if_pos hf]⟩

/-- **C25**, acceptance: a new record accepts a sequence of observations if and only if every value for a field with a numeric measure
is a number, and every field with a uniquecount that occurs at all occurs in the first observation. -/
theorem C25_accepted_iff (lib : Lib) (s : Schema) (hv : ValidSchema s) (r : Row) (rows : List Row) :
    (∃ buf, RecordOf lib (compile s) (r :: rows) buf) ↔
    (∀ f m, Declares s f m → (m ≠ .count ∧ ∀ p, m ≠ .cardinality p) → ∀ v ∈ valuesOf f (r :: rows), lib.parseFloat v ≠ none) ∧
    (∀ f p, Declares s f (.cardinality p) → valuesOf f [r] = [] → valuesOf f rows = []) := by
  constructor
  · rintro ⟨buf, hr⟩
    refine ⟨?_, fun f p hd h0 => ((C25_uniquecount_law lib s hv f p hd r rows buf hr).2 h0).1⟩
    intro f m hd hm v hvm hn
    have := C25_values_parse lib s hv f m hd hm _ _ hr
    have hmem : lib.parseFloat v ∈ (valuesOf f (r :: rows)).map lib.parseFloat := List.mem_map.2 ⟨v, hvm, rfl⟩
    rw [this, hn] at hmem
    simp at hmem
  · rintro ⟨hp, hc⟩
    obtain ⟨L, D, pos, h, hD⟩ := laid_compile s hv
    have hpar : ∀ r' ∈ r :: rows, ∀ fv ∈ r'.data, (∃ w, (Owner.cont fv.f, w) ∈ L) → (lib.parseFloat fv.v).isSome = true := by
      rintro r' hr' fv hfv ⟨w, hw⟩
      obtain ⟨g, hs, hmem⟩ := h.owned _ w hw
      have hs : g = fv.f := hs
      have ht : w.m.continuousInput = true := (h.cell _ w hw).2.2.2.2
      subst hs
      rw [Option.isSome_iff_ne_none]
      refine hp fv.f w.m ((hD _ _).1 hmem) ⟨?_, ?_⟩ fv.v (mem_valuesOf hr' hfv rfl)
      · intro e; rw [e] at ht; simp [Measure.continuousInput] at ht
      · intro p e; rw [e] at ht; simp [Measure.continuousInput] at ht
    obtain ⟨b1, e1, h1, h2, _⟩ := hold_row lib h (hold_blank h) true r
    have := h2 fun fv hfv => ⟨hpar r (by simp) fv hfv, fun _ => .inl rfl⟩
    subst this
    have hF := hold_first lib h r h1
    obtain ⟨b2, h3, _⟩ := hold_rows lib h rows b1 hF (by
      intro r' hr' fv hfv
      refine ⟨hpar r' (by simp [hr']) fv hfv, ?_⟩
      rintro ⟨w, hw⟩
      right
      obtain ⟨g, hs, hmem⟩ := h.owned _ w hw
      have hs : g = fv.f := hs
      subst hs
      obtain ⟨p, hm, _⟩ := (h.cell _ w hw).2.2.2.2
      rw [hm] at hmem
      have hv' := mem_valuesOf hr' hfv rfl
      by_contra hne
      have : valuesOf fv.f [r] = [] := by
        unfold valuesOf
        rw [List.filterMap_eq_nil_iff]
        intro fv' hfv'
        simp only [List.flatMap_cons, List.flatMap_nil, List.append_nil] at hfv'
        rw [if_neg]
        intro e
        exact hne (List.mem_map.2 ⟨fv', hfv', e⟩)
      rw [hc fv.f p ((hD _ _).1 hmem) this] at hv'
      simp at hv')
    refine ⟨b2, ?_⟩
    unfold RecordOf
    rw [applyRows, show update lib (compile s) r (blank (compile s)) true = _ from h1]
    exact h3

/-! ### C24 -/

/-- **C24**: whatever observations a record was given, accepted or not, every declared measure other than a uniquecount can be read under
its name: the reply is one value, labelled with field and name. A declared uniquecount gives one value too, or the error that
its counter was never created; by `C25_uniquecount_law` the latter happens, after accepted observations, only if the one that
created the record did not carry the field. -/
theorem C24_readable (lib : Lib) (s : Schema) (hv : ValidSchema s) (f : Bytes) (m : Measure) (hd : Declares s f m) (init : Bool)
    (rows : List Row) :
    (∃ x, ask lib (compile s) (serve lib (compile s) (blank (compile s)) init rows).1 f m.name = .val ([⟨f, m.name, x⟩], none)) ∨
    ((∃ p, m = .cardinality p) ∧
      ∃ e, ask lib (compile s) (serve lib (compile s) (blank (compile s)) init rows).1 f m.name = .val ([], some e)) := by
  obtain ⟨L, D, pos, h, hD⟩ := laid_compile s hv
  obtain ⟨h1, h2⟩ := serve_hold lib h rows _ init (hold_blank h)
  obtain ⟨r, hr⟩ := h.served f m ((hD f m).2 hd)
  obtain ⟨v, hv, hok⟩ := read_hold lib h h1 hr
  rw [ask_reply lib hr, show r.read lib (serve lib (compile s) (blank (compile s)) init rows).1 = _ from hv]
  rcases v with e | x
  · right
    have hnc : ∃ p, r.m = .cardinality p := by
      by_contra hne
      obtain ⟨x, hx⟩ := hok fun p hp => hne ⟨p, hp⟩
      simp at hx
    obtain ⟨p, hp⟩ := hnc
    refine ⟨?_, e, rfl⟩
    rcases name_inj (h.reader _ _ _ hr).1 with e | ⟨_, q, _, e⟩
    · exact ⟨p, by rw [← e, hp]⟩
    · exact ⟨q, e⟩
  · exact .inl ⟨x, rfl⟩

theorem reader_iff {s : Schema} {L : List (Owner × Cell)} {D : List (Bytes × Measure)} {pos : Int} (h : Laid ⟨compile s, pos⟩ L D)
    (hD : ∀ f m, (f, m) ∈ D ↔ Declares s f m) (f n : Bytes) : Maintains s f n ↔ ∃ r, readerAt (compile s) f n = some r := by
  constructor
  · rintro ⟨m, hd, rfl⟩
    exact h.served f m ((hD f m).2 hd)
  · rintro ⟨r, hr⟩
    obtain ⟨h1, h2, _⟩ := h.reader f n r hr
    exact ⟨r.m, (hD _ _).1 h2, h1⟩

/-- **C24**, and nothing else can be read: a pair the schema does not declare gives the empty reply, whatever the record holds. -/
theorem C24_undeclared (lib : Lib) (s : Schema) (hv : ValidSchema s) (f n : Bytes) (hd : ¬ Maintains s f n) (buf : Bytes) :
    ask lib (compile s) buf f n = .val ([], none) := by
  obtain ⟨L, D, pos, h, hD⟩ := laid_compile s hv
  apply ask_none
  cases hr : readerAt (compile s) f n with
  | none => rfl
  | some r => exact absurd ((reader_iff h hD f n).2 ⟨r, hr⟩) hd

/-- **C24**, one stream: sum, mean and variance of a field, wherever they were declared, report the statistics of one and the same
sequence, the numbers the accepted observations carried for the field. -/
theorem C24_same_stream (lib : Lib) (s : Schema) (hv : ValidSchema s) (f : Bytes) (r : Row) (rows : List Row) (buf : Bytes)
    (hr : RecordOf lib (compile s) (r :: rows) buf) : ∃ xs,
    (Declares s f .sum → (valuesOf f (r :: rows)).map lib.parseFloat = xs.map some ∧
      ask lib (compile s) buf f (asc "sum") = .val ([⟨f, asc "sum", (after xs).sum⟩], none)) ∧
    (Declares s f .mean → (valuesOf f (r :: rows)).map lib.parseFloat = xs.map some ∧
      ask lib (compile s) buf f (asc "mean") = .val ([⟨f, asc "mean", (after xs).mean⟩], none)) ∧
    (Declares s f .variance → (valuesOf f (r :: rows)).map lib.parseFloat = xs.map some ∧
      ask lib (compile s) buf f (asc "var") = .val ([⟨f, asc "var", (after xs).variance.getD .nan⟩], none)) :=
  ⟨numbersOf lib f (r :: rows),
    fun hd => ⟨C25_values_parse lib s hv f _ hd (by simp) _ _ hr, by rw [after_sum]; exact C25_sum lib s hv f hd r rows buf hr⟩,
    fun hd => ⟨C25_values_parse lib s hv f _ hd (by simp) _ _ hr, C25_mean lib s hv f hd r rows buf hr⟩,
    fun hd => ⟨C25_values_parse lib s hv f _ hd (by simp) _ _ hr, C25_var lib s hv f hd r rows buf hr⟩⟩

/-! ### C27 -/

theorem together_append (one : Bytes × Bytes → Out (List FMV × Option Err)) (ps qs : List (Bytes × Bytes)) : ∀ res,
    together one (ps ++ qs) res = match together one ps res with
      | .panic => .panic
      | .val (r, some e) => .val (r, some e)
      | .val (r, none) => together one qs r := by
  induction ps with
  | nil => intro res; rfl
  | cons p ps ih =>
    intro res
    rw [List.cons_append, together, together]
    rcases one p with ⟨r, e | e⟩ | _
    · exact ih _
    · rfl
    · rfl

theorem readField_eq (lib : Lib) (c : Collator) (buf : Bytes) (f : Bytes) (rs : GoMap Cell) (hrs : c.contReaders f = some rs)
    (ns : List Bytes) : ∀ res, readField lib f rs buf ns res =
      together (fun p => ask lib c buf p.1 p.2) (ns.map fun n => (f, n)) res := by
  induction ns with
  | nil => intro res; rfl
  | cons n ns ih =>
    intro res
    rw [List.map_cons, readField, together]
    cases hr : rs n with
    | none =>
      have : readerAt c f n = none := by unfold readerAt; rw [hrs]; exact hr
      rw [ask_none lib this]
      simp only
      rw [List.append_nil]
      exact ih res
    | some r =>
      have : readerAt c f n = some r := by unfold readerAt; rw [hrs]; exact hr
      rw [ask_reply lib this]
      simp only
      rcases r.read lib buf with (e | x) | _
      · rw [reply]; simp only [List.append_nil]; rfl
      · exact ih _
      · rfl

/-- **C27**, compositionality: for every collator, record and request, `Read` is the single requests put together in order, up to
the first error. -/
theorem C27_read (lib : Lib) (c : Collator) (fml : List FM) (buf : Bytes) :
    Collation.read lib c fml buf = together (fun p => ask lib c buf p.1 p.2) (pairs fml) [] := by
  have key : ∀ fml res, readLoop lib c buf fml res = together (fun p => ask lib c buf p.1 p.2) (pairs fml) res := by
    intro fml
    induction fml with
    | nil => intro res; rfl
    | cons fm fml ih =>
      intro res
      rw [readLoop, pairs, List.flatMap_cons, together_append]
      cases hrs : c.contReaders fm.f with
      | none =>
        have : ∀ ns : List Bytes, together (fun p => ask lib c buf p.1 p.2) (ns.map fun n => (fm.f, n)) res = .val (res, none) := by
          intro ns
          induction ns with
          | nil => rfl
          | cons n ns ih =>
            rw [List.map_cons, together]
            simp only
            rw [ask_none lib (by unfold readerAt; rw [hrs]; rfl)]
            simp only [List.append_nil]
            exact ih
        rw [this]
        exact ih res
      | some rs =>
        simp only
        rw [readField_eq lib c buf fm.f rs hrs]
        rcases together (fun p => ask lib c buf p.1 p.2) (fm.m.map fun n => (fm.f, n)) res with ⟨r, e | e⟩ | _
        · exact ih r
        · rfl
        · rfl
  exact key fml []

open Classical in
/-- **C27**: in a record with any history, if every requested uniquecount has its counter, `Read` succeeds and returns one value per
requested pair that the schema maintains, in request order (repetitions included), labelled with the requested names, omitting
the others; each value is what asking for that pair alone returns. -/
theorem C27_exact_partial (lib : Lib) (s : Schema) (hv : ValidSchema s) (init : Bool) (rows : List Row) (fml : List FM)
    (hu : ∀ f, (f, asc "uniquecount") ∈ pairs fml → ∀ e,
      ask lib (compile s) (serve lib (compile s) (blank (compile s)) init rows).1 f (asc "uniquecount") ≠ .val ([], some e)) :
    ∃ res, Collation.read lib (compile s) fml (serve lib (compile s) (blank (compile s)) init rows).1 = .val (res, none) ∧
      res.map (fun x => (x.f, x.m)) = (pairs fml).filter (fun p => Maintains s p.1 p.2) ∧
      ∀ x ∈ res, ask lib (compile s) (serve lib (compile s) (blank (compile s)) init rows).1 x.f x.m = .val ([x], none) := by
  rw [C27_read]
  have hone : ∀ p ∈ pairs fml, ¬ Maintains s p.1 p.2 ∨
      (Maintains s p.1 p.2 ∧ ∃ v, ask lib (compile s) (serve lib (compile s) (blank (compile s)) init rows).1 p.1 p.2 = .val ([⟨p.1, p.2, v⟩], none)) := by
    rintro ⟨f, n⟩ hp
    by_cases hm : Maintains s f n
    · right
      refine ⟨hm, ?_⟩
      obtain ⟨m, hd, rfl⟩ := hm
      rcases C24_readable lib s hv f m hd init rows with h | ⟨⟨p, rfl⟩, e, he⟩
      · exact h
      · exact absurd he (hu f hp e)
    · exact .inl hm
  have hnone : ∀ p : Bytes × Bytes, ¬ Maintains s p.1 p.2 →
      ask lib (compile s) (serve lib (compile s) (blank (compile s)) init rows).1 p.1 p.2 = .val ([], none) := by
    intro p hp; exact C24_undeclared lib s hv p.1 p.2 hp _
  generalize (serve lib (compile s) (blank (compile s)) init rows).1 = buf at *
  generalize pairs fml = ps at *
  have key : ∀ ps : List (Bytes × Bytes), (∀ p ∈ ps, ¬ Maintains s p.1 p.2 ∨
      (Maintains s p.1 p.2 ∧ ∃ v, ask lib (compile s) buf p.1 p.2 = .val ([⟨p.1, p.2, v⟩], none))) → ∀ res0, ∃ res,
      together (fun p => ask lib (compile s) buf p.1 p.2) ps res0 = .val (res0 ++ res, none) ∧
      res.map (fun x => (x.f, x.m)) = ps.filter (fun p => Maintains s p.1 p.2) ∧
      ∀ x ∈ res, ask lib (compile s) buf x.f x.m = .val ([x], none) := by
    intro ps
    induction ps with
    | nil => intro _ res0; exact ⟨[], by rw [together, List.append_nil], rfl, by simp⟩
    | cons p ps ih =>
      intro hps res0
      have ih := ih fun p hp => hps p (by simp [hp])
      rcases hps p (by simp) with hn | ⟨hm, v, hv⟩
      · obtain ⟨res, h1, h2, h3⟩ := ih res0
        refine ⟨res, ?_, ?_, h3⟩
        · rw [together, hnone p hn]
          simp only [List.append_nil]
          exact h1
        · rw [h2, List.filter_cons_of_neg (by simpa using hn)]
      · obtain ⟨res, h1, h2, h3⟩ := ih (res0 ++ [⟨p.1, p.2, v⟩])
        refine ⟨⟨p.1, p.2, v⟩ :: res, ?_, ?_, ?_⟩
        · rw [together, hv]
          simp only
          rw [h1, List.append_assoc]
          rfl
        · rw [List.map_cons, h2, List.filter_cons_of_pos (by simpa using hm)]
        · intro x hx
          rcases List.mem_cons.1 hx with rfl | hx
          · exact hv
          · exact h3 x hx
  obtain ⟨res, h1, h2, h3⟩ := key ps hone []
  exact ⟨res, by simpa using h1, h2, h3⟩

/-! ### instances and refutations -/

/-- max and min of `x` -/
def plain : Schema := { name := asc "plain", keys := [asc "k"], recordMeasures := [.count], measures := [(asc "x", [.max, .min])] }

/-- max of `x` and uniquecount of `u` -/
def mixed : Schema :=
  { name := asc "mixed", keys := [asc "k"], recordMeasures := [.count], measures := [(asc "x", [.max]), (asc "u", [.cardinality 5])] }

theorem plain_valid : ValidSchema plain := by
  intro f ms p h1 h2
  simp only [plain, List.mem_cons, Prod.mk.injEq, List.not_mem_nil, or_false] at h1
  obtain ⟨rfl, rfl⟩ := h1
  simp at h2

theorem mixed_valid : ValidSchema mixed := by
  intro f ms p h1 h2
  simp only [mixed, List.mem_cons, Prod.mk.injEq, List.not_mem_nil, or_false] at h1
  rcases h1 with ⟨rfl, rfl⟩ | ⟨rfl, rfl⟩
  · simp at h2
  · simp at h2; omega

theorem plain_declares : Declares plain (asc "x") .max ∧ Declares plain (asc "x") .min :=
  ⟨.inr ⟨by simp, [.max, .min], by simp [plain], by simp⟩, .inr ⟨by simp, [.max, .min], by simp [plain], by simp⟩⟩

theorem plain_only {f : Bytes} {m : Measure} (h : Declares plain f m) (hm : m ≠ .count) : f = asc "x" ∧ (m = .max ∨ m = .min) := by
  rcases h with ⟨_, h, _⟩ | ⟨_, ms, h1, h2⟩
  · exact absurd h hm
  · simp only [plain, List.mem_cons, Prod.mk.injEq, List.not_mem_nil, or_false] at h1
    obtain ⟨rfl, rfl⟩ := h1
    simpa using h2

theorem mixed_only {f : Bytes} {m : Measure} (h : Declares mixed f m) (hm : m ≠ .count) :
    (f = asc "x" ∧ m = .max) ∨ (f = asc "u" ∧ m = .cardinality 5) := by
  rcases h with ⟨_, h, _⟩ | ⟨_, ms, h1, h2⟩
  · exact absurd h hm
  · simp only [mixed, List.mem_cons, Prod.mk.injEq, List.not_mem_nil, or_false] at h1
    rcases h1 with ⟨rfl, rfl⟩ | ⟨rfl, rfl⟩
    · exact .inl ⟨rfl, by simpa using h2⟩
    · exact .inr ⟨rfl, by simpa using h2⟩

/-- a `ParseFloat` that knows a few numerals -/
def fewNumbers : Lib :=
  { log := fun x => x
    parseFloat := fun s =>
      if s = asc "-5" then some (F64.neg (F64.ofNat 5)) else if s = asc "5" then some (F64.ofNat 5)
      else if s = asc "3" then some (F64.ofNat 3) else none }

theorem few_doubles : ParsesDoubles fewNumbers := by
  intro s x h
  unfold fewNumbers at h
  simp only at h
  apply isDouble_iff.2
  split at h
  · have := Option.some.inj h; subst this; exact F64.wf_neg (F64.wf_ofNat _)
  · split at h
    · have := Option.some.inj h; subst this; exact F64.wf_ofNat _
    · split at h
      · have := Option.some.inj h; subst this; exact F64.wf_ofNat _
      · simp at h

/-- instance: the hypotheses of the C25 theorems hold for `plain` and x=5, x=-5, x=3 in three observations -/
example : ∃ buf, ValidSchema plain ∧ ParsesDoubles fewNumbers ∧ Declares plain (asc "x") .max ∧
    RecordOf fewNumbers (compile plain) ([⟨0, [⟨asc "k", asc "a"⟩, ⟨asc "x", asc "5"⟩]⟩, ⟨0, [⟨asc "x", asc "-5"⟩]⟩, ⟨0, [⟨asc "x", asc "3"⟩]⟩]) buf ∧
    valuesOf (asc "x") [⟨0, [⟨asc "k", asc "a"⟩, ⟨asc "x", asc "5"⟩]⟩] = [asc "5"] := by
  obtain ⟨buf, hb⟩ := (C25_accepted_iff fewNumbers plain plain_valid ⟨0, [⟨asc "k", asc "a"⟩, ⟨asc "x", asc "5"⟩]⟩
    [⟨0, [⟨asc "x", asc "-5"⟩]⟩, ⟨0, [⟨asc "x", asc "3"⟩]⟩]).2 ⟨by
      intro f m hd hm v hv
      obtain ⟨rfl, _⟩ := plain_only hd hm.1
      revert v
      decide +kernel, by
      intro f p hd
      rcases (plain_only hd (by simp)).2 with h | h <;> simp at h⟩
  exact ⟨buf, plain_valid, few_doubles, plain_declares.1, hb, by decide⟩

/-- **C25**, refuted for fields absent from the first observation: with max(x) declared, after an observation without x and one with
x=-5, both accepted, `max(x)` is 0, which was never observed and exceeds all that was. -/
theorem C25_absent_refuted (lib : Lib) (hl : ParsesDoubles lib) (h5 : lib.parseFloat (asc "-5") = some (F64.neg (F64.ofNat 5))) :
    ∃ rows buf x, RecordOf lib (compile plain) rows buf ∧ numbersOf lib (asc "x") rows = [F64.neg (F64.ofNat 5)] ∧
      ask lib (compile plain) buf (asc "x") (asc "max") = .val ([⟨asc "x", asc "max", x⟩], none) ∧
      x = .fin false 0 ∧ x ∉ numbersOf lib (asc "x") rows := by
  have hv : valuesOf (asc "x") [⟨0, [⟨asc "k", asc "a"⟩]⟩, ⟨0, [⟨asc "k", asc "a"⟩, ⟨asc "x", asc "-5"⟩]⟩] = [asc "-5"] := by decide
  have hv' : valuesOf (asc "x") [⟨0, [⟨asc "k", asc "a"⟩, ⟨asc "x", asc "-5"⟩]⟩] = [asc "-5"] := by decide
  have h0 : valuesOf (asc "x") [⟨0, [⟨asc "k", asc "a"⟩]⟩] = [] := by decide
  obtain ⟨buf, hb⟩ := (C25_accepted_iff lib plain plain_valid ⟨0, [⟨asc "k", asc "a"⟩]⟩
    [⟨0, [⟨asc "k", asc "a"⟩, ⟨asc "x", asc "-5"⟩]⟩]).2 ⟨by
      intro f m hd hm v hvm
      obtain ⟨rfl, _⟩ := plain_only hd hm.1
      rw [hv] at hvm
      simp only [List.mem_singleton] at hvm
      subst hvm
      rw [h5]; simp, by
      intro f p hd
      rcases (plain_only hd (by simp)).2 with h | h <;> simp at h⟩
  have hn : numbersOf lib (asc "x") [⟨0, [⟨asc "k", asc "a"⟩]⟩, ⟨0, [⟨asc "k", asc "a"⟩, ⟨asc "x", asc "-5"⟩]⟩] = [F64.neg (F64.ofNat 5)] := by
    unfold numbersOf; rw [hv]; simp [h5]
  have hn' : numbersOf lib (asc "x") [⟨0, [⟨asc "k", asc "a"⟩, ⟨asc "x", asc "-5"⟩]⟩] = [F64.neg (F64.ofNat 5)] := by
    unfold numbersOf; rw [hv']; simp [h5]
  have hn0 : numbersOf lib (asc "x") [⟨0, [⟨asc "k", asc "a"⟩]⟩] = [] := by unfold numbersOf; rw [h0]; rfl
  have law := (C25_extreme_law lib hl plain plain_valid (asc "x") _ _ buf hb (by
    rw [hn0, hn']; decide +kernel)).1 plain_declares.1
  rw [hn0, hn'] at law
  obtain ⟨x, h1, h2, h3⟩ := law
  have hx : x = .fin false 0 := by
    simp only [List.getLastD_nil, List.mem_cons, List.not_mem_nil, or_false] at h2
    rcases h2 with h2 | h2
    · exact h2
    · have := h3 (.fin false 0) (by simp)
      rw [h2] at this
      exact absurd this (by decide +kernel)
  refine ⟨_, buf, x, hb, hn, h1, hx, ?_⟩
  rw [hn, hx]
  decide +kernel

/-- **C25**, refuted for repeated fields in the first observation: with max(x) declared, after the single observation x=5, x=3 the
maximum is 3. -/
theorem C25_repeated_refuted (lib : Lib) (hl : ParsesDoubles lib) (h5 : lib.parseFloat (asc "5") = some (F64.ofNat 5))
    (h3 : lib.parseFloat (asc "3") = some (F64.ofNat 3)) :
    ∃ rows buf, RecordOf lib (compile plain) rows buf ∧ numbersOf lib (asc "x") rows = [F64.ofNat 5, F64.ofNat 3] ∧
      ask lib (compile plain) buf (asc "x") (asc "max") = .val ([⟨asc "x", asc "max", F64.ofNat 3⟩], none) := by
  have hv : valuesOf (asc "x") [⟨0, [⟨asc "k", asc "a"⟩, ⟨asc "x", asc "5"⟩, ⟨asc "x", asc "3"⟩]⟩] = [asc "5", asc "3"] := by decide
  obtain ⟨buf, hb⟩ := (C25_accepted_iff lib plain plain_valid ⟨0, [⟨asc "k", asc "a"⟩, ⟨asc "x", asc "5"⟩, ⟨asc "x", asc "3"⟩]⟩ []).2 ⟨by
      intro f m hd hm v hvm
      obtain ⟨rfl, _⟩ := plain_only hd hm.1
      rw [hv] at hvm
      simp only [List.mem_cons, List.not_mem_nil, or_false] at hvm
      rcases hvm with rfl | rfl
      · rw [h5]; simp
      · rw [h3]; simp, by
      intro f p hd
      rcases (plain_only hd (by simp)).2 with h | h <;> simp at h⟩
  have hn : numbersOf lib (asc "x") [⟨0, [⟨asc "k", asc "a"⟩, ⟨asc "x", asc "5"⟩, ⟨asc "x", asc "3"⟩]⟩] = [F64.ofNat 5, F64.ofNat 3] := by
    unfold numbersOf; rw [hv]; simp [h5, h3]
  have hn0 : numbersOf lib (asc "x") [] = [] := rfl
  have law := (C25_extreme_law lib hl plain plain_valid (asc "x") _ _ buf hb (by
    rw [hn, hn0]; decide +kernel)).1 plain_declares.1
  rw [hn, hn0] at law
  obtain ⟨x, h1, h2, _⟩ := law
  simp only [List.getLastD_cons, List.getLastD_nil, List.mem_singleton] at h2
  subst h2
  exact ⟨_, buf, hb, hn, h1⟩

/-- **C25**, refuted for uniquecount: if the observation that creates the record does not carry the field, every later observation
that does is rejected, so the record never counts any value of the field. -/
theorem C25_uniquecount_refuted (lib : Lib) (v : Bytes) :
    (∃ buf, RecordOf lib (compile mixed) [⟨0, [⟨asc "k", asc "a"⟩]⟩] buf) ∧
    ¬ ∃ buf, RecordOf lib (compile mixed) [⟨0, [⟨asc "k", asc "a"⟩]⟩, ⟨0, [⟨asc "k", asc "a"⟩, ⟨asc "u", v⟩]⟩] buf := by
  have hx : valuesOf (asc "x") [⟨0, [⟨asc "k", asc "a"⟩]⟩] = [] := by decide
  have hu : valuesOf (asc "u") [⟨0, [⟨asc "k", asc "a"⟩]⟩] = [] := by decide
  have hu' : valuesOf (asc "u") [⟨0, [⟨asc "k", asc "a"⟩, ⟨asc "u", v⟩]⟩] = [v] := by
    unfold valuesOf
    simp [show asc "k" ≠ asc "u" by decide]
  constructor
  · refine (C25_accepted_iff lib mixed mixed_valid _ []).2 ⟨?_, fun _ _ _ _ => rfl⟩
    intro f m hd hm w hw
    rcases mixed_only hd hm.1 with ⟨rfl, _⟩ | ⟨_, h⟩
    · rw [hx] at hw; simp at hw
    · exact absurd h (hm.2 5)
  · rintro h
    have := ((C25_accepted_iff lib mixed mixed_valid _ _).1 h).2 (asc "u") 5
      (.inr ⟨by simp, [.cardinality 5], by simp [mixed], by simp⟩) hu
    rw [hu'] at this
    simp at this

/-- **C27**, refuted when a requested uniquecount has no counter yet: a request for uniquecount(u) and max(x), both maintained,
returns an error and no value at all. -/
theorem C27_error_refuted (lib : Lib) : ∃ buf, RecordOf lib (compile mixed) [⟨0, [⟨asc "k", asc "a"⟩]⟩] buf ∧
    Maintains mixed (asc "u") (asc "uniquecount") ∧ Maintains mixed (asc "x") (asc "max") ∧
    Collation.read lib (compile mixed) [⟨asc "u", [asc "uniquecount"]⟩, ⟨asc "x", [asc "max"]⟩] buf = .val ([], some .incompatibleVersion) := by
  obtain ⟨buf, hb⟩ := (C25_uniquecount_refuted lib []).1
  have hd : Declares mixed (asc "u") (.cardinality 5) := .inr ⟨by simp, [.cardinality 5], by simp [mixed], by simp⟩
  refine ⟨buf, hb, ⟨_, hd, rfl⟩, ⟨.max, .inr ⟨by simp, [.max], by simp [mixed], by simp⟩, rfl⟩, ?_⟩
  have := ((C25_uniquecount_law lib mixed mixed_valid (asc "u") 5 hd _ [] buf hb).2 (by decide)).2
  rw [C27_read, show pairs [⟨asc "u", [asc "uniquecount"]⟩, ⟨asc "x", [asc "max"]⟩] =
    [(asc "u", asc "uniquecount"), (asc "x", asc "max")] from rfl, together]
  simp only
  rw [this]
  rfl

end Starbow.Props
