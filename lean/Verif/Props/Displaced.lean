import Verif.Spec.Displaced
import Verif.Proof.AcceptedAny
import Verif.Props.Record
/-
Property theorems C59: the statistics of a key, wherever it is kept.
-/
namespace Starbow.Props
open Starbow.Collation Starbow.Spec Starbow.Storage Starbow.Bufmap

/-! ### the bytes of a record that treats every row as its first -/

section
variable {b : Building} {L : List (Owner × Cell)} {D : List (Bytes × Measure)}

theorem firsts_effect (lib : Lib) (h : Laid b L D) {o : Owner} {v : Cell} (hv : (o, v) ∈ L) : ∀ (rows : List Row) (buf buf' : Bytes),
    buf.length = b.coll.size.toNat → applyFirsts lib b.coll buf rows = (buf', .val none) →
    buf'.length = b.coll.size.toNat ∧ slice buf' v.low.toNat v.high.toNat =
      rows.foldl (fun d r => r.data.foldl (fvEff lib o v.m true) (rowEff o d)) (slice buf v.low.toNat v.high.toNat) := by
  intro rows
  induction rows with
  | nil =>
    intro buf buf' hl e
    simp only [applyFirsts, Prod.mk.injEq] at e
    rw [← e.1]; exact ⟨hl, rfl⟩
  | cons r rows ih =>
    intro buf buf' hl e
    rw [applyFirsts] at e
    rcases e1 : update lib b.coll r buf true with ⟨b1, x⟩
    rw [e1] at e
    rcases x with (x | x) | _
    · obtain ⟨a1, a2⟩ := row_effect lib h hv true r buf b1 hl e1
      obtain ⟨c1, c2⟩ := ih b1 buf' a1 e
      exact ⟨c1, by rw [c2, a2]; rfl⟩
    · simp at e
    · simp at e

theorem firsts_bytes (lib : Lib) (h : Laid b L D) {o : Owner} {v : Cell} (hv : (o, v) ∈ L) {rows : List Row} {buf : Bytes}
    (hr : FirstsOf lib b.coll rows buf) : buf.length = b.coll.size.toNat ∧ slice buf v.low.toNat v.high.toNat =
      rows.foldl (fun d r => r.data.foldl (fvEff lib o v.m true) (rowEff o d)) (List.replicate v.m.size.toNat 0#8) := by
  obtain ⟨h1, h2⟩ := firsts_effect lib h hv rows _ _ (by unfold blank; simp) hr
  refine ⟨h1, ?_⟩
  rw [h2]
  congr 1
  exact blank_slice h hv

theorem firsts_cont (lib : Lib) (h : Laid b L D) {f : Bytes} {v : Cell} (hv : (Owner.cont f, v) ∈ L) {rows : List Row} {buf : Bytes}
    (hr : FirstsOf lib b.coll rows buf) : buf.length = b.coll.size.toNat ∧ slice buf v.low.toNat v.high.toNat =
      (numbersOf lib f rows).foldl (fun d x => (contWriterFn v.m d true x).1) (List.replicate v.m.size.toNat 0#8) := by
  obtain ⟨h1, h2⟩ := firsts_bytes lib h hv hr
  refine ⟨h1, ?_⟩
  rw [h2]
  unfold rowEff
  dsimp only
  rw [foldl_rows, fold_cont]
  rfl

theorem firsts_disc (lib : Lib) (h : Laid b L D) {f : Bytes} {v : Cell} (hv : (Owner.disc f, v) ∈ L) {rows : List Row} {buf : Bytes}
    (hr : FirstsOf lib b.coll rows buf) : buf.length = b.coll.size.toNat ∧ slice buf v.low.toNat v.high.toNat =
      (valuesOf f rows).foldl (fun d x => (discWriterFn v.m d true x).1) (List.replicate v.m.size.toNat 0#8) := by
  obtain ⟨h1, h2⟩ := firsts_bytes lib h hv hr
  refine ⟨h1, ?_⟩
  rw [h2]
  unfold rowEff
  dsimp only
  rw [foldl_rows, fold_disc]
  rfl

theorem firsts_row (lib : Lib) (h : Laid b L D) {v : Cell} (hv : (Owner.row, v) ∈ L) {rows : List Row} {buf : Bytes}
    (hr : FirstsOf lib b.coll rows buf) : buf.length = b.coll.size.toNat ∧ slice buf v.low.toNat v.high.toNat =
      rows.foldl (fun d _ => (countWriter d).1) (List.replicate v.m.size.toNat 0#8) := by
  obtain ⟨h1, h2⟩ := firsts_bytes lib h hv hr
  refine ⟨h1, ?_⟩
  rw [h2]
  simp only [fold_row]
  rfl

end

/-! ### what it reports -/

theorem firsts_cont_ask (lib : Lib) {s : Schema} (hv : ValidSchema s) {f : Bytes} {m : Measure} (hd : Declares s f m)
    (hm : m.continuousInput = true) {rows : List Row} {buf : Bytes} (hr : FirstsOf lib (compile s) rows buf) :
    ∃ wm, Compat wm m ∧ ask lib (compile s) buf f m.name =
      reply f m.name (readerFn lib m ((numbersOf lib f rows).foldl (fun d x => (contWriterFn wm d true x).1) (List.replicate wm.size.toNat 0#8))) := by
  obtain ⟨L, D, pos, h, hD⟩ := laid_compile s hv
  obtain ⟨c, w, h1, h2, h3, e1, e2, hc, hin⟩ := cont_reader h ((hD f m).2 hd) hm
  obtain ⟨k1, k2⟩ := firsts_cont lib h h3 hr
  refine ⟨w.m, hc, ?_⟩
  rw [ask_reply lib h1, cell_read_eq lib hin k1, ← e1, ← e2, k2, h2]

theorem firsts_stat_ask (lib : Lib) {s : Schema} (hv : ValidSchema s) {f : Bytes} {m : Measure} (hd : Declares s f m)
    (hs : m.stat = true) (hm : m.continuousInput = true) {rows : List Row} {buf : Bytes} (hr : FirstsOf lib (compile s) rows buf) :
    ∃ d, 32 ≤ d.length ∧ Stat64.load d = after (numbersOf lib f rows) ∧
      ask lib (compile s) buf f m.name = reply f m.name (readerFn lib m d) := by
  obtain ⟨wm, hc, ha⟩ := firsts_cont_ask lib hv hd hm hr
  obtain ⟨h1, h2⟩ := compat_stat hc hs hm
  rw [foldl_stat h1, stat_size h1 h2] at ha
  have hl : 32 ≤ (List.replicate (32 : Int).toNat 0#8).length := by simp
  obtain ⟨k1, k2⟩ := stat_fold (numbersOf lib f rows) (List.replicate (32 : Int).toNat 0#8) hl
  refine ⟨_, by rw [k1]; exact hl, ?_, ha⟩
  rw [k2]
  have := Stat64.load_zero []
  rw [List.append_nil] at this
  rw [show List.replicate (32 : Int).toNat 0#8 = Stat64.new from rfl, this]
  rfl

theorem firsts_unique (lib : Lib) (s : Schema) (hv : ValidSchema s) (rows : List Row) (buf : Bytes)
    (hr : FirstsOf lib (compile s) rows buf) (f : Bytes) (p : Int) (hd : Declares s f (.cardinality p)) :
    (∀ vs v, valuesOf f rows = vs ++ [v] → ∃ q c0 c n, Declares s f (.cardinality q) ∧ Hll.new (BitVec.ofInt 8 q) = .val c0 ∧
      runHll c0 [some v] = .val c ∧ Hll.count lib.log c = .val n ∧
      ask lib (compile s) buf f (asc "uniquecount") = .val ([⟨f, asc "uniquecount", F64.ofInt n⟩], none)) ∧
    (valuesOf f rows = [] → ask lib (compile s) buf f (asc "uniquecount") = .val ([], some .incompatibleVersion)) := by
  obtain ⟨L, D, pos, h, hD⟩ := laid_compile s hv
  obtain ⟨c, q, w, h1, h2, hq, h4, h18, h3, e1, e2, hwm, hin⟩ := disc_reader h ((hD f _).2 hd)
  obtain ⟨k1, k2⟩ := firsts_disc lib h h3 hr
  have hpos := (h.cell _ w h3).2.2.1
  rw [hwm] at k2 hpos
  have ha : ask lib (compile s) buf f (asc "uniquecount") = reply f (asc "uniquecount") (readerFn lib (.cardinality q)
      ((valuesOf f rows).foldl (fun d x => (cardWriter q d true x).1) (List.replicate (Measure.cardinality q).size.toNat 0#8))) := by
    rw [ask_reply lib h1, cell_read_eq lib hin k1, ← e1, ← e2, k2, h2]
    rfl
  constructor
  · intro vs v hvs
    rw [hvs] at ha
    obtain ⟨c0, c1, a1, a2, a3, a4, a5⟩ := card_init_fold h4 h18 vs v (List.replicate (Measure.cardinality q).size.toNat 0#8) (by
      have : (Measure.cardinality q).size = Hll.len (precision q) := rfl
      rw [List.length_replicate]; omega)
    obtain ⟨n, d1, d2⟩ := card_read lib (p := q) a3
    refine ⟨q, c0, c1, n, (hD f _).1 hq, a1, ?_, d1, ?_⟩
    · rw [runHll, a2, Out.bind_val]; rfl
    · rw [ha, a5, d2]; rfl
  · intro hvs
    rw [ha, hvs, List.foldl_nil, readerFn]
    have : Hll.withBytes (List.replicate (Measure.cardinality q).size.toNat 0#8) = .val (.error .incompatibleVersion) := by
      unfold Hll.withBytes
      rw [if_neg (by simp; omega)]
      have : (List.replicate (Measure.cardinality q).size.toNat 0#8).getD 0 0 ≠ Hll.version := by
        cases h : (Measure.cardinality q).size.toNat with
        | zero => omega
        | succ n => simp [List.replicate_succ, Hll.version]
      rw [if_pos this]
    rw [this]
    rfl

/-- **C59**, what a record outside its key's home slot reports: count, sum, mean and variance as they should be, of all observations; but max and min are the
last number observed (0 if there was none), and uniquecount is the estimate of a counter that has seen only the last value (an error if there was none). -/
theorem C59_firsts (lib : Lib) (hl : ParsesDoubles lib) (s : Schema) (hv : ValidSchema s) (rows : List Row) (buf : Bytes)
    (hr : FirstsOf lib (compile s) rows buf) (f : Bytes) :
    (Declares s (asc "*") .count → ask lib (compile s) buf (asc "*") (asc "count") =
      .val ([⟨asc "*", asc "count", F64.ofU64 (BitVec.ofNat 64 rows.length)⟩], none)) ∧
    (Declares s f .sum → ask lib (compile s) buf f (asc "sum") =
      .val ([⟨f, asc "sum", (numbersOf lib f rows).foldl F64.add (.fin false 0)⟩], none)) ∧
    (Declares s f .mean → ask lib (compile s) buf f (asc "mean") = .val ([⟨f, asc "mean", (after (numbersOf lib f rows)).mean⟩], none)) ∧
    (Declares s f .variance → ask lib (compile s) buf f (asc "var") =
      .val ([⟨f, asc "var", (after (numbersOf lib f rows)).variance.getD .nan⟩], none)) ∧
    (Declares s f .max → ask lib (compile s) buf f (asc "max") = .val ([⟨f, asc "max", (numbersOf lib f rows).getLastD (.fin false 0)⟩], none)) ∧
    (Declares s f .min → ask lib (compile s) buf f (asc "min") = .val ([⟨f, asc "min", (numbersOf lib f rows).getLastD (.fin false 0)⟩], none)) ∧
    (∀ p, Declares s f (.cardinality p) →
      (∀ vs v, valuesOf f rows = vs ++ [v] → ∃ q c0 c n, Declares s f (.cardinality q) ∧ Hll.new (BitVec.ofInt 8 q) = .val c0 ∧
        runHll c0 [some v] = .val c ∧ Hll.count lib.log c = .val n ∧
        ask lib (compile s) buf f (asc "uniquecount") = .val ([⟨f, asc "uniquecount", F64.ofInt n⟩], none)) ∧
      (valuesOf f rows = [] → ask lib (compile s) buf f (asc "uniquecount") = .val ([], some .incompatibleVersion))) := by
  obtain ⟨L, D, pos, h, hD⟩ := laid_compile s hv
  have hw : F64.Wf ((numbersOf lib f rows).getLastD (.fin false 0)) := by
    cases e : (numbersOf lib f rows).getLast? with
    | none => rw [List.getLastD_eq_getLast?, e]; exact F64.wf_zero false
    | some x => rw [List.getLastD_eq_getLast?, e]; exact numbers_wf hl f rows x (List.mem_of_getLast? e)
  refine ⟨?_, ?_, ?_, ?_, ?_, ?_, ?_⟩
  · intro hd
    obtain ⟨c, w, h1, h2, h3, e1, e2, hwm, hin⟩ := row_reader h ((hD _ _).2 hd)
    obtain ⟨k1, k2⟩ := firsts_row lib h h3 hr
    have hz : leU64 (List.replicate 8 0#8) = 0 := by decide
    have key : slice buf w.low.toNat w.high.toNat = le64 (BitVec.ofNat 64 rows.length) := by
      rw [k2, hwm]
      rcases count_fold rows (List.replicate 8 0#8) (by simp) with e | ⟨e, e'⟩
      · rw [hz] at e; exact e.trans (by congr 1; exact BitVec.zero_add _)
      · rw [e]; decide
    rw [ask_reply lib h1, cell_read_eq lib hin k1, ← e1, ← e2, key, h2]
    rw [readerFn, if_neg (by simp), leU64_le64]
    rfl
  · intro hd
    obtain ⟨d, h1, h2, h3⟩ := firsts_stat_ask lib hv hd rfl rfl hr
    rw [show Measure.sum.name = asc "sum" from rfl] at h3
    rw [h3, readerFn, (accessors d h1).2.1, h2, after_sum]
    rfl
  · intro hd
    obtain ⟨d, h1, h2, h3⟩ := firsts_stat_ask lib hv hd rfl rfl hr
    rw [show Measure.mean.name = asc "mean" from rfl] at h3
    rw [h3, readerFn, (accessors d h1).2.2.1, h2]
    rfl
  · intro hd
    obtain ⟨d, h1, h2, h3⟩ := firsts_stat_ask lib hv hd rfl rfl hr
    rw [show Measure.variance.name = asc "var" from rfl] at h3
    rw [h3, readerFn, (accessors d h1).2.2.2, h2]
    rfl
  · intro hd
    obtain ⟨wm, hc, ha⟩ := firsts_cont_ask lib hv hd rfl hr
    have := compat_eq hc rfl
    subst this
    rw [show Measure.max.size = 8 from rfl, zero_bits, fold_put _ (.inl rfl), (read_max lib hw).1] at ha
    exact ha
  · intro hd
    obtain ⟨wm, hc, ha⟩ := firsts_cont_ask lib hv hd rfl hr
    have := compat_eq hc rfl
    subst this
    rw [show Measure.min.size = 8 from rfl, zero_bits, fold_put _ (.inr rfl), (read_max lib hw).2] at ha
    exact ha
  · intro p hd
    exact firsts_unique lib s hv rows buf hr f p hd

/-! ### in a store -/

theorem serveNew_firsts (lib : Lib) {s : Schema} {L : List (Owner × Cell)} {D : List (Bytes × Measure)} {pos : Int} (h : Laid ⟨compile s, pos⟩ L D)
    (hD : ∀ f m, (f, m) ∈ D ↔ Declares s f m) (rows : List Row) (hn : ∀ r ∈ rows, Numbers lib s r) : ∀ buf, Hold ⟨compile s, pos⟩ L [] buf →
    applyFirsts lib (compile s) buf rows = (serveNew lib (compile s) buf rows, .val none) := by
  induction rows with
  | nil => intro buf _; rfl
  | cons r rows ih =>
    intro buf hb
    obtain ⟨b', e, h1, _, h3⟩ := hold_row lib h hb true r
    have h1 : Collation.update lib (compile s) r buf true = (b', .val e) := h1
    have := (update_new_iff lib h hD hb r h1).2 (hn r (by simp))
    subst this
    rw [applyFirsts, h1]
    simp only
    rw [ih (fun r' hr' => hn r' (by simp [hr'])) b' h3]
    unfold serveNew
    rw [List.foldl_cons, h1]

/-- the bytes in the slot of a key are the record of its rows -/
theorem slot_record (lib : Lib) {sch : Schema} {L : List (Owner × Cell)} {D : List (Bytes × Measure)} {pos : Int} (h : Laid ⟨compile sch, pos⟩ L D)
    (hD : ∀ f m, (f, m) ∈ D ↔ Declares sch f m) {l : Nat} (hl : 0 < l) (os : List Obs)
    (hall : ∀ p ∈ (writes lib (newStore sch l) os).2, p.2 = .ret none) {k : U64} (h0 : k ≠ 0) {x : Nat} (hx : slotAfter sch.keys l os k = some x) :
    (x = k.toNat % l → RecordOf lib (compile sch) (rowsWith sch.keys k os) (slotBytes (writes lib (newStore sch l) os).1.backend x)) ∧
    (x ≠ k.toNat % l → FirstsOf lib (compile sch) (rowsWith sch.keys k os) (slotBytes (writes lib (newStore sch l) os).1.backend x)) := by
  have hs := (slot_run lib h hl os h0).trans hx
  have hrows := rowsFor_accepted lib (newStore sch l) os sch.keys k hall
  constructor
  · intro hxh
    have hkept := kept_run lib h hl h0 os (fun p hp _ _ => hall p hp) x hs hxh
    rw [hrows] at hkept
    exact hkept
  · intro hxh
    rcases stored_run lib h hl h0 os with ⟨_, hn⟩ | ⟨_, y, _, hsy, hb⟩
    · rw [hs] at hn; simp at hn
    · have hyx : x = y := Option.some.inj (hs.symm.trans hsy)
      subst hyx
      have hnum := (((accepted_law lib h hD hl os).1 hall).2 k x h0 hx).2 hxh
      rw [hb, hrows]
      unfold FirstsOf recordIn
      rw [if_neg (by simpa using hxh)]
      exact serveNew_firsts lib h hD _ hnum _ (hold_blank h)

/-- **C59**, the exact law at store level, for all keys. After an accepted history of writes to a fresh store, with `x` the slot of a key value
(`slotAfter`: linear probing) and `s` the size of a record, every query about the key value is answered
* with "no record" if it has no slot;
* else not at all (the read panics) if x*(s+1) > l*s;
* else from the first x bytes, continued by zeros, of the record of exactly the observations with that key, in order (what it says is C25) if x is the home slot,
and of the record that treated each of these observations as its first if it is not (what it says is `C59_firsts`). -/
theorem C59_law (lib : Lib) (sch : Schema) (hv : ValidSchema sch) (l : Nat) (hl : 0 < l) (os : List Obs)
    (hall : ∀ p ∈ (writes lib (newStore sch l) os).2, p.2 = .ret none) (k : U64) (h0 : k ≠ 0) :
    (slotAfter sch.keys l os k = none → ∀ q : Query, keyValue q.criteria sch.keys = some k → Storage.read lib (writes lib (newStore sch l) os).1 q = noRecord) ∧
    (∀ x, slotAfter sch.keys l os k = some x → ∃ buf, buf.length = (compile sch).size.toNat ∧
      (x = k.toNat % l → RecordOf lib (compile sch) (rowsWith sch.keys k os) buf) ∧
      (x ≠ k.toNat % l → FirstsOf lib (compile sch) (rowsWith sch.keys k os) buf) ∧
      ∀ q : Query, keyValue q.criteria sch.keys = some k → Storage.read lib (writes lib (newStore sch l) os).1 q =
        if x * ((compile sch).size.toNat + 1) > l * (compile sch).size.toNat then .panic
        else answer (Collation.read lib (compile sch) q.fieldMeasures (buf.take x ++ List.replicate (buf.length - x) 0#8))) := by
  obtain ⟨L, D, pos, h, hD⟩ := laid_compile sch hv
  have hg := good_writes (l := l) lib h os (good_new h hl)
  have hsl := slot_run lib h hl os h0
  refine ⟨fun hn q hk => read_absent lib h hg hk (hsl.trans hn), ?_⟩
  intro x hx
  have hs := hsl.trans hx
  have hxl := ((slotOf_eq hg.wf h0).1 hs).1
  obtain ⟨r1, r2⟩ := slot_record lib h hD hl os hall h0 hx
  exact ⟨slotBytes (writes lib (newStore sch l) os).1.backend x, (hg.hold x hxl).len, r1, r2, fun q hk => read_present lib h hg hk h0 hs⟩

end Starbow.Props
