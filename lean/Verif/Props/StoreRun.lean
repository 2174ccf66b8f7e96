import Verif.Proof.StoreRun
import Verif.Props.Store
/-
Property theorems C26, C48, C49 and C59 at the level of a store: histories of writes and what is read afterwards.
-/
namespace Starbow.Props
open Starbow.Collation Starbow.Spec Starbow.Storage Starbow.Bufmap

/-! ### C48: count(*) -/

section
variable {sch : Schema} {L : List (Owner × Cell)} {D : List (Bytes × Measure)} {pos : Int} {l : Nat}

theorem count_cell (h : Laid ⟨compile sch, pos⟩ L D) (hD : ∀ f m, (f, m) ∈ D ↔ Declares sch f m) (hd : sch.recordMeasures ≠ []) :
    ∃ w, (Owner.row, w) ∈ L ∧ w.low = 8 * (sch.recordMeasures.length - 1 : Nat) ∧ w.high = 8 * sch.recordMeasures.length ∧
      InRec (compile sch).size.toNat w := by
  obtain ⟨r, w, h1, h2, h3, e1, e2, hwm, hin⟩ := row_reader h ((hD _ _).2 (.inl ⟨rfl, rfl, by
    cases hr : sch.recordMeasures with
    | nil => exact absurd hr hd
    | cons a _ => cases a; simp⟩))
  have := count_place sch hd
  rw [show readerAt (compile sch) (asc "*") (asc "count") = _ from h1] at this
  have := Option.some.inj this
  subst this
  exact ⟨w, h3, e1, e2, inRec h h3⟩

end

/-- **C48**, the exact law at store level. After any writes to a fresh store, a query of count(*) for a key value with key `k`, if
`n` observations of that key reached its record, is answered
* "no record" if n = 0; otherwise, with `x` the slot of the record and `s` its size,
* not at all (the read panics) if x*(s+1) > l*s;
* else by n mod 256^j, where j = x - 8*(number of record measures - 1), because only the first x bytes of the record are read. -/
theorem C48_law (lib : Lib) (sch : Schema) (hv : ValidSchema sch) (hd : sch.recordMeasures ≠ []) (l : Nat) (hl : 0 < l)
    (os : List Obs) (crit : List FV) (k : U64) (hk : keyValue crit sch.keys = some k) (h0 : k ≠ 0) :
    ((rowsFor sch.keys k (writes lib (newStore sch l) os).2).length = 0 →
      Storage.read lib (writes lib (newStore sch l) os).1 (countQuery crit) = noRecord) ∧
    (0 < (rowsFor sch.keys k (writes lib (newStore sch l) os).2).length →
      ∃ x, x < l ∧ slotOf (writes lib (newStore sch l) os).1.backend k = some x ∧
        Storage.read lib (writes lib (newStore sch l) os).1 (countQuery crit) =
          if x * ((compile sch).size.toNat + 1) > l * (compile sch).size.toNat then .panic
          else countIs ((rowsFor sch.keys k (writes lib (newStore sch l) os).2).length %
            256 ^ (x - 8 * (sch.recordMeasures.length - 1)))) := by
  obtain ⟨L, D, pos, h, hD⟩ := laid_compile sch hv
  have hg := good_writes (l := l) lib h os (good_new h hl)
  rcases stored_run lib h hl h0 os with ⟨hr, hs⟩ | ⟨hr, x, hx, hs, hb⟩
  · refine ⟨fun _ => read_absent lib h hg hk hs, fun hpos => ?_⟩
    rw [hr] at hpos; simp at hpos
  · refine ⟨fun hn => absurd (List.length_eq_zero_iff.1 hn) hr, fun _ => ⟨x, hx, hs, ?_⟩⟩
    rw [read_present lib h hg hk h0 hs, hb]
    split
    · rfl
    · obtain ⟨w, hw, e1, e2, hin⟩ := count_cell h hD hd
      obtain ⟨c1, c2⟩ := count_record lib h hw (decide (x = k.toNat % l)) (rowsFor sch.keys k (writes lib (newStore sch l) os).2)
      have hlen : 0 < sch.recordMeasures.length := List.length_pos_iff.2 hd
      have hrd := count_place sch hd
      have key := ask_reply lib hrd (seen x (recordIn lib (compile sch) (decide (x = k.toNat % l))
        (rowsFor sch.keys k (writes lib (newStore sch l) os).2)))
      unfold countQuery
      simp only
      have e3 : Collation.read lib (compile sch) [⟨asc "*", [asc "count"]⟩] = fun buf => ask lib (compile sch) buf (asc "*") (asc "count") := rfl
      rw [e3]
      simp only
      rw [key]
      have hcl : (recordIn lib (compile sch) (decide (x = k.toNat % l))
          (rowsFor sch.keys k (writes lib (newStore sch l) os).2)).length = (compile sch).size.toNat := c1.len
      have hin' : InRec (compile sch).size.toNat ⟨8 * (sch.recordMeasures.length - 1 : Nat), 8 * sch.recordMeasures.length, .count⟩ :=
        ⟨by simp only; omega, by simp only; omega, by have := hin.high; simp only; omega⟩
      rw [cell_read_eq lib hin' (by rw [seen_length]; exact hcl)]
      simp only
      have hhigh := hin.high
      have hsl := slice_seen_cut (x := x) (lo := w.low.toNat) (hi := w.high.toNat) (d := recordIn lib (compile sch) (decide (x = k.toNat % l))
          (rowsFor sch.keys k (writes lib (newStore sch l) os).2)) (by omega) (by omega)
      rw [c2] at hsl
      have hlo : w.low.toNat = 8 * (sch.recordMeasures.length - 1) := by omega
      have hhi : w.high.toNat = 8 * sch.recordMeasures.length := by omega
      rw [e1, e2] at hsl
      rw [hsl, readerFn, if_neg]
      · rw [leU64_cut _ _ _ (by omega)]
        rw [← e1, hlo]
        rfl
      · simp; omega

/-- **C48**, what is counted: if no two of the key values observed share a home slot, count(*) for a key value is the number of
observations with that key that reached the record (for the home slots where reading works). -/
theorem C48_counts_partial (lib : Lib) (sch : Schema) (hv : ValidSchema sch) (hd : sch.recordMeasures ≠ []) (l : Nat) (hl : 0 < l)
    (os : List Obs) (happ : HomesApart sch.keys l os)
    (crit : List FV) (k : U64) (hk : keyValue crit sch.keys = some k) (h0 : k ≠ 0)
    (hlow : 8 * sch.recordMeasures.length ≤ k.toNat % l)
    (hhigh : k.toNat % l * ((compile sch).size.toNat + 1) ≤ l * (compile sch).size.toNat) :
    Storage.read lib (writes lib (newStore sch l) os).1 (countQuery crit) =
      if rowsFor sch.keys k (writes lib (newStore sch l) os).2 = [] then noRecord
      else countIs (rowsFor sch.keys k (writes lib (newStore sch l) os).2).length := by
  obtain ⟨L, D, pos, h, hD⟩ := laid_compile sch hv
  obtain ⟨c1, c2⟩ := C48_law lib sch hv hd l hl os crit k hk h0
  split
  · next e => exact c1 (by rw [e]; rfl)
  · next e =>
    obtain ⟨x, hx, hs, hread⟩ := c2 (List.length_pos_iff.2 e)
    have hxk := home_run lib h hl os happ h0 hs
    subst hxk
    rw [hread, if_neg (by omega)]
    unfold countIs
    congr 5
    apply BitVec.eq_of_toNat_eq
    rw [BitVec.toNat_ofNat, BitVec.toNat_ofNat]
    have hlen : 0 < sch.recordMeasures.length := List.length_pos_iff.2 hd
    have : (2 : Nat) ^ 64 ∣ 256 ^ (k.toNat % l - 8 * (sch.recordMeasures.length - 1)) := by
      rw [show (2 : Nat) ^ 64 = 256 ^ 8 by decide]
      exact Nat.pow_dvd_pow 256 (by omega)
    exact Nat.mod_mod_of_dvd _ this

theorem rowsFor_accepted (lib : Lib) (st : Store) (os : List Obs) (keys : List Bytes) (k : U64)
    (hall : ∀ p ∈ (writes lib st os).2, p.2 = .ret none) : rowsFor keys k (writes lib st os).2 = rowsWith keys k os := by
  unfold rowsFor rowsWith
  conv => rhs; rw [← writes_obs lib os st]
  generalize (writes lib st os).2 = done at hall
  rw [List.map_map]
  have ht : touched (.ret none) = true := rfl
  induction done with
  | nil => rfl
  | cons p done ih =>
    have hp := hall p (by simp)
    rw [List.filter_cons, List.map_cons, List.filter_cons]
    simp only [Function.comp_apply]
    rw [hp, ht, Bool.and_true]
    split
    · rw [List.map_cons, ih fun p' h' => hall p' (by simp [h'])]
    · rw [ih fun p' h' => hall p' (by simp [h'])]

/-- **C48** at store level, partial: if all observations were accepted and no two of the key values observed share a home slot, then
count(*) for a key value is the number of observations with that key value (no record if there are none), provided the home slot is
neither among the first (8 per record measure) nor among the last. Missing: keys that collide in the table, and the excluded slots,
where the claim fails (`C48_zero_refuted`, `C48_panic_refuted`). -/
theorem C48_read_partial (lib : Lib) (sch : Schema) (hv : ValidSchema sch) (hd : sch.recordMeasures ≠ []) (l : Nat) (hl : 0 < l)
    (os : List Obs) (hall : ∀ p ∈ (writes lib (newStore sch l) os).2, p.2 = .ret none) (happ : HomesApart sch.keys l os)
    (crit : List FV) (k : U64) (hk : keyValue crit sch.keys = some k) (h0 : k ≠ 0)
    (hlow : 8 * sch.recordMeasures.length ≤ k.toNat % l)
    (hhigh : k.toNat % l * ((compile sch).size.toNat + 1) ≤ l * (compile sch).size.toNat) :
    Storage.read lib (writes lib (newStore sch l) os).1 (countQuery crit) =
      if rowsWith sch.keys k os = [] then noRecord else countIs (rowsWith sch.keys k os).length := by
  rw [C48_counts_partial lib sch hv hd l hl os happ crit k hk h0 hlow hhigh, rowsFor_accepted lib (newStore sch l) os sch.keys k hall]

/-- **C48 fails** (1): a key value whose home slot is 0 always has count(*) = 0, however many observations were recorded (stated for
schemas with one record measure, as in the program). -/
theorem C48_zero_refuted (lib : Lib) (sch : Schema) (hv : ValidSchema sch) (hd : sch.recordMeasures = [.count]) (l : Nat) (hl : 0 < l)
    (os : List Obs) (happ : HomesApart sch.keys l os) (crit : List FV) (k : U64) (hk : keyValue crit sch.keys = some k) (h0 : k ≠ 0)
    (hhome : k.toNat % l = 0) (hn : rowsFor sch.keys k (writes lib (newStore sch l) os).2 ≠ []) :
    Storage.read lib (writes lib (newStore sch l) os).1 (countQuery crit) = countIs 0 := by
  obtain ⟨L, D, pos, h, hD⟩ := laid_compile sch hv
  obtain ⟨x, hx, hs, hread⟩ := (C48_law lib sch hv (by simp [hd]) l hl os crit k hk h0).2 (List.length_pos_iff.2 hn)
  have hxk := home_run lib h hl os happ h0 hs
  rw [hhome] at hxk
  subst hxk
  rw [hread, if_neg (by simp)]
  simp [Nat.mod_one]

/-- **C48 fails** (2): for a key value whose home slot `x` is one of the last, x*(s+1) > l*s with `s` the record size, the query
panics as soon as an observation is recorded. -/
theorem C48_panic_refuted (lib : Lib) (sch : Schema) (hv : ValidSchema sch) (hd : sch.recordMeasures ≠ []) (l : Nat) (hl : 0 < l)
    (os : List Obs) (happ : HomesApart sch.keys l os) (crit : List FV) (k : U64) (hk : keyValue crit sch.keys = some k) (h0 : k ≠ 0)
    (hhome : k.toNat % l * ((compile sch).size.toNat + 1) > l * (compile sch).size.toNat)
    (hn : rowsFor sch.keys k (writes lib (newStore sch l) os).2 ≠ []) :
    Storage.read lib (writes lib (newStore sch l) os).1 (countQuery crit) = .panic := by
  obtain ⟨L, D, pos, h, hD⟩ := laid_compile sch hv
  obtain ⟨x, hx, hs, hread⟩ := (C48_law lib sch hv hd l hl os crit k hk h0).2 (List.length_pos_iff.2 hn)
  have hxk := home_run lib h hl os happ h0 hs
  subst hxk
  rw [hread, if_pos hhome]

/-! #### the program's country collation -/

theorem country_valid : ValidSchema Demo.country := by
  intro f ms p h1 h2
  simp only [Demo.country, List.mem_cons, Prod.mk.injEq, List.not_mem_nil, or_false] at h1
  rcases h1 with ⟨rfl, rfl⟩ | ⟨rfl, rfl⟩
  · simp at h2
  · simp at h2; omega

theorem country_size : (compile Demo.country).size = 900 := by decide +kernel

/-- the records of the program's two collations have 900 and 416 bytes: in `tz` a count of 8 and two sketches of precision 8, each 12 bytes of
header and 192 of registers (256 of 6 bits) -/
theorem demo_record_sizes : (compile Demo.country).size = 900 ∧ (compile Demo.tz).size = 8 + (12 + 256 * 6 / 8) + (12 + 256 * 6 / 8) :=
  ⟨country_size, by decide +kernel⟩

/-- what the program's second collation declares -/
theorem tz_declares {f : Bytes} {m : Measure} (h : Declares Demo.tz f m) :
    (f = asc "*" ∧ m = .count) ∨ ((f = asc "country" ∨ f = asc "height") ∧ m = .cardinality 8) := by
  rcases h with ⟨rfl, rfl, _⟩ | ⟨_, ms, h, hm⟩
  · exact .inl ⟨rfl, rfl⟩
  · simp only [Demo.tz, List.mem_cons, List.not_mem_nil, or_false, Prod.mk.injEq] at h
    rcases h with ⟨rfl, rfl⟩ | ⟨rfl, rfl⟩ <;> simp only [List.mem_singleton] at hm <;> subst hm
    · exact .inr ⟨.inl rfl, rfl⟩
    · exact .inr ⟨.inr rfl, rfl⟩

theorem country_declares {f : Bytes} {m : Measure} (h : Declares Demo.country f m) :
    (f = asc "*" ∧ m = .count) ∨ (f = asc "height" ∧ m ∈ [.mean, .sum, .variance, .max, .min]) ∨
    (f = asc "iata" ∧ m = .cardinality 10) := by
  rcases h with ⟨rfl, rfl, _⟩ | ⟨_, ms, h, hm⟩
  · exact .inl ⟨rfl, rfl⟩
  · simp only [Demo.country, List.mem_cons, Prod.mk.injEq, List.not_mem_nil, or_false] at h
    rcases h with ⟨rfl, rfl⟩ | ⟨rfl, rfl⟩
    · exact .inr (.inl ⟨rfl, hm⟩)
    · exact .inr (.inr ⟨rfl, by simpa using hm⟩)

/-- the country field is no measure's business -/
theorem country_plain (lib : Lib) (v : Bytes) : Plain lib Demo.country ⟨asc "country", v⟩ := by
  constructor
  · intro p hd
    rcases country_declares hd with ⟨e, _⟩ | ⟨e, _⟩ | ⟨e, _⟩ <;> exact absurd e (by dsimp only; decide)
  · intro m hd
    rcases country_declares hd with ⟨e, _⟩ | ⟨e, _⟩ | ⟨e, _⟩ <;> exact absurd e (by dsimp only; decide)

/-- an observation of nothing but a country -/
def seenCountry (c : Bytes) : Obs := ⟨⟨0, [⟨asc "country", c⟩]⟩, false⟩

theorem seen_first (lib : Lib) (c : Bytes) (k : U64) (hk : keyValue [⟨asc "country", c⟩] Demo.country.keys = some k) (h0 : k ≠ 0) :
    (writes lib (newStore Demo.country Demo.slots) [seenCountry c]).2 = [(seenCountry c, .ret none)] := by
  obtain ⟨L, D, pos, h, hD⟩ := laid_compile Demo.country country_valid
  have := write_plain lib h hD (good_new (l := Demo.slots) h (by decide)) ⟨0, [⟨asc "country", c⟩]⟩ hk h0
    (.inr (room_new (by decide) k)) (by
      intro fv hfv
      simp only [List.mem_singleton] at hfv
      subst hfv
      exact country_plain lib c)
  rw [writes, writes]
  simp only
  rw [show (seenCountry c).canceled = false from rfl, show (seenCountry c).row = ⟨0, [⟨asc "country", c⟩]⟩ from rfl, this]

theorem rowsFor_seen {c : Bytes} {k : U64} (hk : keyValue [⟨asc "country", c⟩] Demo.country.keys = some k) :
    rowsFor Demo.country.keys k [(seenCountry c, .ret none)] = [(seenCountry c).row] := by
  have hc : keyValue (seenCountry c).row.data Demo.country.keys = some k := hk
  unfold rowsFor
  rw [List.filter_cons, if_pos (by simp only; rw [hc]; simp [touched])]
  rfl

theorem apart_one (keys : List Bytes) (l : Nat) (o : Obs) : HomesApart keys l [o] := by
  intro o1 ho o2 ho' k k' e e' _
  simp only [List.mem_singleton] at ho ho'
  subst ho ho'
  rw [e] at e'
  exact Option.some.inj e'

/-- **C48 fails** in the program: one observation of country "IOO", accepted, and its count(*) is 0; … -/
theorem C48_ioo_refuted (lib : Lib) :
    (writes lib (newStore Demo.country Demo.slots) [seenCountry (asc "IOO")]).2 = [(seenCountry (asc "IOO"), .ret none)] ∧
    Storage.read lib (writes lib (newStore Demo.country Demo.slots) [seenCountry (asc "IOO")]).1
      (countQuery [⟨asc "country", asc "IOO"⟩]) = countIs 0 := by
  have hk : keyValue [⟨asc "country", asc "IOO"⟩] Demo.country.keys = some 14390734045735915000 := by decide +kernel
  have h1 := seen_first lib (asc "IOO") _ hk (by decide)
  refine ⟨h1, ?_⟩
  refine C48_zero_refuted lib Demo.country country_valid rfl Demo.slots (by decide) _ ?_ _ _ hk (by decide) (by decide) ?_
  · exact apart_one _ _ _
  · rw [h1, rowsFor_seen hk]; simp

/-- … one observation of country "CET", accepted, and asking for its count(*) panics. -/
theorem C48_cet_refuted (lib : Lib) :
    (writes lib (newStore Demo.country Demo.slots) [seenCountry (asc "CET")]).2 = [(seenCountry (asc "CET"), .ret none)] ∧
    Storage.read lib (writes lib (newStore Demo.country Demo.slots) [seenCountry (asc "CET")]).1
      (countQuery [⟨asc "country", asc "CET"⟩]) = .panic := by
  have hk : keyValue [⟨asc "country", asc "CET"⟩] Demo.country.keys = some 14396317365782834999 := by decide +kernel
  have h1 := seen_first lib (asc "CET") _ hk (by decide)
  refine ⟨h1, ?_⟩
  refine C48_panic_refuted lib Demo.country country_valid (by decide) Demo.slots (by decide) _ ?_ _ _ hk (by decide) ?_ ?_
  · exact apart_one _ _ _
  · rw [country_size]; decide
  · rw [h1, rowsFor_seen hk]; simp

/-! ### C49: other keys -/

/-- **C49** at store level, partial: a write, whatever its outcome, never changes the answer to any query about another (non-zero) key.
Missing: different key *values* may have the same key (C29), and then it does, see `C49_refuted`. -/
theorem C49_other_keys_partial (lib : Lib) (sch : Schema) (hv : ValidSchema sch) (l : Nat) (hl : 0 < l) (os : List Obs) (o : Obs)
    (q : Query) (k : U64) (hk : keyValue q.criteria sch.keys = some k) (h0 : k ≠ 0) (hne : keyValue o.row.data sch.keys ≠ some k) :
    Storage.read lib (writes lib (newStore sch l) (os ++ [o])).1 q = Storage.read lib (writes lib (newStore sch l) os).1 q := by
  obtain ⟨L, D, pos, h, hD⟩ := laid_compile sch hv
  rw [(writes_append lib os [o] (newStore sch l)).1]
  exact read_other lib h (good_writes lib h os (good_new h hl)) o q hk h0 hne

/-- **C49 fails**: in the program, one observation of a certain 14-byte country changes the answer for country "FR" from no record to
a count of one. -/
theorem C49_refuted (lib : Lib) : ∃ c : Bytes, c ≠ asc "FR" ∧
    Storage.read lib (newStore Demo.country Demo.slots) (countQuery [⟨asc "country", asc "FR"⟩]) = noRecord ∧
    Storage.read lib (writes lib (newStore Demo.country Demo.slots) [seenCountry c]).1 (countQuery [⟨asc "country", asc "FR"⟩]) =
      countIs 1 := by
  have hk : keyValue [⟨asc "country", asc "FR"⟩] Demo.country.keys = some 12582602682680778473 := by decide +kernel
  refine ⟨[0x02, 0x10, 0x02, 0x0c, 0x17, 0x0b, 0x7f, 0x17, 0x08, 0x1a, 0x0c, 0x00, 0x01, 0x05], by decide, ?_, ?_⟩
  · exact (C48_law lib Demo.country country_valid (by decide) Demo.slots (by decide) [] _ _ hk (by decide)).1 rfl
  · have hk' := C29_country_collision.trans hk
    have h1 := seen_first lib _ _ hk' (by decide)
    rw [C48_counts_partial lib Demo.country country_valid (by decide) Demo.slots (by decide) _ ?_ _ _ hk (by decide) (by decide)
      (by rw [country_size]; decide), h1]
    · rw [rowsFor_seen hk', if_neg (by simp)]
      rfl
    · exact apart_one _ _ _

/-! ### C26: rejected observations -/

/-- **C26**, partial: a write refused because the context is cancelled, the key invalid or the table full changes nothing at all. Missing: the
errors of the measures themselves, where the claim fails (`C26_counted_refuted`). -/
theorem C26_refused_partial (lib : Lib) (sch : Schema) (hv : ValidSchema sch) (l : Nat) (hl : 0 < l) (os : List Obs) (o : Obs) (e : Err)
    (he : e = .canceled ∨ e = .invalidKey ∨ e = .outOfSlots)
    (hout : (write lib (writes lib (newStore sch l) os).1 o.canceled o.row).2 = .ret (some e)) :
    (write lib (writes lib (newStore sch l) os).1 o.canceled o.row).1 = (writes lib (newStore sch l) os).1 := by
  obtain ⟨L, D, pos, h, hD⟩ := laid_compile sch hv
  cases write_cases lib h (good_writes (l := l) lib h os (good_new h hl)) o.canceled o.row with
  | nokey hk e => rw [e]
  | refused k' hk' e he hwhy hw => rw [hw]
  | ran k' hk' hc h0' x hx hxk hslot init hinit hdata hkeys e' he' hu hw =>
    exfalso
    rw [hw] at hout
    simp only [Res.ret.injEq] at hout
    obtain ⟨h1, h2, h3⟩ := he' e hout
    rcases he with he | he | he
    · exact h1 he
    · exact h2 he
    · exact h3 he

/-- **C26 fails**: an observation with a value that is not a number, for a field with a numeric measure, is rejected with an error (if
the table is not full), yet count(*) goes up by one. -/
theorem C26_counted_refuted (lib : Lib) (sch : Schema) (hv : ValidSchema sch) (hd : sch.recordMeasures ≠ []) (l : Nat) (hl : 0 < l)
    (os : List Obs) (r : Row) (happ : HomesApart sch.keys l (os ++ [⟨r, false⟩])) (k : U64) (hk : keyValue r.data sch.keys = some k)
    (h0 : k ≠ 0) (hlow : 8 * sch.recordMeasures.length ≤ k.toNat % l)
    (hhigh : k.toNat % l * ((compile sch).size.toNat + 1) ≤ l * (compile sch).size.toNat)
    (f : Bytes) (m : Measure) (hm : m ≠ .count ∧ ∀ p, m ≠ .cardinality p) (hdec : Declares sch f m)
    (v : Bytes) (hvm : ⟨f, v⟩ ∈ r.data) (hbad : lib.parseFloat v = none)
    (hroom : (write lib (writes lib (newStore sch l) os).1 false r).2 ≠ .ret (some .outOfSlots)) :
    (∃ e, (write lib (writes lib (newStore sch l) os).1 false r).2 = .ret (some e)) ∧
    ∃ n, Storage.read lib (writes lib (newStore sch l) os).1 (countQuery r.data) = (if n = 0 then noRecord else countIs n) ∧
      Storage.read lib (write lib (writes lib (newStore sch l) os).1 false r).1 (countQuery r.data) = countIs (n + 1) := by
  have hm : m.continuousInput = true := by
    obtain ⟨h1, h2⟩ := hm
    cases m <;> first | rfl | (exfalso; exact h1 rfl) | (exfalso; exact h2 _ rfl)
  obtain ⟨L, D, pos, h, hD⟩ := laid_compile sch hv
  obtain ⟨c, w, _, _, h3, _⟩ := cont_reader h ((hD f m).2 hdec) hm
  have hg := good_writes (l := l) lib h os (good_new h hl)
  obtain ⟨e, he, hout⟩ : ∃ e, Inner e ∧ (write lib (writes lib (newStore sch l) os).1 false r).2 = .ret (some e) := by
    cases write_cases lib h hg false r with
    | nokey hk' e => rw [hk] at hk'; simp at hk'
    | refused k' hk' e he hwhy hw =>
      exfalso
      have : k = k' := by rw [hk] at hk'; exact Option.some.inj hk'
      subst this
      rcases hwhy with ⟨hc, _⟩ | ⟨_, hz, _⟩ | ⟨_, _, rfl, hn, hfull⟩
      · simp at hc
      · exact h0 hz
      · rw [hw] at hroom; exact hroom rfl
    | ran k' hk' hc h0' x hx hxk hslot init hinit hdata hkeys e' he' hu hw =>
      rw [hw]
      cases e' with
      | some e => exact ⟨e, he' e rfl, rfl⟩
      | none =>
        exfalso
        refine runWriters_bad ((compile sch).writers.map (fun w buf => w.write buf countWriter) ++ r.data.flatMap (fieldWriters lib (compile sch) init))
          (fun buf => (buf, .val (some .parseFloat))) ?_ (by simp) (slotBytes (writes lib (newStore sch l) os).1.backend x) ?_
        · refine List.mem_append.2 (.inr (List.mem_flatMap.2 ⟨⟨f, v⟩, hvm, ?_⟩))
          unfold fieldWriters
          refine List.mem_append.2 (.inl ?_)
          have hne : cells L (.cont f) ≠ [] := by
            intro e
            have := mem_cells.2 h3
            rw [e] at this; simp at this
          rw [show (compile sch).contWriters f = _ from h.cont f, toOpt, if_neg hne, contWriters, hbad]
          simp
        · unfold Collation.update at hu
          rw [hu]
  refine ⟨⟨e, hout⟩, (rowsFor sch.keys k (writes lib (newStore sch l) os).2).length, ?_, ?_⟩
  · rw [C48_counts_partial lib sch hv hd l hl os (fun o ho o' ho' => happ o (by simp [ho]) o' (by simp [ho'])) r.data k hk h0 hlow hhigh]
    simp only [List.length_eq_zero_iff]
  · have := C48_counts_partial lib sch hv hd l hl _ happ r.data k hk h0 hlow hhigh
    rw [(writes_append lib os [⟨r, false⟩] (newStore sch l)).1, (writes_append lib os [⟨r, false⟩] (newStore sch l)).2] at this
    have e1 : (writes lib (writes lib (newStore sch l) os).1 [⟨r, false⟩]).1 = (write lib (writes lib (newStore sch l) os).1 false r).1 := rfl
    have e2 : (writes lib (writes lib (newStore sch l) os).1 [⟨r, false⟩]).2 =
      [(⟨r, false⟩, (write lib (writes lib (newStore sch l) os).1 false r).2)] := rfl
    rw [e1, e2, hout] at this
    have e3 : rowsFor sch.keys k ((writes lib (newStore sch l) os).2 ++ [(⟨r, false⟩, .ret (some e))]) =
        rowsFor sch.keys k (writes lib (newStore sch l) os).2 ++ [r] := by
      unfold rowsFor
      rw [List.filter_append, List.map_append]
      congr 1
      have ht : touched (.ret (some e)) = true := touched_inner (by rintro x hx; rw [← Option.some.inj hx]; exact he)
      rw [List.filter_cons, if_pos]
      · rfl
      · simp only
        rw [hk, ht]
        simp
    rw [e3, if_neg (by simp), List.length_append, List.length_singleton] at this
    exact this

/-- instance of the refutation: country=FR, height=tall as the first observation, for a ParseFloat that knows tall is no number -/
example : fewNumbers.parseFloat (asc "tall") = none ∧
    HomesApart Demo.country.keys Demo.slots ([] ++ [⟨⟨0, [⟨asc "country", asc "FR"⟩, ⟨asc "height", asc "tall"⟩]⟩, false⟩]) ∧
    (∃ k, keyValue [⟨asc "country", asc "FR"⟩, ⟨asc "height", asc "tall"⟩] Demo.country.keys = some k ∧ k ≠ 0 ∧
      8 * Demo.country.recordMeasures.length ≤ k.toNat % Demo.slots ∧ k.toNat % Demo.slots * 901 ≤ Demo.slots * 900) ∧
    Declares Demo.country (asc "height") .mean := by
  refine ⟨by decide +kernel, apart_one _ _ _, ⟨12582602682680778473, by decide +kernel, by decide, by decide, by decide⟩, ?_⟩
  exact .inr ⟨by simp, _, List.mem_cons_self .., by simp⟩

/-! ### C59: the statistics of a key -/

/-- **C59**, partial: if all observations of a key value that reached its record were accepted, no two of the key values observed share a home slot,
and the home slot is neither among the first (as many as a record has bytes) nor among the last, then every query about the key value
is answered from the record of exactly those observations, in order (what that record says is C25). Missing: keys that collide in the
table and the excluded slots, where the claim fails (`C59_displaced_refuted`, `C48_zero_refuted`, `C48_panic_refuted`). -/
theorem C59_home_partial (lib : Lib) (sch : Schema) (hv : ValidSchema sch) (l : Nat) (hl : 0 < l) (os : List Obs)
    (hall : ∀ p ∈ (writes lib (newStore sch l) os).2, p.2 = .ret none) (happ : HomesApart sch.keys l os)
    (k : U64) (h0 : k ≠ 0) (hobs : rowsWith sch.keys k os ≠ [])
    (hlow : (compile sch).size.toNat ≤ k.toNat % l)
    (hhigh : k.toNat % l * ((compile sch).size.toNat + 1) ≤ l * (compile sch).size.toNat) :
    ∃ buf, RecordOf lib (compile sch) (rowsWith sch.keys k os) buf ∧
      ∀ q : Query, keyValue q.criteria sch.keys = some k →
        Storage.read lib (writes lib (newStore sch l) os).1 q = answer (Collation.read lib (compile sch) q.fieldMeasures buf) := by
  obtain ⟨L, D, pos, h, hD⟩ := laid_compile sch hv
  have hg := good_writes (l := l) lib h os (good_new h hl)
  have hrows := rowsFor_accepted lib (newStore sch l) os sch.keys k hall
  rcases stored_run lib h hl h0 os with ⟨hr, _⟩ | ⟨_, x, hx, hs, hb⟩
  · rw [hrows] at hr; exact absurd hr hobs
  · have hxk := home_run lib h hl os happ h0 hs
    have hkept := kept_run lib h hl h0 os (fun p hp _ _ => hall p hp) x hs hxk
    rw [hrows] at hkept
    refine ⟨_, hkept, ?_⟩
    intro q hk
    subst hxk
    rw [read_present lib h hg hk h0 hs, if_neg (by omega), seen_all]
    rw [(hg.hold _ hx).len]
    exact hlow

/-- **C59**, the same for sum, mean and variance of a field, with the values: the running sum, mean and sample variance (C17 to C21)
of the numbers the observations of the key value carried for the field. -/
theorem C59_values_partial (lib : Lib) (sch : Schema) (hv : ValidSchema sch) (l : Nat) (hl : 0 < l) (os : List Obs)
    (hall : ∀ p ∈ (writes lib (newStore sch l) os).2, p.2 = .ret none) (happ : HomesApart sch.keys l os)
    (crit : List FV) (k : U64) (hk : keyValue crit sch.keys = some k) (h0 : k ≠ 0) (hobs : rowsWith sch.keys k os ≠ [])
    (hlow : (compile sch).size.toNat ≤ k.toNat % l)
    (hhigh : k.toNat % l * ((compile sch).size.toNat + 1) ≤ l * (compile sch).size.toNat) (f : Bytes) :
    (Declares sch f .sum → Storage.read lib (writes lib (newStore sch l) os).1 ⟨[⟨f, [asc "sum"]⟩], crit⟩ =
      .ret ([⟨f, asc "sum", (numbersOf lib f (rowsWith sch.keys k os)).foldl F64.add (.fin false 0)⟩], none)) ∧
    (Declares sch f .mean → Storage.read lib (writes lib (newStore sch l) os).1 ⟨[⟨f, [asc "mean"]⟩], crit⟩ =
      .ret ([⟨f, asc "mean", (after (numbersOf lib f (rowsWith sch.keys k os))).mean⟩], none)) ∧
    (Declares sch f .variance → Storage.read lib (writes lib (newStore sch l) os).1 ⟨[⟨f, [asc "var"]⟩], crit⟩ =
      .ret ([⟨f, asc "var", (after (numbersOf lib f (rowsWith sch.keys k os))).variance.getD .nan⟩], none)) := by
  obtain ⟨buf, hrec, hread⟩ := C59_home_partial lib sch hv l hl os hall happ k h0 hobs hlow hhigh
  obtain ⟨r, rows, he⟩ := List.exists_cons_of_ne_nil hobs
  rw [he] at hrec ⊢
  refine ⟨fun hd => ?_, fun hd => ?_, fun hd => ?_⟩
  · rw [hread _ hk]
    have := C25_sum lib sch hv f hd r rows buf hrec
    unfold ask at this
    simp only
    rw [this]; rfl
  · rw [hread _ hk]
    have := C25_mean lib sch hv f hd r rows buf hrec
    unfold ask at this
    simp only
    rw [this]; rfl
  · rw [hread _ hk]
    have := C25_var lib sch hv f hd r rows buf hrec
    unfold ask at this
    simp only
    rw [this]; rfl

/-- **C59 fails** for keys that collide in the table: while the record of a key is not in the key's home slot, max and min of a field are
whatever the last observation carried, no matter what was observed before (stated for an observation carrying the field once,
and a record of which enough is read). -/
theorem C59_displaced_refuted (lib : Lib) (hl' : ParsesDoubles lib) (sch : Schema) (hv : ValidSchema sch) (l : Nat) (hl : 0 < l)
    (os : List Obs) (o : Obs) (crit : List FV) (k : U64) (hk : keyValue crit sch.keys = some k) (h0 : k ≠ 0)
    (hko : keyValue o.row.data sch.keys = some k) (hok : (write lib (writes lib (newStore sch l) os).1 o.canceled o.row).2 = .ret none)
    (x : Nat) (hs : slotOf (writes lib (newStore sch l) (os ++ [o])).1.backend k = some x) (hx : x ≠ k.toNat % l)
    (hx' : x * ((compile sch).size.toNat + 1) ≤ l * (compile sch).size.toNat)
    (f : Bytes) (m : Measure) (hm : m = .max ∨ m = .min) (hd : Declares sch f m) (rd : Cell)
    (hrd : readerAt (compile sch) f m.name = some rd) (hread : rd.high.toNat ≤ x) (v : F64) (hval : numbersOf lib f [o.row] = [v]) :
    Storage.read lib (writes lib (newStore sch l) (os ++ [o])).1 ⟨[⟨f, [m.name]⟩], crit⟩ = .ret ([⟨f, m.name, v⟩], none) := by
  obtain ⟨L, D, pos, h, hD⟩ := laid_compile sch hv
  have hg := good_writes (l := l) lib h os (good_new h hl)
  have hg' := good_writes (l := l) lib h (os ++ [o]) (good_new h hl)
  have hst : (writes lib (newStore sch l) (os ++ [o])).1 = (write lib (writes lib (newStore sch l) os).1 o.canceled o.row).1 := by
    rw [(writes_append lib os [o] (newStore sch l)).1]; rfl
  rw [hst] at hs hg' ⊢
  obtain ⟨b0, hb0, hu⟩ := displaced lib h hg o hko hok hs hx
  have hmc : m.continuousInput = true := by rcases hm with rfl | rfl <;> rfl
  have hms : m.stat = false := by rcases hm with rfl | rfl <;> rfl
  obtain ⟨r, w, h1, h2, h3, e1, e2, hc, hin⟩ := cont_reader h ((hD f m).2 hd) hmc
  have hrr : rd = r := Option.some.inj (hrd.symm.trans h1)
  subst hrr
  have hwm := compat_eq hc hms
  obtain ⟨a1, a2⟩ := row_effect lib h h3 true o.row b0 _ hb0.len hu
  rw [fold_cont] at a2
  have hnum : ((o.row.data.filterMap fun fv => if fv.f = f then some fv.v else none).filterMap lib.parseFloat) = [v] := by
    rw [← hval]; unfold numbersOf valuesOf; simp
  rw [hnum, hwm, List.foldl_cons, List.foldl_nil] at a2
  have hdl : (rowEff (.cont f) (slice b0 w.low.toNat w.high.toNat)).length = 8 := by
    unfold rowEff
    dsimp only
    rw [slice_len (inRec h h3) hb0.len]
    obtain ⟨c1, c2, c3, c4, _⟩ := h.cell _ w h3
    rw [hwm] at c2
    have : m.size = 8 := by rcases hm with rfl | rfl <;> rfl
    omega
  have hput : ∀ d : Bytes, d.length = 8 → (contWriterFn m d true v).1 = le64 (F64.toBits v) := by
    intro d hd
    have : contWriterFn m d true v = putFloat d v := by
      rcases hm with rfl | rfl
      · rw [contWriterFn, maxWriter, if_pos rfl]
      · rw [contWriterFn, minWriter, if_pos rfl]
    rw [this, putFloat_eq d hd]
  rw [hput _ hdl] at a2
  rw [read_present lib h hg' hk h0 hs, if_neg (by omega)]
  have key := ask_reply lib hrd (seen x (slotBytes (write lib (writes lib (newStore sch l) os).1 o.canceled o.row).1.backend x))
  unfold ask at key
  simp only
  have ha1 : (slotBytes (write lib (writes lib (newStore sch l) os).1 o.canceled o.row).1.backend x).length = (compile sch).size.toNat := a1
  have hhi : rd.high.toNat ≤ (compile sch).size.toNat := by
    have : rd.high ≤ ((compile sch).size.toNat : Int) := hin.high
    omega
  rw [key, cell_read_eq lib hin (by rw [seen_length]; exact ha1), slice_seen hread (by rw [ha1]; exact hhi), ← e1, ← e2, a2, h2]
  have hwf : F64.Wf v := numbers_wf hl' f [o.row] v (by rw [hval]; simp)
  have := read_max lib hwf
  rcases hm with rfl | rfl
  · rw [this.1]; rfl
  · rw [this.2]; rfl

/-- an observation of a height in a country -/
def seenHeight (c h : Bytes) : Obs := ⟨⟨0, [⟨asc "country", c⟩, ⟨asc "height", h⟩]⟩, false⟩

theorem height_plain {lib : Lib} {v : Bytes} (hp : lib.parseFloat v ≠ none) : Plain lib Demo.country ⟨asc "height", v⟩ := by
  constructor
  · intro p hd
    rcases country_declares hd with ⟨e, _⟩ | ⟨_, e⟩ | ⟨e, _⟩
    · exact absurd e (by dsimp only; decide)
    · simp at e
    · exact absurd e (by dsimp only; decide)
  · intro m _ _; exact hp

theorem height_all_plain {lib : Lib} {v : Bytes} (hp : lib.parseFloat v ≠ none) (c : Bytes) :
    ∀ fv ∈ (seenHeight c v).row.data, Plain lib Demo.country fv := by
  intro fv hfv
  simp only [seenHeight, List.mem_cons, List.not_mem_nil, or_false] at hfv
  rcases hfv with rfl | rfl
  · exact country_plain lib c
  · exact height_plain hp

theorem height_declares : Declares Demo.country (asc "height") .max := .inr ⟨by simp, _, List.mem_cons_self .., by simp⟩

theorem height_reader : readerAt (compile Demo.country) (asc "height") (asc "max") = some ⟨104, 112, .max⟩ := by decide +kernel

theorem writes_ok (lib : Lib) {st st' : Store} {o : Obs} (hc : o.canceled = false) (hw : (write lib st false o.row).2 = .ret none)
    (hs : (write lib st false o.row).1 = st') (os : List Obs) :
    writes lib st (o :: os) = ((writes lib st' os).1, (o, .ret none) :: (writes lib st' os).2) := by
  rw [writes, ← hs, ← hw, ← hc]

theorem writes_ok_one (lib : Lib) {st st' : Store} {o : Obs} (hc : o.canceled = false) (hw : (write lib st false o.row).2 = .ret none)
    (hs : (write lib st false o.row).1 = st') : writes lib st [o] = (st', [(o, .ret none)]) := by
  rw [writes_ok lib hc hw hs]; rfl

theorem writes_ok_two (lib : Lib) {st st' st'' : Store} {o o' : Obs} (hc : o.canceled = false) (hw : (write lib st false o.row).2 = .ret none)
    (hs : (write lib st false o.row).1 = st') (hc' : o'.canceled = false) (hw' : (write lib st' false o'.row).2 = .ret none)
    (hs' : (write lib st' false o'.row).1 = st'') : writes lib st [o, o'] = (st'', [(o, .ret none), (o', .ret none)]) := by
  rw [writes_ok lib hc hw hs, writes_ok_one lib hc' hw' hs']

/-- **C59 fails** in the program with ISO country codes: Guatemala (GT) and Uzbekistan (UZ) share a home slot. After an observation
of GT, heights 5 and then 3 in UZ, all accepted, max(height) for UZ is 3. -/
theorem C59_gt_uz_refuted (lib : Lib) (hl : ParsesDoubles lib) (h5 : lib.parseFloat (asc "5") = some (F64.ofNat 5))
    (h3 : lib.parseFloat (asc "3") = some (F64.ofNat 3)) :
    (∀ p ∈ (writes lib (newStore Demo.country Demo.slots)
      ([seenHeight (asc "GT") (asc "3"), seenHeight (asc "UZ") (asc "5")] ++ [seenHeight (asc "UZ") (asc "3")])).2, p.2 = .ret none) ∧
    Storage.read lib (writes lib (newStore Demo.country Demo.slots)
      ([seenHeight (asc "GT") (asc "3"), seenHeight (asc "UZ") (asc "5")] ++ [seenHeight (asc "UZ") (asc "3")])).1
      ⟨[⟨asc "height", [asc "max"]⟩], [⟨asc "country", asc "UZ"⟩]⟩ = .ret ([⟨asc "height", asc "max", F64.ofNat 3⟩], none) := by
  obtain ⟨L, D, pos, h, hD⟩ := laid_compile Demo.country country_valid
  have hg0 := good_new (l := Demo.slots) h (by decide)
  have kGT : ∀ v, keyValue (seenHeight (asc "GT") v).row.data Demo.country.keys = some 12582601583169150300 := by
    intro v
    have : keyValue [⟨asc "country", asc "GT"⟩] Demo.country.keys = some 12582601583169150300 := by decide +kernel
    rw [← this]
    apply C28_key
    intro k hk
    have : k = asc "country" := by simpa [Demo.country] using hk
    subst this
    unfold valueOf seenHeight
    rw [List.find?_cons_of_pos (by simp), List.find?_cons_of_pos (by simp)]
  have kUZ : ∀ v, keyValue (seenHeight (asc "UZ") v).row.data Demo.country.keys = some 12582586190006355300 := by
    intro v
    have : keyValue [⟨asc "country", asc "UZ"⟩] Demo.country.keys = some 12582586190006355300 := by decide +kernel
    rw [← this]
    apply C28_key
    intro k hk
    have : k = asc "country" := by simpa [Demo.country] using hk
    subst this
    unfold valueOf seenHeight
    rw [List.find?_cons_of_pos (by simp), List.find?_cons_of_pos (by simp)]
  have kUZ' : keyValue [⟨asc "country", asc "UZ"⟩] Demo.country.keys = some 12582586190006355300 := by decide +kernel
  -- the first observation
  have w1 := write_plain lib h hD hg0 (seenHeight (asc "GT") (asc "3")).row (kGT _) (by decide) (.inr (room_new (by decide) _))
    (height_all_plain (by rw [h3]; simp) _)
  obtain ⟨st1, hst1⟩ : ∃ st1, (write lib (newStore Demo.country Demo.slots) false (seenHeight (asc "GT") (asc "3")).row).1 = st1 := ⟨_, rfl⟩
  have hg1 : Good Demo.country L pos Demo.slots st1 := by rw [← hst1]; exact good_write lib h hg0 _ _
  have hwr1 : writes lib (newStore Demo.country Demo.slots) [seenHeight (asc "GT") (asc "3")] =
      (st1, [(seenHeight (asc "GT") (asc "3"), .ret none)]) := by
    exact writes_ok_one lib rfl w1 hst1
  have sGT : slotOf st1.backend 12582601583169150300 = some 300 := by
    have hs := stored_run lib h (l := Demo.slots) (by decide) (k := 12582601583169150300) (by decide) [seenHeight (asc "GT") (asc "3")]
    rw [hwr1] at hs
    rcases hs with ⟨hr, _⟩ | ⟨_, x, _, hs, _⟩
    · exfalso
      unfold rowsFor at hr
      rw [List.filter_cons, if_pos (by simp only; rw [kGT]; simp [touched])] at hr
      simp at hr
    · have := home_run lib h (l := Demo.slots) (by decide) [seenHeight (asc "GT") (asc "3")] (apart_one _ _ _)
        (k := 12582601583169150300) (by decide) (x := x) (by rw [hwr1]; exact hs)
      rw [hs, this]
      decide
  have only1 : ∀ y, y < Demo.slots → st1.backend.keyAt y ≠ 0 → y = 300 := by
    intro y hy hne
    have hh := home_writes lib h (l := Demo.slots) (fun k => k = 12582601583169150300) (by rintro k k' rfl rfl _; rfl)
      [seenHeight (asc "GT") (asc "3")] hg0 (by
        intro o ho k hk
        simp only [List.mem_singleton] at ho
        subst ho
        rw [kGT] at hk
        exact (Option.some.inj hk).symm) (by intro y hy hne; exact absurd (keys_new (by decide) y hy) hne)
      (by intro y hy hne; exact absurd (keys_new (by decide) y hy) hne)
    rw [hwr1] at hh
    have h1 := hh.1 y hy hne
    rw [hh.2 y hy hne] at h1
    rw [← h1]
    decide
  -- the second
  have w2 := write_plain lib h hD hg1 (seenHeight (asc "UZ") (asc "5")).row (kUZ _) (by decide) (.inr ⟨1, by decide, by
    by_contra hne
    have := only1 _ (Probe.pos_lt (by decide) _ _) hne
    revert this
    decide⟩)
    (height_all_plain (by rw [h5]; simp) _)
  obtain ⟨st2, hst2⟩ : ∃ st2, (write lib st1 false (seenHeight (asc "UZ") (asc "5")).row).1 = st2 := ⟨_, rfl⟩
  have hg2 : Good Demo.country L pos Demo.slots st2 := by rw [← hst2]; exact good_write lib h hg1 _ _
  have hwr2 : writes lib (newStore Demo.country Demo.slots) [seenHeight (asc "GT") (asc "3"), seenHeight (asc "UZ") (asc "5")] =
      (st2, [(seenHeight (asc "GT") (asc "3"), .ret none), (seenHeight (asc "UZ") (asc "5"), .ret none)]) := by
    exact writes_ok_two lib rfl w1 hst1 rfl w2 hst2
  have sUZ : ∃ x, slotOf st2.backend 12582586190006355300 = some x := by
    have hs := stored_run lib h (l := Demo.slots) (by decide) (k := 12582586190006355300) (by decide)
      [seenHeight (asc "GT") (asc "3"), seenHeight (asc "UZ") (asc "5")]
    rw [hwr2] at hs
    rcases hs with ⟨hr, _⟩ | ⟨_, x, _, hs, _⟩
    · exfalso
      unfold rowsFor at hr
      have hm : ((seenHeight (asc "UZ") (asc "5")).row) ∈ ([] : List Row) := by
        rw [← hr]
        exact List.mem_map.2 ⟨(seenHeight (asc "UZ") (asc "5"), .ret none), List.mem_filter.2 ⟨by simp, by
          simp only; rw [kUZ]; simp [touched]⟩, rfl⟩
      simp at hm
    · exact ⟨x, hs⟩
  -- the third
  have w3 := write_plain lib h hD hg2 (seenHeight (asc "UZ") (asc "3")).row (kUZ _) (by decide) (.inl (by
    obtain ⟨x, hx⟩ := sUZ; rw [hx]; simp))
    (height_all_plain (by rw [h3]; simp) _)
  have hwr3 : writes lib st2 [seenHeight (asc "UZ") (asc "3")] =
      ((write lib st2 false (seenHeight (asc "UZ") (asc "3")).row).1, [(seenHeight (asc "UZ") (asc "3"), .ret none)]) := by
    exact writes_ok_one lib rfl w3 rfl
  have happ := writes_append lib [seenHeight (asc "GT") (asc "3"), seenHeight (asc "UZ") (asc "5")] [seenHeight (asc "UZ") (asc "3")]
    (newStore Demo.country Demo.slots)
  constructor
  · intro p hp
    rw [happ.2, hwr2, hwr3] at hp
    simp only [List.cons_append, List.nil_append, List.mem_cons, List.not_mem_nil, or_false] at hp
    rcases hp with rfl | rfl | rfl <;> rfl
  · -- UZ is not in slot 300, which GT holds
    have fixed : ∀ (st : Store) (o : Obs), Good Demo.country L pos Demo.slots st → keyValue o.row.data Demo.country.keys = some 12582586190006355300 →
        slotOf st.backend 12582601583169150300 = some 300 →
        slotOf (write lib st o.canceled o.row).1.backend 12582601583169150300 = some 300 := by
      intro st o hg hk hs
      cases write_cases lib h hg o.canceled o.row with
      | nokey hk e => rw [e]; exact hs
      | refused k hk e he hwhy hw => rw [hw]; exact hs
      | ran k hk' hc h0 x hx hxk hslot init hinit hdata hkeys e he hu hw =>
        rw [hw]
        have : k = 12582586190006355300 := by rw [hk] at hk'; exact (Option.some.inj hk').symm
        subst this
        exact (slotOf_after_other hg.wf (by decide) (by decide) (by decide) hx hxk _ hkeys).1.trans hs
    have f2 : slotOf st2.backend 12582601583169150300 = some 300 := by rw [← hst2]; exact fixed st1 (seenHeight (asc "UZ") (asc "5")) hg1 (kUZ _) sGT
    have f3 := fixed st2 (seenHeight (asc "UZ") (asc "3")) hg2 (kUZ _) f2
    have hg3 := good_write lib h hg2 false (seenHeight (asc "UZ") (asc "3")).row
    have hst3 : (writes lib (newStore Demo.country Demo.slots)
        ([seenHeight (asc "GT") (asc "3"), seenHeight (asc "UZ") (asc "5")] ++ [seenHeight (asc "UZ") (asc "3")])).1 =
        (write lib st2 false (seenHeight (asc "UZ") (asc "3")).row).1 := by rw [happ.1, hwr2, hwr3]
    obtain ⟨x, hx⟩ : ∃ x, slotOf (write lib st2 false (seenHeight (asc "UZ") (asc "3")).row).1.backend 12582586190006355300 = some x := by
      have hs := stored_run lib h (l := Demo.slots) (by decide) (k := 12582586190006355300) (by decide)
        ([seenHeight (asc "GT") (asc "3"), seenHeight (asc "UZ") (asc "5")] ++ [seenHeight (asc "UZ") (asc "3")])
      rw [hst3, happ.2, hwr2, hwr3] at hs
      rcases hs with ⟨hr, _⟩ | ⟨_, x, _, hs, _⟩
      · exfalso
        unfold rowsFor at hr
        rw [List.filter_append, List.map_append, List.append_eq_nil_iff] at hr
        have hr := hr.2
        rw [List.filter_cons] at hr
        simp only at hr
        rw [kUZ, if_pos (by simp [touched])] at hr
        simp at hr
      · exact ⟨x, hs⟩
    obtain ⟨j, hj, hxj⟩ := slot_near hg3 (by decide) hx
    rw [show (BitVec.toNat (12582586190006355300 : U64)) % Demo.slots = 300 by decide] at hxj
    have hd : Demo.slots = 5000 := rfl
    rw [hd, Nat.mod_eq_of_lt (by omega)] at hxj
    have hne : x ≠ 300 := by
      rintro rfl
      have e1 := ((slotOf_eq hg3.wf (by decide)).1 hx).2
      have e2 := ((slotOf_eq hg3.wf (by decide)).1 f3).2
      have := e1.symm.trans e2
      revert this
      decide
    refine C59_displaced_refuted lib hl Demo.country country_valid Demo.slots (by decide)
      [seenHeight (asc "GT") (asc "3"), seenHeight (asc "UZ") (asc "5")] (seenHeight (asc "UZ") (asc "3")) _ _ kUZ' (by decide) (kUZ _)
      ?_ x ?_ ?_ ?_ (asc "height") .max (.inl rfl) height_declares _ height_reader ?_ (F64.ofNat 3) ?_
    · rw [hwr2]; exact w3
    · rw [hst3]; exact hx
    · rw [show (BitVec.toNat (12582586190006355300 : U64)) % Demo.slots = 300 by decide]; exact hne
    · rw [country_size, hd]
      show x * 901 ≤ 5000 * 900
      omega
    · show 112 ≤ x
      omega
    · unfold numbersOf
      have : valuesOf (asc "height") [(seenHeight (asc "UZ") (asc "3")).row] = [asc "3"] := by decide
      rw [this, List.filterMap_cons, h3]
      rfl

/-- instance of the positive theorems: one observation of country "FR" in the program's store is accepted, and its home slot is neither
among the first 900 nor among the last -/
example (lib : Lib) : (∀ p ∈ (writes lib (newStore Demo.country Demo.slots) [seenCountry (asc "FR")]).2, p.2 = .ret none) ∧
    HomesApart Demo.country.keys Demo.slots [seenCountry (asc "FR")] ∧
    (∃ k, keyValue [⟨asc "country", asc "FR"⟩] Demo.country.keys = some k ∧ k ≠ 0 ∧
      rowsWith Demo.country.keys k [seenCountry (asc "FR")] ≠ [] ∧
      (compile Demo.country).size.toNat ≤ k.toNat % Demo.slots ∧
      k.toNat % Demo.slots * ((compile Demo.country).size.toNat + 1) ≤ Demo.slots * (compile Demo.country).size.toNat) := by
  have hk : keyValue [⟨asc "country", asc "FR"⟩] Demo.country.keys = some 12582602682680778473 := by decide +kernel
  have h1 := seen_first lib (asc "FR") _ hk (by decide)
  refine ⟨?_, apart_one _ _ _, _, hk, by decide, ?_, by rw [country_size]; decide, by rw [country_size]; decide⟩
  · rw [h1]; intro p hp
    simp only [List.mem_singleton] at hp
    subst hp; rfl
  · have : rowsWith Demo.country.keys 12582602682680778473 [seenCountry (asc "FR")] = [(seenCountry (asc "FR")).row] := by
      unfold rowsWith
      have hc : keyValue (seenCountry (asc "FR")).row.data Demo.country.keys = some 12582602682680778473 := hk
      rw [List.map_cons, List.filter_cons, if_pos (by rw [hc]; simp)]
      rfl
    rw [this]; simp

end Starbow.Props
