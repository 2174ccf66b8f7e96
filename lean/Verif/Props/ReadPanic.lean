import Verif.Proof.ReadPanic
import Verif.Props.EndToEnd
import Verif.Props.Answer
import Verif.Props.ServerAlone
/-
Property theorems C83: when a query panics.
-/
namespace Starbow.Props
open Starbow.Collation Starbow.Spec Starbow.Storage Starbow.Server

/-! ### where the counters are -/

/-- in the records of the schema the counter of uniquecount(f) starts at byte `a` and has 2^p registers -/
def CounterAt (s : Schema) (f : Bytes) (a p : Int) : Prop :=
  ∃ r, readerAt (compile s) f (asc "uniquecount") = some r ∧ r.low = a ∧ r.m = .cardinality p

/-- the first `x` bytes of a record end within the header of the counter at byte `a` with 2^p registers: after its version byte, precision byte and
the version byte of its registers, and before the first non-zero byte of the number of registers, 2^p in eight bytes, the lowest first -/
def Cuts (x : Nat) (a p : Int) : Prop := a + 3 ≤ (x : Int) ∧ (x : Int) ≤ a + 4 + p / 8

theorem together_panic (one : Bytes × Bytes → Out (List FMV × Option Err)) (ps : List (Bytes × Bytes)) : ∀ res0,
    together one ps res0 = .panic → ∃ p ∈ ps, one p = .panic := by
  induction ps with
  | nil => intro res0 h; rw [together] at h; simp at h
  | cons p ps ih =>
    intro res0 h
    rw [together] at h
    rcases ho : one p with ⟨r, e | e⟩ | _ <;> rw [ho] at h
    · obtain ⟨p', hp', h'⟩ := ih _ h
      exact ⟨p', by simp [hp'], h'⟩
    · simp at h
    · exact ⟨p, by simp, ho⟩

theorem reply_panic {f n : Bytes} {o : Out (Except Err F64)} : reply f n o = .panic ↔ o = .panic := by
  rcases o with (e | v) | _ <;> simp [reply]

theorem card_name {s : Schema} {f n : Bytes} {r : Cell} (hv : ValidSchema s) (hr : readerAt (compile s) f n = some r) {p : Int}
    (hm : r.m = .cardinality p) : n = asc "uniquecount" := by
  obtain ⟨L, D, pos, h, hD⟩ := laid_compile s hv
  obtain ⟨h1, _⟩ := h.reader f n r hr
  rw [← h1, hm]; rfl

/-- reading a record in order -/
theorem read_panic (lib : Lib) {s : Schema} (hv : ValidSchema s) {L : List (Owner × Cell)} {D : List (Bytes × Measure)} {pos : Int}
    (h : Laid ⟨compile s, pos⟩ L D) {F : List Bytes} {buf : Bytes} (hb : Hold ⟨compile s, pos⟩ L F buf) (x : Nat) (fml : List FM)
    (hp : Collation.read lib (compile s) fml (seen x buf) = .panic) :
    ∃ f a p, (f, asc "uniquecount") ∈ pairs fml ∧ CounterAt s f a p ∧ Cuts x a p := by
  rw [C27_read] at hp
  obtain ⟨⟨f, n⟩, hm, ho⟩ := together_panic _ _ _ hp
  simp only at ho
  cases hr : readerAt (compile s) f n with
  | none => rw [ask_none lib hr] at ho; simp at ho
  | some r =>
    rw [ask_reply lib hr, reply_panic] at ho
    obtain ⟨p, h1, h2, h3, _⟩ := (cell_panic lib h hb x hr).1 ho
    have := card_name hv hr h1
    subst this
    exact ⟨f, r.low, p, hm, ⟨r, hr, rfl, h1⟩, h2, h3⟩

/-- **C83**, when a query can panic. After any writes to a fresh store of `l` slots, if a query for a key value with key `k` panics, there is a record
for the key, in slot `x` say, and either x is one of the last slots, x*(s+1) > l*s for records of `s` bytes, or the query asks for the uniquecount of
a field whose counter is cut within its header by the first `x` bytes of the record. In particular a query never panics for a key without a record, and
never because of any other measure. -/
theorem C83_when (lib : Lib) (sch : Schema) (hv : ValidSchema sch) (l : Nat) (hl : 0 < l) (os : List Obs) (q : Query) (k : U64)
    (hk : keyValue q.criteria sch.keys = some k) (h0 : k ≠ 0)
    (hp : Storage.read lib (writes lib (newStore sch l) os).1 q = .panic) :
    ∃ x, x < l ∧ slotOf (writes lib (newStore sch l) os).1.backend k = some x ∧
      (l * (compile sch).size.toNat < x * ((compile sch).size.toNat + 1) ∨
        ∃ f a p, (f, asc "uniquecount") ∈ pairs q.fieldMeasures ∧ CounterAt sch f a p ∧ Cuts x a p) := by
  obtain ⟨L, D, pos, h, hD⟩ := laid_compile sch hv
  have hg := good_writes (l := l) lib h os (good_new h hl)
  rcases stored_run lib h hl h0 os with ⟨hr, hs⟩ | ⟨hr, x, hx, hs, hb⟩
  · rw [read_absent lib h hg hk hs] at hp; simp at hp
  · refine ⟨x, hx, hs, ?_⟩
    rw [read_present lib h hg hk h0 hs] at hp
    split at hp
    · next hc => exact .inl hc
    · right
      refine read_panic lib hv h (hg.hold x hx) x _ ?_
      unfold answer at hp
      rcases hc : Collation.read lib (compile sch) q.fieldMeasures (seen x (slotBytes (writes lib (newStore sch l) os).1.backend x)) with r | _
      · rw [hc] at hp; simp at hp
      · rfl

/-- a query without a usable key never panics -/
theorem C83_nokey (lib : Lib) (sch : Schema) (hv : ValidSchema sch) (l : Nat) (hl : 0 < l) (os : List Obs) (q : Query)
    (hk : keyValue q.criteria sch.keys = none) : Storage.read lib (writes lib (newStore sch l) os).1 q ≠ .panic := by
  obtain ⟨L, D, pos, h, hD⟩ := laid_compile sch hv
  rw [read_nokey lib (good_writes (l := l) lib h os (good_new h hl)) hk]
  simp

/-- a counter is only cut in slots with a number below the record size -/
theorem cuts_small {s : Schema} (hv : ValidSchema s) {f : Bytes} {a p : Int} (hc : CounterAt s f a p) {x : Nat} (hx : Cuts x a p) :
    (x : Int) < (compile s).size := by
  obtain ⟨L, D, pos, h, hD⟩ := laid_compile s hv
  obtain ⟨r, hr, rfl, hm⟩ := hc
  obtain ⟨_, _, o, w, hw, e1, e2, _, hcm⟩ := h.reader _ _ r hr
  obtain ⟨c1, c2, c3, c4, c5⟩ := h.cell o w hw
  have hwm : w.m = .cardinality p := by
    rcases hcm with hcm | ⟨_, _, h3, _⟩
    · rw [hcm, hm]
    · rw [hm] at h3; simp [Measure.stat] at h3
  have h418 : 4 ≤ p ∧ p ≤ 18 := by
    rw [hwm] at c5
    cases o with
    | row => simp [Owner.takes] at c5
    | cont g => simp [Owner.takes, Measure.continuousInput] at c5
    | disc g =>
      obtain ⟨q, hq, h4, h18⟩ := c5
      injection hq with hq
      subst hq
      exact ⟨h4, h18⟩
  have hsz : 12 ≤ w.m.size := by
    rw [hwm]
    obtain ⟨h4, h18⟩ := h418
    interval_cases p <;> decide +kernel
  obtain ⟨hx1, hx2⟩ := hx
  have : (compile s).size = pos := h.size
  have c4 : w.high ≤ pos := c4
  omega

/-- **C83**, partial: if no two of the key values observed share a home slot, the home slot of the key asked for is none of the last, and every
counter asked for starts late enough or early enough in the record not to be cut, the query does not panic; this covers all queries that ask for no
uniquecount, and all home slots with a number of at least the record size. Missing: the other slots, where it panics (`C83_panics`,
`C48_panic_refuted`). -/
theorem C83_partial (lib : Lib) (sch : Schema) (hv : ValidSchema sch) (l : Nat) (hl : 0 < l) (os : List Obs) (happ : HomesApart sch.keys l os)
    (q : Query) (k : U64) (hk : keyValue q.criteria sch.keys = some k) (h0 : k ≠ 0)
    (hhigh : k.toNat % l * ((compile sch).size.toNat + 1) ≤ l * (compile sch).size.toNat)
    (hok : (∀ f, (f, asc "uniquecount") ∉ pairs q.fieldMeasures) ∨ (compile sch).size ≤ ((k.toNat % l : Nat) : Int) ∨
      ∀ f a p, (f, asc "uniquecount") ∈ pairs q.fieldMeasures → CounterAt sch f a p → ¬ Cuts (k.toNat % l) a p) :
    Storage.read lib (writes lib (newStore sch l) os).1 q ≠ .panic := by
  intro hp
  obtain ⟨x, hx, hs, hwhy⟩ := C83_when lib sch hv l hl os q k hk h0 hp
  obtain ⟨L, D, pos, h, hD⟩ := laid_compile sch hv
  have hxk := home_run lib h hl os happ h0 hs
  subst hxk
  rcases hwhy with hc | ⟨f, a, p, h1, h2, h3⟩
  · omega
  · rcases hok with hok | hok | hok
    · exact hok f h1
    · have := cuts_small hv h2 h3
      omega
    · exact hok f a p h1 h2 h3

/-! ### it does panic -/

/-- the record of a key in its home slot has all counters that the first row gave a value to -/
theorem recordIn_hold (lib : Lib) {s : Schema} {L : List (Owner × Cell)} {D : List (Bytes × Measure)} {pos : Int}
    (h : Laid ⟨compile s, pos⟩ L D) (home : Bool) (r : Row) (hr : (update lib (compile s) r (blank (compile s)) true).2 = .val none) (rs : List Row) :
    Hold ⟨compile s, pos⟩ L (r.data.map FV.f) (recordIn lib (compile s) home (r :: rs)) := by
  have h1 : Hold ⟨compile s, pos⟩ L (r.data.map FV.f) (update lib (compile s) r (blank (compile s)) true).1 :=
    hold_first lib h r (by rw [← hr])
  have hserve : ∀ (rs : List Row) (buf : Bytes) (init : Bool), Hold ⟨compile s, pos⟩ L (r.data.map FV.f) buf →
      Hold ⟨compile s, pos⟩ L (r.data.map FV.f) (serve lib (compile s) buf init rs).1 := by
    intro rs
    induction rs with
    | nil => intro buf init hb; exact hb
    | cons r' rs ih =>
      intro buf init hb
      rw [Spec.serve]
      obtain ⟨b', e, k1, _, k3⟩ := hold_row lib h hb init r'
      have k1 : update lib (compile s) r' buf init = (b', .val e) := k1
      simp only
      rw [k1]
      exact ih _ _ k3
  have hnew : ∀ (rs : List Row) (buf : Bytes), Hold ⟨compile s, pos⟩ L (r.data.map FV.f) buf →
      Hold ⟨compile s, pos⟩ L (r.data.map FV.f) (serveNew lib (compile s) buf rs) := by
    intro rs
    induction rs with
    | nil => intro buf hb; exact hb
    | cons r' rs ih =>
      intro buf hb
      obtain ⟨b', e, k1, _, k3⟩ := hold_row lib h hb true r'
      have k1 : update lib (compile s) r' buf true = (b', .val e) := k1
      unfold serveNew
      rw [List.foldl_cons, k1]
      exact ih _ k3
  unfold recordIn
  cases home with
  | true =>
    rw [if_pos rfl, Spec.serve]
    exact hserve rs _ _ h1
  | false =>
    rw [if_neg (by simp)]
    unfold serveNew
    rw [List.foldl_cons]
    exact hnew rs _ h1

theorem hold_counter {s : Schema} {L : List (Owner × Cell)} {D : List (Bytes × Measure)} {pos : Int}
    (h : Laid ⟨compile s, pos⟩ L D) {F : List Bytes} {buf : Bytes} (hb : Hold ⟨compile s, pos⟩ L F buf) {f : Bytes} (hf : f ∈ F) {r : Cell}
    (hr : readerAt (compile s) f (asc "uniquecount") = some r) {p : Int} (hm : r.m = .cardinality p) : buf.getD r.low.toNat 0 ≠ 0 := by
  obtain ⟨_, _, o, w, hw, e1, e2, hser, hcm⟩ := h.reader _ _ r hr
  obtain ⟨c1, c2, c3, c4, c5⟩ := h.cell o w hw
  have hwm : w.m = .cardinality p := by
    rcases hcm with hcm | ⟨_, _, h3, _⟩
    · rw [hcm, hm]
    · rw [hm] at h3; simp [Measure.stat] at h3
  have ho : o = .disc f := by
    rw [hwm] at c5
    cases o with
    | row => simp [Owner.takes] at c5
    | cont g => simp [Owner.takes, Measure.continuousInput] at c5
    | disc g => exact congrArg Owner.disc (show f = g from hser).symm
  subst ho
  have hbyte : buf.getD r.low.toNat 0 = (slice buf w.low.toNat w.high.toNat).getD 0 0 := by
    rw [← e1, List.getD_eq_getElem?_getD, List.getD_eq_getElem?_getD, slice_getElem?, if_pos (by omega), Nat.add_zero]
  rw [hbyte]
  rcases hb.ok _ w hw f p rfl hwm with ⟨hn, _⟩ | ⟨c, hwf, hcp, he⟩
  · exact absurd hf hn
  · rw [he, enc_eq]; simp

/-- `select uniquecount(f) where …` with the criteria `crit` -/
def uniqueQuery (f : Bytes) (crit : List FV) : Query := ⟨[⟨f, [asc "uniquecount"]⟩], crit⟩

/-- **C83 fails** whenever the record of the key lies in a slot that cuts the counter: if the first observation recorded for the key had a value for
the field and was recorded without an error, the query for its uniquecount panics, whatever was recorded later. -/
theorem C83_panics (lib : Lib) (sch : Schema) (hv : ValidSchema sch) (l : Nat) (hl : 0 < l) (os : List Obs)
    (crit : List FV) (k : U64) (hk : keyValue crit sch.keys = some k) (h0 : k ≠ 0) (r : Row) (rs : List Row)
    (hrows : rowsFor sch.keys k (writes lib (newStore sch l) os).2 = r :: rs)
    (hr : (update lib (compile sch) r (blank (compile sch)) true).2 = .val none)
    (f : Bytes) (hf : f ∈ r.data.map FV.f) (a p : Int) (hc : CounterAt sch f a p)
    (x : Nat) (hs : slotOf (writes lib (newStore sch l) os).1.backend k = some x) (hx : Cuts x a p) :
    Storage.read lib (writes lib (newStore sch l) os).1 (uniqueQuery f crit) = .panic := by
  obtain ⟨L, D, pos, h, hD⟩ := laid_compile sch hv
  have hg := good_writes (l := l) lib h os (good_new h hl)
  rcases stored_run lib h hl h0 os with ⟨hr', _⟩ | ⟨_, x', hx', hs', hb⟩
  · rw [hrows] at hr'; simp at hr'
  · rw [hs] at hs'
    have := Option.some.inj hs'
    subst this
    rw [read_present lib h hg (q := uniqueQuery f crit) hk h0 hs, hb]
    split
    · rfl
    · obtain ⟨c, hrd, hlow, hm⟩ := hc
      rw [hrows]
      have hh := recordIn_hold lib h (decide (x = k.toNat % l)) r hr rs
      have hpan := (cell_panic lib h hh x hrd).2 ⟨p, hm, by rw [hlow]; exact hx.1, by rw [hlow]; exact hx.2, hold_counter h hh hf hrd hm⟩
      have key := ask_reply lib hrd (seen x (recordIn lib (compile sch) (decide (x = k.toNat % l)) (r :: rs)))
      have e3 : Collation.read lib (compile sch) (uniqueQuery f crit).fieldMeasures =
        fun buf => ask lib (compile sch) buf f (asc "uniquecount") := rfl
      rw [e3]
      simp only
      rw [key, hpan]
      rfl

/-! ### the first observation of a store -/

/-- the first observation of a store is accepted if its key is not 0 and every value a number is wanted for is one -/
theorem write_first (lib : Lib) {sch : Schema} (hv : ValidSchema sch) {l : Nat} (hl : 0 < l) (r : Row) {k : U64}
    (hk : keyValue r.data sch.keys = some k) (h0 : k ≠ 0)
    (hp : ∀ fv ∈ r.data, ∀ m, Declares sch fv.f m → m.continuousInput = true → lib.parseFloat fv.v ≠ none) :
    (write lib (newStore sch l) false r).2 = .ret none ∧ (update lib (compile sch) r (blank (compile sch)) true).2 = .val none := by
  obtain ⟨L, D, pos, h, hD⟩ := laid_compile sch hv
  have hg := good_new (l := l) h hl
  have hus : ∀ fv ∈ r.data, Usable lib L [] true fv := by
    intro fv hfv
    refine ⟨?_, fun _ => .inl rfl⟩
    rintro ⟨w, hwm⟩
    obtain ⟨g, hs, hmem⟩ := h.owned _ w hwm
    have hs : g = fv.f := hs
    subst hs
    have ht : w.m.continuousInput = true := (h.cell _ w hwm).2.2.2.2
    rw [Option.isSome_iff_ne_none]
    exact hp fv hfv w.m ((hD _ _).1 hmem) ht
  have hupd : (update lib (compile sch) r (blank (compile sch)) true).2 = .val none := by
    obtain ⟨b', e', h1, h2, _⟩ := hold_row lib h (hold_blank h) true r
    have h1 : Collation.update lib (compile sch) r (blank (compile sch)) true = (b', .val e') := h1
    rw [h1, h2 hus]
  refine ⟨?_, hupd⟩
  have hnone : Spec.slotOf (newStore sch l).backend k = none := by
    rcases stored_new (sch := sch) lib hl k h0 with ⟨_, hn⟩ | ⟨hne, _⟩
    · exact hn
    · exact absurd rfl hne
  cases write_cases lib h hg false r with
  | nokey hk' e => rw [hk] at hk'; simp at hk'
  | refused k' hk' e he hwhy hw =>
    exfalso
    have : k = k' := by rw [hk] at hk'; exact Option.some.inj hk'
    subst this
    rcases hwhy with ⟨hc, _⟩ | ⟨_, hz, _⟩ | ⟨_, _, _, hn, hfull⟩
    · simp at hc
    · exact h0 hz
    · obtain ⟨j, hj, hr⟩ := room_new (sch := sch) hl k
      exact hfull j hj hr
  | ran k' hk' hc h0' x hx hxk hslot init hinit hdata hkeys e he hu hw =>
    have : k = k' := by rw [hk] at hk'; exact Option.some.inj hk'
    subst this
    have hi : init = true := by rw [hinit, hnone]; simp
    subst hi
    rw [hw]
    obtain ⟨b', e', h1, h2, _⟩ := hold_row lib h (hg.hold x hx) true r
    have h1 : Collation.update lib (compile sch) r (slotBytes (newStore sch l).backend x) true = (b', .val e') := h1
    rw [h1] at hu
    simp only [Prod.mk.injEq, Out.val.injEq, true_and] at hu
    rw [← hu, h2 hus]

/-- a store without the key fields ignores the observation -/
theorem write_skipped (lib : Lib) (sch : Schema) (l : Nat) (r : Row) (hk : keyValue r.data sch.keys = none) :
    write lib (newStore sch l) false r = (newStore sch l, .ret none) := by
  unfold write
  rw [show (newStore sch l).coll.keys = sch.keys from compile_keys sch, hk]

/-- posting the first line -/
theorem post_first (env : Env) (line : Bytes) (hline : LineOk line) (r : Row) (hp : parseRow (noCR line) = .val (.ok r))
    (hok : ∀ st ∈ Demo.stores, (write env.lib st false r).2 = .ret none) :
    Server.serve env Demo.stores (post (line ++ [0x0a])) =
      ([(writes env.lib (newStore Demo.country Demo.slots) [⟨r, false⟩]).1, (writes env.lib (newStore Demo.tz Demo.slots) [⟨r, false⟩]).1], .ok []) := by
  rw [C43_line env Demo.stores line hline r hp hok,
    show Demo.stores = [newStore Demo.country Demo.slots, newStore Demo.tz Demo.slots] from rfl]
  rfl

theorem rowsFor_first (lib : Lib) {sch : Schema} {l : Nat} {r : Row} {k : U64} (hk : keyValue r.data sch.keys = some k)
    (hw : (write lib (newStore sch l) false r).2 = .ret none) :
    rowsFor sch.keys k (writes lib (newStore sch l) [⟨r, false⟩]).2 = [r] := by
  rw [writes, writes]
  simp only
  rw [hw]
  unfold rowsFor
  rw [List.filter_cons, if_pos (by simp only; rw [hk]; simp [touched])]
  rfl

/-- where the counters of the program's collations start -/
theorem demo_counters : CounterAt Demo.country (asc "iata") 120 10 ∧ CounterAt Demo.tz (asc "country") 8 8 ∧
    CounterAt Demo.tz (asc "height") 212 8 := by
  refine ⟨⟨⟨120, 900, .cardinality 10⟩, by decide +kernel, rfl, rfl⟩, ⟨⟨8, 212, .cardinality 8⟩, by decide +kernel, rfl, rfl⟩,
    ⟨⟨212, 416, .cardinality 8⟩, by decide +kernel, rfl, rfl⟩⟩

/-- the first observation's record is in its home slot -/
theorem slot_first (lib : Lib) {sch : Schema} (hv : ValidSchema sch) {l : Nat} (hl : 0 < l) {r : Row} {k : U64}
    (hk : keyValue r.data sch.keys = some k) (h0 : k ≠ 0) (hw : (write lib (newStore sch l) false r).2 = .ret none) :
    Spec.slotOf (writes lib (newStore sch l) [⟨r, false⟩]).1.backend k = some (k.toNat % l) := by
  obtain ⟨L, D, pos, h, hD⟩ := laid_compile sch hv
  rcases stored_run lib h hl h0 [⟨r, false⟩] with ⟨hr, _⟩ | ⟨_, x, hx, hs, _⟩
  · rw [rowsFor_first lib hk hw] at hr; simp at hr
  · rw [hs, home_run lib h hl [⟨r, false⟩] (apart_one _ _ _) h0 hs]

/-! ### the program -/

theorem parse_id (ord : List FM → List FM) {text : Bytes} {q : Query} (h : Query.roughParse id text = .ok q) :
    Query.roughParse ord text = .ok ⟨ord q.fieldMeasures, q.criteria⟩ := by
  unfold Query.roughParse at h ⊢
  split at h
  · rename_i sel wh hs
    rcases hc : Query.collect (Query.findAll Query.selectRe sel) [] with _ | fields <;> rw [hc] at h
    · simp at h
    · simp only at h ⊢
      rcases hw : Query.criteria (Query.findAll Query.whereRe wh) with _ | crit <;> rw [hw] at h
      · simp at h
      · simp only [Except.ok.injEq] at h ⊢
        subst h
        rfl
  · simp at h

theorem ord_one {ord : List FM → List FM} (hord : ∀ l, (ord l).Perm l) (x : FM) : ord [x] = [x] := List.perm_singleton.1 (hord [x])

/-- the observation of the program's sample data -/
def polandRow : Row := ⟨0, [⟨asc "country", asc "Poland"⟩, ⟨asc "iata", asc "WAW"⟩]⟩

theorem poland_key : keyValue polandRow.data Demo.country.keys = some 150797932587210125 ∧
    keyValue polandRow.data Demo.tz.keys = none := by decide +kernel

theorem poland_write (lib : Lib) : (write lib (newStore Demo.country Demo.slots) false polandRow).2 = .ret none ∧
    (update lib (compile Demo.country) polandRow (blank (compile Demo.country)) true).2 = .val none :=
  write_first lib country_valid (by decide) polandRow poland_key.1 (by decide) (by
    intro fv hfv m hd hm
    exfalso
    simp only [polandRow, List.mem_cons, List.not_mem_nil, or_false] at hfv
    rcases hfv with rfl | rfl
    · rcases country_declares hd with ⟨e, _⟩ | ⟨e, _⟩ | ⟨e, _⟩ <;> exact absurd e (by dsimp only; decide)
    · rcases country_declares hd with ⟨e, _⟩ | ⟨e, _⟩ | ⟨_, e⟩
      · exact absurd e (by dsimp only; decide)
      · exact absurd e (by dsimp only; decide)
      · subst e; simp [Measure.continuousInput] at hm)

theorem poland_post (env : Env) : Server.serve env Demo.stores (post (asc "0;country=Poland;iata=WAW\n")) =
    ([(writes env.lib (newStore Demo.country Demo.slots) [⟨polandRow, false⟩]).1,
      (writes env.lib (newStore Demo.tz Demo.slots) [⟨polandRow, false⟩]).1], .ok []) := by
  have hserve := post_first env (asc "0;country=Poland;iata=WAW") ⟨by decide +kernel, by decide +kernel⟩ polandRow (by decide +kernel) (by
    intro st hst
    rw [show Demo.stores = [newStore Demo.country Demo.slots, newStore Demo.tz Demo.slots] from rfl] at hst
    simp only [List.mem_cons, List.not_mem_nil, or_false] at hst
    rcases hst with rfl | rfl
    · exact (poland_write env.lib).1
    · rw [write_skipped env.lib Demo.tz Demo.slots polandRow poland_key.2])
  rw [show asc "0;country=Poland;iata=WAW\n" = asc "0;country=Poland;iata=WAW" ++ [0x0a] by decide +kernel, hserve]

theorem poland_query (ord : List FM → List FM) (hord : ∀ l, (ord l).Perm l) :
    Query.roughParse ord (asc "select uniquecount(iata) where country='Poland'") =
      .ok (uniqueQuery (asc "iata") [⟨asc "country", asc "Poland"⟩]) := by
  rw [parse_id ord (show Query.roughParse id (asc "select uniquecount(iata) where country='Poland'") =
    .ok (uniqueQuery (asc "iata") [⟨asc "country", asc "Poland"⟩]) by decide +kernel)]
  unfold uniqueQuery
  simp only
  rw [ord_one hord]

/-- **C83 fails** in the program, over HTTP: post `0;country=Poland;iata=WAW` (Poland is in the demo data), answered with 200; then ask for
`select uniquecount(iata) where country='Poland'`: the query panics. -/
theorem C83_poland_refuted (env : Env) (hord : ∀ l, (env.ord l).Perm l) :
    (Server.serve env Demo.stores (post (asc "0;country=Poland;iata=WAW\n"))).2 = .ok [] ∧
    (Server.serve env (Server.serve env Demo.stores (post (asc "0;country=Poland;iata=WAW\n"))).1
      (askFor (asc "country") (asc "select uniquecount(iata) where country='Poland'"))).2 = .panic := by
  rw [poland_post env]
  refine ⟨rfl, ?_⟩
  have hq := poland_query env.ord hord
  have hask := ask_serve env [] [(writes env.lib (newStore Demo.tz Demo.slots) [⟨polandRow, false⟩]).1]
    (writes env.lib (newStore Demo.country Demo.slots) [⟨polandRow, false⟩]).1 (asc "country") _ country_name (by simp)
    (by rw [writes_coll]; exact compile_name Demo.country) _ hq
  rw [List.nil_append] at hask
  rw [hask, country_answers]
  rw [C83_panics env.lib Demo.country country_valid Demo.slots (by decide) [⟨polandRow, false⟩] [⟨asc "country", asc "Poland"⟩]
    150797932587210125 (by decide +kernel) (by decide) polandRow [] (rowsFor_first env.lib poland_key.1 (poland_write env.lib).1)
    (poland_write env.lib).2 (asc "iata") (by decide +kernel) 120 10 demo_counters.1 125
    (slot_first env.lib country_valid (by decide) poland_key.1 (by decide) (poland_write env.lib).1) ⟨by decide, by decide⟩]

/-- instance of `C83_when`: the query of Poland does panic, and the slot is 125, within the header of the counter of iata at byte 120 -/
example (lib : Lib) : ∃ x, x < Demo.slots ∧
    slotOf (writes lib (newStore Demo.country Demo.slots) [⟨polandRow, false⟩]).1.backend 150797932587210125 = some x ∧
    (Demo.slots * (compile Demo.country).size.toNat < x * ((compile Demo.country).size.toNat + 1) ∨
      ∃ f a p, (f, asc "uniquecount") ∈ pairs (uniqueQuery (asc "iata") [⟨asc "country", asc "Poland"⟩]).fieldMeasures ∧
        CounterAt Demo.country f a p ∧ Cuts x a p) :=
  C83_when lib Demo.country country_valid Demo.slots (by decide) [⟨polandRow, false⟩] _ _ (by decide +kernel) (by decide)
    (C83_panics lib Demo.country country_valid Demo.slots (by decide) [⟨polandRow, false⟩] [⟨asc "country", asc "Poland"⟩]
      150797932587210125 (by decide +kernel) (by decide) polandRow [] (rowsFor_first lib poland_key.1 (poland_write lib).1)
      (poland_write lib).2 (asc "iata") (by decide +kernel) 120 10 demo_counters.1 125
      (slot_first lib country_valid (by decide) poland_key.1 (by decide) (poland_write lib).1) ⟨by decide, by decide⟩)

/-- instance of `C83_partial`: the uniquecount of the airports of FR, whose home slot is 3473, does not panic; nor does the count of Poland -/
example (lib : Lib) (os : List Obs) (happ : HomesApart Demo.country.keys Demo.slots os) :
    Storage.read lib (writes lib (newStore Demo.country Demo.slots) os).1 (uniqueQuery (asc "iata") [⟨asc "country", asc "FR"⟩]) ≠ .panic ∧
    Storage.read lib (writes lib (newStore Demo.country Demo.slots) os).1 (countQuery [⟨asc "country", asc "Poland"⟩]) ≠ .panic :=
  ⟨C83_partial lib Demo.country country_valid Demo.slots (by decide) os happ _ 12582602682680778473 (by decide +kernel) (by decide)
      (by rw [country_size]; decide) (.inr (.inl (by rw [country_size]; decide))),
    C83_partial lib Demo.country country_valid Demo.slots (by decide) os happ _ 150797932587210125 (by decide +kernel) (by decide)
      (by rw [country_size]; decide) (.inl (by
        intro f hf
        simp only [countQuery, pairs, List.flatMap_cons, List.flatMap_nil, List.append_nil, List.map_cons, List.map_nil, List.mem_singleton,
          Prod.mk.injEq] at hf
        exact absurd hf.2 (by decide +kernel)))⟩

/-! ### the order of the fields decides how a query fails -/

/-- an observation of a time zone and a country -/
def gshRow : Row := ⟨0, [⟨asc "tz", asc "GSH"⟩, ⟨asc "country", asc "FR"⟩]⟩

theorem gsh_key : keyValue gshRow.data Demo.country.keys = some 12582602682680778473 ∧
    keyValue gshRow.data Demo.tz.keys = some 8114898467423680011 := by decide +kernel

theorem gsh_valid : ValidSchema Demo.tz := by
  intro f ms p h1 h2
  simp only [Demo.tz, List.mem_cons, Prod.mk.injEq, List.not_mem_nil, or_false] at h1
  rcases h1 with ⟨rfl, rfl⟩ | ⟨rfl, rfl⟩ <;> simp at h2 <;> omega

theorem gsh_country (lib : Lib) : (write lib (newStore Demo.country Demo.slots) false gshRow).2 = .ret none :=
  (write_first lib country_valid (by decide) gshRow gsh_key.1 (by decide) (by
    intro fv hfv m hd hm
    exfalso
    simp only [gshRow, List.mem_cons, List.not_mem_nil, or_false] at hfv
    rcases hfv with rfl | rfl <;>
      rcases country_declares hd with ⟨e, _⟩ | ⟨e, _⟩ | ⟨e, _⟩ <;> exact absurd e (by dsimp only; decide))).1

theorem gsh_tz (lib : Lib) : (write lib (newStore Demo.tz Demo.slots) false gshRow).2 = .ret none ∧
    (update lib (compile Demo.tz) gshRow (blank (compile Demo.tz)) true).2 = .val none :=
  write_first lib gsh_valid (by decide) gshRow gsh_key.2 (by decide) (by
    intro fv hfv m hd hm
    exfalso
    rcases tz_declares hd with ⟨_, e⟩ | ⟨_, e⟩ <;> subst e <;> simp [Measure.continuousInput] at hm)

/-- a counter of which no byte is read -/
theorem blank_counter (lib : Lib) {f : Bytes} {r : Cell} {s : Schema} (hr : readerAt (compile s) f (asc "uniquecount") = some r) {p : Int}
    (hm : r.m = .cardinality p) (hlow : 0 ≤ r.low) (hlh : r.low < r.high) (buf : Bytes) (hh : r.high ≤ buf.length) (x : Nat) (hx : (x : Int) ≤ r.low) :
    ask lib (compile s) (seen x buf) f (asc "uniquecount") = .val ([], some .incompatibleVersion) := by
  rw [ask_reply lib hr]
  have : r.read lib (seen x buf) = .val (.error .incompatibleVersion) := by
    unfold Cell.read
    rw [Storage.seen_length, if_neg (by omega), Collation.seen_slice _ _ _ _ (by omega) (by omega), Nat.sub_eq_zero_of_le (by omega), seen_zero,
      slice_length _ _ _ (by omega), hm]
    obtain ⟨m, hm⟩ : ∃ m, r.high.toNat - r.low.toNat = m + 1 := ⟨r.high.toNat - r.low.toNat - 1, by omega⟩
    rw [hm, List.replicate_succ]
    unfold readerFn Hll.withBytes
    simp only
    rw [if_neg (by simp), if_pos (by simp [Hll.version])]
    rfl
  rw [this]
  rfl

/-- two uniquecounts asked together -/
def bothQuery (f g : Bytes) (crit : List FV) : Query := ⟨[⟨f, [asc "uniquecount"]⟩, ⟨g, [asc "uniquecount"]⟩], crit⟩

theorem gsh_reads (lib : Lib) :
    Storage.read lib (writes lib (newStore Demo.tz Demo.slots) [⟨gshRow, false⟩]).1
      (bothQuery (asc "country") (asc "height") [⟨asc "tz", asc "GSH"⟩]) = .panic ∧
    Storage.read lib (writes lib (newStore Demo.tz Demo.slots) [⟨gshRow, false⟩]).1
      (bothQuery (asc "height") (asc "country") [⟨asc "tz", asc "GSH"⟩]) = .ret ([], some .incompatibleVersion) := by
  obtain ⟨L, D, pos, h, hD⟩ := laid_compile Demo.tz gsh_valid
  have hg := good_writes (l := Demo.slots) lib h [⟨gshRow, false⟩] (good_new h (by decide))
  have hs := slot_first lib gsh_valid (l := Demo.slots) (by decide) gsh_key.2 (by decide) (gsh_tz lib).1
  have hsize : (compile Demo.tz).size = 416 := demo_record_sizes.2
  have hx : (8114898467423680011 : U64).toNat % Demo.slots = 11 := by decide
  rw [hx] at hs
  have hk : keyValue [⟨asc "tz", asc "GSH"⟩] Demo.tz.keys = some 8114898467423680011 := by decide +kernel
  have hn : ¬ (11 * ((compile Demo.tz).size.toNat + 1) > Demo.slots * (compile Demo.tz).size.toNat) := by
    rw [hsize]; decide
  have hsingle := C83_panics lib Demo.tz gsh_valid Demo.slots (by decide) [⟨gshRow, false⟩] [⟨asc "tz", asc "GSH"⟩]
    8114898467423680011 hk (by decide) gshRow [] (rowsFor_first lib gsh_key.2 (gsh_tz lib).1)
    (gsh_tz lib).2 (asc "country") (by decide +kernel) 8 8 demo_counters.2.1 11 hs ⟨by decide, by decide⟩
  rw [read_present lib h hg (q := uniqueQuery _ _) hk (by decide) hs, if_neg hn] at hsingle
  rw [read_present lib h hg (q := bothQuery _ _ _) hk (by decide) hs, if_neg hn, read_present lib h hg (q := bothQuery _ _ _) hk (by decide) hs, if_neg hn]
  have hlen : (slotBytes (writes lib (newStore Demo.tz Demo.slots) [⟨gshRow, false⟩]).1.backend 11).length = 416 := by
    have := (hg.hold 11 (by decide)).len
    rw [this]
    show (compile Demo.tz).size.toNat = 416
    rw [hsize]; rfl
  obtain ⟨buf, hbuf⟩ : ∃ buf, slotBytes (writes lib (newStore Demo.tz Demo.slots) [⟨gshRow, false⟩]).1.backend 11 = buf := ⟨_, rfl⟩
  rw [hbuf] at hsingle hlen ⊢
  have e1 : ask lib (compile Demo.tz) (seen 11 buf) (asc "country") (asc "uniquecount") = .panic := by
    have e3 : Collation.read lib (compile Demo.tz) (uniqueQuery (asc "country") [⟨asc "tz", asc "GSH"⟩]).fieldMeasures =
        fun buf => ask lib (compile Demo.tz) buf (asc "country") (asc "uniquecount") := rfl
    rw [e3] at hsingle
    simp only at hsingle
    rcases hc : ask lib (compile Demo.tz) (seen 11 buf) (asc "country") (asc "uniquecount") with v | _
    · rw [hc] at hsingle; simp [answer] at hsingle
    · rfl
  have e2 : ask lib (compile Demo.tz) (seen 11 buf) (asc "height") (asc "uniquecount") = .val ([], some .incompatibleVersion) := by
    obtain ⟨r, hr, hlow, hm⟩ := demo_counters.2.2
    have hhigh : r.high = 416 := by
      have : readerAt (compile Demo.tz) (asc "height") (asc "uniquecount") = some ⟨212, 416, .cardinality 8⟩ := by decide +kernel
      rw [hr] at this
      rw [Option.some.inj this]
    exact blank_counter lib hr hm (by omega) (by omega) buf (by omega) 11 (by omega)
  unfold bothQuery
  simp only
  constructor
  · rw [C27_read, show pairs [⟨asc "country", [asc "uniquecount"]⟩, ⟨asc "height", [asc "uniquecount"]⟩] =
      [(asc "country", asc "uniquecount"), (asc "height", asc "uniquecount")] from rfl, together, e1]
    rfl
  · rw [C27_read, show pairs [⟨asc "height", [asc "uniquecount"]⟩, ⟨asc "country", [asc "uniquecount"]⟩] =
      [(asc "height", asc "uniquecount"), (asc "country", asc "uniquecount")] from rfl, together, e2]
    rfl

theorem store_answers (env : Env) (st : Store) (b : List Store) (q : Query) :
    queryStores env st.coll.name q (st :: b) = replyOf env q (Storage.read env.lib st q) := by
  rw [queryStores, if_pos rfl]
  cases Storage.read env.lib st q with
  | panic => rfl
  | hang => rfl
  | ret r =>
    obtain ⟨r, e⟩ := r
    cases e <;> rfl

/-- **C82**, what it leaves open does occur: post `0;tz=GSH;country=FR`, then ask for `select uniquecount(country), uniquecount(height) where
tz='GSH'`. If Go happens to iterate over the two fields in one order, the query panics and the client gets no answer; in the other order, it gets the
status 500. -/
theorem C82_status (env : Env) :
    ∃ ord ord' : List FM → List FM, (∀ l, (ord l).Perm l) ∧ (∀ l, (ord' l).Perm l) ∧
      (Server.serve env Demo.stores (post (asc "0;tz=GSH;country=FR\n"))).2 = .ok [] ∧
      (Server.serve { env with ord := ord } (Server.serve env Demo.stores (post (asc "0;tz=GSH;country=FR\n"))).1
        (askFor (asc "tz") (asc "select uniquecount(country), uniquecount(height) where tz='GSH'"))).2 = .panic ∧
      (Server.serve { env with ord := ord' } (Server.serve env Demo.stores (post (asc "0;tz=GSH;country=FR\n"))).1
        (askFor (asc "tz") (asc "select uniquecount(country), uniquecount(height) where tz='GSH'"))).2 = .refused 500 := by
  have hp : Query.roughParse id (asc "select uniquecount(country), uniquecount(height) where tz='GSH'") =
      .ok (bothQuery (asc "country") (asc "height") [⟨asc "tz", asc "GSH"⟩]) := by decide +kernel
  refine ⟨id, List.reverse, fun l => .refl l, fun l => List.reverse_perm l, ?_⟩
  have hserve := post_first env (asc "0;tz=GSH;country=FR") ⟨by decide +kernel, by decide +kernel⟩ gshRow (by decide +kernel) (by
    intro st hst
    rw [show Demo.stores = [newStore Demo.country Demo.slots, newStore Demo.tz Demo.slots] from rfl] at hst
    simp only [List.mem_cons, List.not_mem_nil, or_false] at hst
    rcases hst with rfl | rfl
    · exact gsh_country env.lib
    · exact (gsh_tz env.lib).1)
  rw [show asc "0;tz=GSH;country=FR\n" = asc "0;tz=GSH;country=FR" ++ [0x0a] by decide +kernel, hserve]
  have hname : (writes env.lib (newStore Demo.country Demo.slots) [⟨gshRow, false⟩]).1.coll.name ≠ asc "tz" := by
    rw [writes_coll, show (newStore Demo.country Demo.slots).coll.name = Demo.country.name from compile_name Demo.country]
    decide +kernel
  have hgood : GoodName (asc "tz") := ⟨by decide +kernel, by decide +kernel, by decide +kernel, by decide +kernel⟩
  refine ⟨rfl, ?_, ?_⟩
  · have hask := ask_serve { env with ord := id } [(writes env.lib (newStore Demo.country Demo.slots) [⟨gshRow, false⟩]).1] []
      (writes env.lib (newStore Demo.tz Demo.slots) [⟨gshRow, false⟩]).1 (asc "tz") _ hgood (by simpa using hname)
      (by rw [writes_coll]; exact compile_name Demo.tz) _ hp
    rw [List.singleton_append] at hask
    have hans := store_answers { env with ord := id } (writes env.lib (newStore Demo.tz Demo.slots) [⟨gshRow, false⟩]).1 []
    rw [show (writes env.lib (newStore Demo.tz Demo.slots) [⟨gshRow, false⟩]).1.coll.name = asc "tz" by
      rw [writes_coll]; exact compile_name Demo.tz] at hans
    rw [hask, hans]
    simp only
    rw [(gsh_reads env.lib).1]
    rfl
  · have hp' := parse_id List.reverse hp
    rw [show (⟨List.reverse (bothQuery (asc "country") (asc "height") [⟨asc "tz", asc "GSH"⟩]).fieldMeasures,
      (bothQuery (asc "country") (asc "height") [⟨asc "tz", asc "GSH"⟩]).criteria⟩ : Query) =
      bothQuery (asc "height") (asc "country") [⟨asc "tz", asc "GSH"⟩] from rfl] at hp'
    have hask := ask_serve { env with ord := List.reverse } [(writes env.lib (newStore Demo.country Demo.slots) [⟨gshRow, false⟩]).1] []
      (writes env.lib (newStore Demo.tz Demo.slots) [⟨gshRow, false⟩]).1 (asc "tz") _ hgood (by simpa using hname)
      (by rw [writes_coll]; exact compile_name Demo.tz) _ hp'
    rw [List.singleton_append] at hask
    have hans := store_answers { env with ord := List.reverse } (writes env.lib (newStore Demo.tz Demo.slots) [⟨gshRow, false⟩]).1 []
    rw [show (writes env.lib (newStore Demo.tz Demo.slots) [⟨gshRow, false⟩]).1.coll.name = asc "tz" by
      rw [writes_coll]; exact compile_name Demo.tz] at hans
    rw [hask, hans]
    simp only
    rw [(gsh_reads env.lib).2]
    rfl

end Starbow.Props
