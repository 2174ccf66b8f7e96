import Verif.Props.ServerStatsSeq
import Verif.Props.Hll
import Verif.Props.Accepted
/-
Property theorems C85: the order of observations.
-/
namespace Starbow.Props
open Starbow.Collation Starbow.Spec Starbow.Storage Starbow.Server

/-! ### the same number -/

/-- the same number; 0 and -0 count as one -/
def SameNumber (x y : F64) : Prop := x = y ∨ ∃ s t, x = .fin s 0 ∧ y = .fin t 0

theorem sameNumber_of_le {x y : F64} (h1 : F64.le x y = true) (h2 : F64.le y x = true) : SameNumber x y := by
  unfold F64.le at h1 h2
  cases x with
  | nan => simp [F64.cmp] at h1
  | inf s =>
    cases y with
    | nan => simp [F64.cmp] at h1
    | inf t => left; cases s <;> cases t <;> simp_all [F64.cmp]
    | fin t n => cases s <;> simp_all [F64.cmp]
  | fin s m =>
    cases y with
    | nan => simp [F64.cmp] at h1
    | inf t => cases t <;> simp_all [F64.cmp]
    | fin t n =>
      have a1 : F64.signed s m ≤ F64.signed t n := by
        by_contra hlt
        have : compare (F64.signed s m) (F64.signed t n) = .gt := compare_gt_iff_gt.2 (by omega)
        simp [F64.cmp, this] at h1
      have a2 : F64.signed t n ≤ F64.signed s m := by
        by_contra hlt
        have : compare (F64.signed t n) (F64.signed s m) = .gt := compare_gt_iff_gt.2 (by omega)
        simp [F64.cmp, this] at h2
      have a3 : F64.signed s m = F64.signed t n := by omega
      unfold F64.signed at a3
      cases s <;> cases t <;> simp only [Bool.false_eq_true, if_false, if_true] at a3
      · left; congr 1; omega
      · right; exact ⟨false, true, by congr 1; omega, by congr 1; omega⟩
      · right; exact ⟨true, false, by congr 1; omega, by congr 1; omega⟩
      · left; congr 1; omega

/-! ### sums of integers -/

theorem add_pos_zero {a x : F64} (ha : a ≠ .fin true 0) : F64.add a x ≠ .fin true 0 := by
  intro h
  cases a with
  | nan => cases x <;> simp [F64.add] at h
  | inf s =>
    cases x with
    | nan => simp [F64.add] at h
    | inf t => simp only [F64.add] at h; split at h <;> simp at h
    | fin t n => simp [F64.add] at h
  | fin s m =>
    cases x with
    | nan => simp [F64.add] at h
    | inf t => simp [F64.add] at h
    | fin t n =>
      simp only [F64.add] at h
      split at h
      · next h0 =>
        simp only [F64.fin.injEq, Bool.and_eq_true, and_true] at h
        obtain ⟨rfl, rfl⟩ := h
        apply ha
        unfold F64.signed at h0
        simp only [if_true] at h0
        congr 1
        omega
      · next h0 =>
        unfold F64.mk at h
        split at h
        · simp only [F64.fin.injEq] at h
          have := F64.le_rnd_of_rep (a := (F64.signed s m + F64.signed t n).natAbs) (b := 1) (m := 1) (by omega) (by
            unfold F64.Rep; decide) (by omega)
          omega
        · simp at h

theorem fold_pos_zero (xs : List F64) : ∀ a : F64, a ≠ .fin true 0 → xs.foldl F64.add a ≠ .fin true 0 := by
  induction xs with
  | nil => intro a h; exact h
  | cons x xs ih => intro a h; exact ih _ (add_pos_zero h)

theorem value_inj {x y : F64} {q : ℚ} (hx : value x = some q) (hy : value y = some q) : SameNumber x y := by
  cases x with
  | nan => simp [value] at hx
  | inf => simp [value] at hx
  | fin s m =>
    cases y with
    | nan => simp [value] at hy
    | inf => simp [value] at hy
    | fin t n =>
      rw [← hy] at hx
      simp only [value, Option.some.injEq] at hx
      have hp : (2 : ℚ) ^ 1074 ≠ 0 := by positivity
      generalize (2 : ℚ) ^ 1074 = P at *
      rw [div_left_inj' hp] at hx
      cases s <;> cases t <;> simp only [Bool.false_eq_true, if_false, if_true] at hx
      · left; congr 1; exact_mod_cast hx
      · right
        have : (m : ℚ) + n = 0 := by rw [hx]; ring
        have : m + n = 0 := by exact_mod_cast this
        exact ⟨false, true, by congr 1; omega, by congr 1; omega⟩
      · right
        have : (m : ℚ) + n = 0 := by rw [← hx]; ring
        have : m + n = 0 := by exact_mod_cast this
        exact ⟨true, false, by congr 1; omega, by congr 1; omega⟩
      · left; congr 1
        have : (m : ℚ) = n := by simpa using hx
        exact_mod_cast this

/-- all numbers are integers, and their magnitudes sum up to at most 2^53 -/
def SmallIntegers (xs : List F64) : Prop :=
  (∀ x ∈ xs, ∃ k : Int, value x = some (k : ℚ)) ∧ (xs.map fun x => |(value x).getD 0|).sum ≤ 2 ^ 53

theorem smallIntegers_perm {xs ys : List F64} (hp : xs.Perm ys) (h : SmallIntegers xs) : SmallIntegers ys :=
  ⟨fun x hx => h.1 x (hp.mem_iff.2 hx), by rw [← (hp.map _).sum_eq]; exact h.2⟩

theorem sum_small {xs : List F64} (h : SmallIntegers xs) : value (xs.foldl F64.add (.fin false 0)) = some ((xs.map fun x => (value x).getD 0).sum) := by
  have hk : ∃ ks : List Int, List.Forall₂ (fun x (k : Int) => value x = some (k : ℚ)) xs ks := by
    have h1 := h.1
    clear h
    induction xs with
    | nil => exact ⟨[], .nil⟩
    | cons x xs ih =>
      obtain ⟨k, hk⟩ := h1 x (by simp)
      obtain ⟨ks, hks⟩ := ih fun y hy => h1 y (by simp [hy])
      exact ⟨k :: ks, .cons hk hks⟩
  obtain ⟨ks, hks⟩ := hk
  have e1 : (xs.map fun x => |(value x).getD 0|) = (ks.map fun k : Int => |(k : ℚ)|) := by
    clear h
    induction hks with
    | nil => rfl
    | cons a _ ih => rw [List.map_cons, List.map_cons, ih, a]; rfl
  have e2 : (xs.map fun x => (value x).getD 0) = (ks.map fun k : Int => (k : ℚ)) := by
    clear h e1
    induction hks with
    | nil => rfl
    | cons a _ ih => rw [List.map_cons, List.map_cons, ih, a]; rfl
  have hb : (ks.map fun k => |k|).sum ≤ 2 ^ 53 := by
    have := h.2
    rw [e1] at this
    have e : ((ks.map fun k : Int => |(k : ℚ)|).sum) = (((ks.map fun k => |k|).sum : Int) : ℚ) := by
      clear hks e1 e2 this
      induction ks with
      | nil => simp
      | cons k ks ih => simp [ih]
    rw [e] at this
    exact_mod_cast this
  have habs : ∀ (ks : List Int) (i : Nat), |(ks.take i).sum| ≤ (ks.map fun k => |k|).sum := by
    intro ks
    induction ks with
    | nil => intro i; simp
    | cons k ks ih =>
      intro i
      cases i with
      | zero =>
        simp only [List.take_zero, List.sum_nil, abs_zero]
        have := ih 0
        have := abs_nonneg (ks.take 0).sum
        have := abs_nonneg k
        rw [List.map_cons, List.sum_cons]
        omega
      | succ i =>
        rw [List.take_succ_cons, List.sum_cons, List.map_cons, List.sum_cons]
        have := ih i
        have := abs_add_le k (ks.take i).sum
        omega
  have := C19_integer_sum xs ks hks fun i => (habs ks i).trans hb
  rw [after_sum] at this
  rw [this, e2]
  congr 1
  clear hks e1 e2 hb this
  induction ks with
  | nil => simp
  | cons k ks ih => simp [ih]

theorem sum_perm {xs ys : List F64} (hp : xs.Perm ys) (h : SmallIntegers xs) :
    xs.foldl F64.add (.fin false 0) = ys.foldl F64.add (.fin false 0) := by
  have h1 := sum_small h
  have h2 := sum_small (smallIntegers_perm hp h)
  rw [← (hp.map _).sum_eq] at h2
  rcases value_inj h1 h2 with e | ⟨s, t, e1, e2⟩
  · exact e
  · have n1 := fold_pos_zero xs (.fin false 0) (by simp)
    have n2 := fold_pos_zero ys (.fin false 0) (by simp)
    rw [e1] at n1 ⊢
    rw [e2] at n2 ⊢
    cases s <;> cases t <;> simp_all

/-! ### one record -/

theorem valuesOf_perm (f : Bytes) {rows rows' : List Row} (hp : (rows.map Row.data).Perm (rows'.map Row.data)) :
    (valuesOf f rows).Perm (valuesOf f rows') := by
  unfold valuesOf
  apply List.Perm.filterMap
  rw [List.flatMap_def, List.flatMap_def]
  exact hp.flatten

theorem numbersOf_perm (lib : Lib) (f : Bytes) {rows rows' : List Row} (hp : (rows.map Row.data).Perm (rows'.map Row.data)) :
    (numbersOf lib f rows).Perm (numbersOf lib f rows') := (valuesOf_perm f hp).filterMap _

/-- every observation carries the field, once -/
def Carried (f : Bytes) (obs : List (List FV)) : Prop := ∀ fs ∈ obs, ∃ v, (fs.filterMap fun fv => if fv.f = f then some fv.v else none) = [v]

theorem carried_one {f : Bytes} {rows : List Row} (h : Carried f (rows.map Row.data)) : ∀ r ∈ rows, ∃ v, valuesOf f [r] = [v] := by
  intro r hr
  obtain ⟨v, hv⟩ := h r.data (List.mem_map_of_mem hr)
  exact ⟨v, by unfold valuesOf; simpa using hv⟩

theorem perm_flatten {α : Type _} : ∀ {l l' : List (List α)}, l.Perm l' → l.flatten.Perm l'.flatten := fun h => h.flatten

theorem live_somes (l : List Bytes) : live (l.map some) = l := by
  have : ∀ (l acc : List Bytes), (l.map some).foldl liveStep acc = acc ++ l := by
    intro l
    induction l with
    | nil => intro acc; simp
    | cons v l ih => intro acc; rw [List.map_cons, List.foldl_cons, ih, liveStep]; simp
  exact this l []

/-- the counter a field's uniquecount is read from is the same for all records -/
theorem card_ask_all (lib : Lib) {s : Schema} (hv : ValidSchema s) {f : Bytes} {p : Int} (hd : Declares s f (.cardinality p)) :
    ∃ q, 4 ≤ q ∧ q ≤ 18 ∧ ∀ (r : Row) (rows : List Row) (buf : Bytes), RecordOf lib (compile s) (r :: rows) buf → ∀ v, valuesOf f [r] = [v] →
      ∃ c0 c n, Hll.new (precision q) = .val c0 ∧ runHll c0 ((valuesOf f (r :: rows)).map some) = .val c ∧ Hll.count lib.log c = .val n ∧
        ask lib (compile s) buf f (asc "uniquecount") = .val ([⟨f, asc "uniquecount", F64.ofInt n⟩], none) := by
  obtain ⟨L, D, pos, h, hD⟩ := laid_compile s hv
  obtain ⟨c, q, w, h1, h2, hq, h4, h18, h3, e1, e2, hwm, hin⟩ := disc_reader h ((hD f _).2 hd)
  refine ⟨q, h4, h18, ?_⟩
  intro r rows buf hr v hv1
  obtain ⟨k1, k2⟩ := disc_bytes lib h h3 r rows buf hr
  have hpos := (h.cell _ w h3).2.2.1
  rw [hwm] at k2 hpos
  have ha : ask lib (compile s) buf f (asc "uniquecount") =
        reply f (asc "uniquecount") (readerFn lib (.cardinality q) ((valuesOf f rows).foldl (fun d x => (cardWriter q d false x).1)
        ((valuesOf f [r]).foldl (fun d x => (cardWriter q d true x).1) (List.replicate (Measure.cardinality q).size.toNat 0#8)))) := by
    rw [ask_reply lib h1, cell_read_eq lib hin k1, ← e1, ← e2, k2, h2]
    rfl
  rw [hv1] at ha
  obtain ⟨c0, c1, a1, a2, a3, a4, a5⟩ := card_init_fold h4 h18 [] v (List.replicate (Measure.cardinality q).size.toNat 0#8) (by
    have : (Measure.cardinality q).size = Hll.len (precision q) := rfl
    rw [List.length_replicate]; omega)
  obtain ⟨c, b1, b2, b3, b4⟩ := card_fold (p := q) (valuesOf f rows) a3
  obtain ⟨n, d1, d2⟩ := card_read lib (p := q) b2
  rw [List.nil_append] at a5
  refine ⟨c0, c, n, a1, ?_, d1, ?_⟩
  · rw [valuesOf_cons, hv1, List.singleton_append, List.map_cons, runHll, a2, Out.bind_val]; exact b1
  · rw [ha, a5, b4, d2]; rfl

/-- **C85**, one record: two records of the same observations, made in different orders. The counts are the same; the sums are, of integers whose magnitudes
sum up to at most 2^53; and if every observation carries the field, once, the numbers of distinct values are the same, and the extremes are (0 and -0 count as one). -/
theorem C85_record_partial (lib : Lib) (hl : ParsesDoubles lib) (s : Schema) (hv : ValidSchema s) (rows rows' : List Row) (buf buf' : Bytes)
    (hp : (rows.map Row.data).Perm (rows'.map Row.data)) (hr : RecordOf lib (compile s) rows buf) (hr' : RecordOf lib (compile s) rows' buf') (f : Bytes) :
    (Declares s (asc "*") .count → ask lib (compile s) buf (asc "*") (asc "count") = ask lib (compile s) buf' (asc "*") (asc "count")) ∧
    (rows ≠ [] → Declares s f .sum → SmallIntegers (numbersOf lib f rows) →
      ask lib (compile s) buf f (asc "sum") = ask lib (compile s) buf' f (asc "sum")) ∧
    (rows ≠ [] → Carried f (rows.map Row.data) → ∀ p, Declares s f (.cardinality p) →
      ask lib (compile s) buf f (asc "uniquecount") = ask lib (compile s) buf' f (asc "uniquecount")) ∧
    (rows ≠ [] → Carried f (rows.map Row.data) → (∀ x ∈ numbersOf lib f rows, x ≠ .nan) → ∀ m, m = .max ∨ m = .min → Declares s f m →
      ∃ x x', ask lib (compile s) buf f m.name = .val ([⟨f, m.name, x⟩], none) ∧ ask lib (compile s) buf' f m.name = .val ([⟨f, m.name, x'⟩], none) ∧
        SameNumber x x' ∧ x ∈ numbersOf lib f rows ∧ x' ∈ numbersOf lib f rows) := by
  have hlen : rows.length = rows'.length := by
    have := hp.length_eq
    rwa [List.length_map, List.length_map] at this
  have hcons : rows ≠ [] → ∃ r t r' t', rows = r :: t ∧ rows' = r' :: t' := by
    intro hne
    obtain ⟨r, t, e⟩ := List.exists_cons_of_ne_nil hne
    have : rows' ≠ [] := by
      rintro rfl
      rw [e] at hlen
      simp at hlen
    obtain ⟨r', t', e'⟩ := List.exists_cons_of_ne_nil this
    exact ⟨r, t, r', t', e, e'⟩
  have hcar' : Carried f (rows.map Row.data) → Carried f (rows'.map Row.data) := fun h fs hfs => h fs (hp.mem_iff.2 hfs)
  refine ⟨?_, ?_, ?_, ?_⟩
  · intro hd
    rw [C25_count lib s hv rows buf hr hd, C25_count lib s hv rows' buf' hr' hd, hlen]
  · intro hne hd hs
    have hpn := numbersOf_perm lib f hp
    obtain ⟨r, t, r', t', e, e'⟩ := hcons hne
    rw [e] at hr hpn hs
    rw [e'] at hr' hpn
    rw [C25_sum lib s hv f hd r t buf hr, C25_sum lib s hv f hd r' t' buf' hr', sum_perm hpn hs]
  · intro hne hcar p hd
    have hc := carried_one hcar
    have hc' := carried_one (hcar' hcar)
    have hpv := valuesOf_perm f hp
    obtain ⟨r, t, r', t', e, e'⟩ := hcons hne
    rw [e] at hr hpv hc
    rw [e'] at hr' hpv hc'
    obtain ⟨v, h1⟩ := hc r (by simp)
    obtain ⟨v', h1'⟩ := hc' r' (by simp)
    obtain ⟨q, h4, h18, hall⟩ := card_ask_all lib hv hd
    obtain ⟨c0, c, n, a1, a2, a3, a4⟩ := hall r t buf hr v h1
    obtain ⟨c0', c', n', b1, b2, b3, b4⟩ := hall r' t' buf' hr' v' h1'
    rw [a1] at b1
    have b1 := Out.val.inj b1
    subst b1
    have hpq : (precision q).toNat = q.toNat := by
      unfold precision
      rw [BitVec.toNat_ofInt]
      omega
    have hcc := C12_set_semantics (precision q) (by omega) (by omega) ((valuesOf f (r :: t)).map some) ((valuesOf f (r' :: t')).map some) (by
      intro x
      rw [live_somes, live_somes]
      exact hpv.mem_iff) c0 c c' a1 a2 b2
    subst hcc
    rw [a3] at b3
    rw [a4, b4, Out.val.inj b3]
  · intro hne hcar hnan m hm hd
    have hc := carried_one hcar
    have hc' := carried_one (hcar' hcar)
    have hpn := numbersOf_perm lib f hp
    obtain ⟨r, t, r', t', e, e'⟩ := hcons hne
    rw [e] at hr hpn hc hnan
    rw [e'] at hr' hpn hc'
    obtain ⟨v, h1⟩ := hc r (by simp)
    obtain ⟨v', h1'⟩ := hc' r' (by simp)
    have x1 := C25_extreme_partial lib hl s hv f r t buf hr v h1 hnan
    have x2 := C25_extreme_partial lib hl s hv f r' t' buf' hr' v' h1' fun x hx => hnan x (hpn.mem_iff.2 hx)
    rcases hm with rfl | rfl
    · obtain ⟨x, a1, a2, a3⟩ := x1.1 hd
      obtain ⟨y, b1, b2, b3⟩ := x2.1 hd
      exact ⟨x, y, a1, b1, sameNumber_of_le (b3 x (hpn.mem_iff.1 a2)) (a3 y (hpn.mem_iff.2 b2)), by rw [e]; exact a2, by
        rw [e]; exact hpn.mem_iff.2 b2⟩
    · obtain ⟨x, a1, a2, a3⟩ := x1.2 hd
      obtain ⟨y, b1, b2, b3⟩ := x2.2 hd
      exact ⟨x, y, a1, b1, sameNumber_of_le (a3 y (hpn.mem_iff.2 b2)) (b3 x (hpn.mem_iff.1 a2)), by rw [e]; exact a2, by
        rw [e]; exact hpn.mem_iff.2 b2⟩

/-! ### the server -/

theorem suits_perm {lib : Lib} {sch : Schema} {obs obs' : List (List FV)} (hp : obs.Perm obs')
    (hcar : ∀ f p, Declares sch f (.cardinality p) → ∀ fs ∈ obs, WithKeys sch.keys fs → ∃ fv ∈ fs, fv.f = f)
    (h : ∀ fs ∈ obs, WithKeys sch.keys fs → Suits lib sch obs fs) : ∀ fs ∈ obs', WithKeys sch.keys fs → Suits lib sch obs' fs := by
  intro fs hfs hk
  have hs := h fs (hp.mem_iff.2 hfs) hk
  refine ⟨hs.key, hs.number, ?_⟩
  intro fv _ p hd g rest hg
  have hg' : g ∈ obs'.filter fun x => AgreeOn sch.keys x fs := by rw [hg]; simp
  rw [List.mem_filter] at hg'
  obtain ⟨h1, h2⟩ := hg'
  have h2 : AgreeOn sch.keys g fs := by simpa using h2
  refine hcar fv.f p hd g (hp.mem_iff.2 h1) ?_
  rw [withKeys_iff] at hk ⊢
  rw [C28_key sch.keys g fs h2]
  exact hk

/-- **C85**, acceptance, partial: if every observation with the key fields of a collation carries all fields whose distinct values this collation counts, then
whether the observations are accepted does not depend on their order. Provided for each collation observations with different key values have different home
slots. -/
theorem C85_accepted_partial (env : Env) (confs : List (Schema × Nat)) (hv : ∀ c ∈ confs, ValidSchema c.1 ∧ 0 < c.2) (steps steps' : List Step)
    (hc : ∀ s ∈ steps, s.Correct) (hc' : ∀ s ∈ steps', s.Correct) (happ : ∀ c ∈ confs, KeysApart c.1.keys c.2 (observations steps))
    (hp : (observations steps).Perm (observations steps'))
    (hcar : ∀ c ∈ confs, ∀ f p, Declares c.1 f (.cardinality p) → ∀ fs ∈ observations steps, WithKeys c.1.keys fs → ∃ fv ∈ fs, fv.f = f)
    (hacc : List.Forall₂ Step.Accepted steps (serveAll env (confs.map fun c => newStore c.1 c.2) (steps.map Step.request)).2) :
    List.Forall₂ Step.Accepted steps' (serveAll env (confs.map fun c => newStore c.1 c.2) (steps'.map Step.request)).2 := by
  rw [C86_apart env confs hv steps hc happ] at hacc
  rw [C86_apart env confs hv steps' hc' fun c hcm x hx y hy => happ c hcm x (hp.mem_iff.2 hx) y (hp.mem_iff.2 hy)]
  intro c hcm
  exact suits_perm hp (hcar c hcm) (hacc c hcm)

/-- the statistics that do not depend on the order of these observations: counts; sums of integers, magnitudes up to 2^53 in total; numbers of distinct
values, if every observation carries the field, once; extremes, if every observation carries the field, once, with a number, not -0 -/
def OrderFree (lib : Lib) (f : Bytes) (obs : List (List FV)) : Measure → Prop
  | .count => True
  | .sum => SmallIntegers (numbersIn lib f obs)
  | .cardinality _ => Carried f obs
  | .max => Carried f obs ∧ ∀ x ∈ numbersIn lib f obs, x ≠ .nan ∧ x ≠ .fin true 0
  | .min => Carried f obs ∧ ∀ x ∈ numbersIn lib f obs, x ≠ .nan ∧ x ≠ .fin true 0
  | _ => False

/-- **C85**, the whole server, partial: two servers, with a fresh store for the collation, accept the same observations in different orders. Then they give
the same answer to every query for a statistic that does not depend on the order (see above). Provisos as in C59_server_partial. Missing: the other
statistics, which do depend on it (`C85_sum_refuted`, `C85_extreme_refuted`, `C85_unique_refuted`). -/
theorem C85_partial (env : Env) (hl : ParsesDoubles env.lib) (sch : Schema) (hv : ValidSchema sch) (hn : GoodName sch.name)
    (l : Nat) (hlp : 0 < l) (a b a' b' : List Store) (ha : ∀ s ∈ a, s.coll.name ≠ sch.name) (ha' : ∀ s ∈ a', s.coll.name ≠ sch.name)
    (steps steps' : List Step) (hc : ∀ s ∈ steps, s.Correct) (hc' : ∀ s ∈ steps', s.Correct)
    (hacc : List.Forall₂ Step.Accepted steps (serveAll env (a ++ newStore sch l :: b) (steps.map Step.request)).2)
    (hacc' : List.Forall₂ Step.Accepted steps' (serveAll env (a' ++ newStore sch l :: b') (steps'.map Step.request)).2)
    (hp : (observations steps).Perm (observations steps'))
    (crit : List FV) (happ : KeysApart sch.keys l (crit :: observations steps))
    (k : U64) (hk : keyValue crit sch.keys = some k) (h0 : k ≠ 0) (hlow : (compile sch).size.toNat ≤ k.toNat % l)
    (hhigh : k.toNat % l * ((compile sch).size.toNat + 1) ≤ l * (compile sch).size.toNat)
    (hsome : ((observations steps).filter fun fs => AgreeOn sch.keys fs crit) ≠ [])
    (f : Bytes) (m : Measure) (hd : Declares sch f m)
    (hfree : OrderFree env.lib f ((observations steps).filter fun fs => AgreeOn sch.keys fs crit) m)
    (text : Bytes) (hq : Query.roughParse env.ord text = .ok ⟨[⟨f, [m.name]⟩], crit⟩) :
    (Server.serve env (serveAll env (a ++ newStore sch l :: b) (steps.map Step.request)).1 (askFor sch.name text)).2 =
      (Server.serve env (serveAll env (a' ++ newStore sch l :: b') (steps'.map Step.request)).1 (askFor sch.name text)).2 := by
  have hpf := hp.filter (p := fun fs => AgreeOn sch.keys fs crit)
  have hsome' : ((observations steps').filter fun fs => AgreeOn sch.keys fs crit) ≠ [] := by
    intro e
    rw [e] at hpf
    exact hsome hpf.eq_nil
  have happ' : KeysApart sch.keys l (crit :: observations steps') := fun x hx y hy =>
    happ x ((hp.cons crit).mem_iff.2 hx) y ((hp.cons crit).mem_iff.2 hy)
  obtain ⟨rows, buf, hrows, hrec, hans⟩ := C59_server_partial env sch hv hn l hlp a b ha steps hc hacc crit happ k hk h0 hlow hhigh hsome
  obtain ⟨rows', buf', hrows', hrec', hans'⟩ :=
    C59_server_partial env sch hv hn l hlp a' b' ha' steps' hc' hacc' crit happ' k hk h0 hlow hhigh hsome'
  rw [hans text _ hq, hans' text _ hq]
  congr 1
  have hne : rows ≠ [] := by
    rintro rfl
    exact hsome hrows.symm
  rw [← hrows] at hfree
  obtain ⟨r1, r2, r3, r4⟩ := C85_record_partial env.lib hl sch hv rows rows' buf buf' (by rw [hrows, hrows']; exact hpf) hrec hrec' f
  show ask env.lib (compile sch) buf f m.name = ask env.lib (compile sch) buf' f m.name
  have ext : (m = .max ∨ m = .min) → Carried f (rows.map Row.data) → (∀ x ∈ numbersIn env.lib f (rows.map Row.data), x ≠ .nan ∧ x ≠ .fin true 0) →
      ask env.lib (compile sch) buf f m.name = ask env.lib (compile sch) buf' f m.name := by
    intro hm h1 h2
    rw [← numbersOf_data] at h2
    obtain ⟨x, y, e1, e2, e3, e4, e5⟩ := r4 hne h1 (fun x hx => (h2 x hx).1) m hm hd
    rw [e1, e2]
    rcases e3 with rfl | ⟨s, t, rfl, rfl⟩
    · rfl
    · have n1 := (h2 _ e4).2
      have n2 := (h2 _ e5).2
      cases s <;> cases t <;> simp_all
  cases m with
  | count =>
    have : f = asc "*" := by
      rcases hd with ⟨e, _⟩ | ⟨e, _⟩
      · exact e
      · exact absurd rfl e
    subst this
    exact r1 hd
  | sum =>
    refine r2 hne hd ?_
    rw [numbersOf_data]
    exact hfree
  | cardinality p => exact r3 hne hfree p hd
  | max => exact ext (.inl rfl) hfree.1 hfree.2
  | min => exact ext (.inr rfl) hfree.1 hfree.2
  | mean => exact absurd hfree id
  | variance => exact absurd hfree id

end Starbow.Props
