import Verif.Props.ReadmeFacts
/-
The answers that README.md ("Example Queries") prints, proved of the program. Property theorem C15: the codes of 1315 airports are counted as 38.
-/
namespace Starbow.Props
open Starbow.Collation Starbow.Spec Starbow.Storage Starbow.Server Starbow.Bufmap

/-! ### the counter of codes -/

theorem filter_partition {α : Type} (p : α → Bool) (l : List α) : (l.filter p).length + (l.filter fun x => !p x).length = l.length := by
  rw [← List.countP_eq_length_filter, ← List.countP_eq_length_filter, List.length_eq_countP_add_countP p (l := l)]
  congr 1
  exact List.countP_congr fun x _ => by simp

theorem us_used : ((List.range 1024).filter fun i => decide (i ∈ usRegisters)).length = 37 := by decide +kernel

theorem us_empty : emptyRegisters 10 ((usAirports.map Airport.code).map fun v => fnv1 (nats v)) = 987 := by
  unfold emptyRegisters
  have e : ((List.range (2 ^ 10)).filter fun i => ((usAirports.map Airport.code).map fun v => fnv1 (nats v)).all fun h => hllIndex 10 h != i) =
      (List.range 1024).filter fun i => !decide (i ∈ usRegisters) := by
    refine List.filter_congr fun i _ => ?_
    rw [Bool.eq_iff_iff]
    simp only [List.all_eq_true, bne_iff_ne, Bool.not_eq_true', decide_eq_false_iff_not]
    constructor
    · intro h hi
      obtain ⟨a, ha, e⟩ := List.any_eq_true.1 (us_registers.2 i hi)
      exact h _ (List.mem_map.2 ⟨_, List.mem_map.2 ⟨a, ha, rfl⟩, rfl⟩) (beq_iff_eq.1 e)
    · intro h x hx e
      obtain ⟨c, hc, rfl⟩ := List.mem_map.1 hx
      obtain ⟨a, ha, rfl⟩ := List.mem_map.1 hc
      exact h (e ▸ us_registers.1 a ha)
  rw [e]
  have := filter_partition (fun i => decide (i ∈ usRegisters)) (List.range 1024)
  rw [us_used, List.length_range] at this
  omega

theorem us_linear : 37 + 1 / 4 ≤ linearEstimate 10 987 ∧ linearEstimate 10 987 ≤ 37 + 19 / 20 := by
  unfold linearEstimate
  have hlog : ∀ x : ℝ, 0 < x → Real.log x ≤ x - 1 ∧ 1 - x⁻¹ ≤ Real.log x := fun x hx => ⟨Real.log_le_sub_one_of_pos hx, Real.one_sub_inv_le_log_of_pos hx⟩
  have e1 : ((2 : ℝ) ^ 10 / ((987 : Nat) : ℝ)) = (1024 / 1012) * (1012 / 999) * (999 / 987) := by norm_num
  have e2 : ((2 : ℝ) ^ 10 / ((987 : Nat) : ℝ)) = (1024 / 1005) * (1005 / 987) := by norm_num
  constructor
  · rw [e2, Real.log_mul (by norm_num) (by norm_num)]
    have h1 := (hlog (1024 / 1005) (by norm_num)).2
    have h2 := (hlog (1005 / 987) (by norm_num)).2
    norm_num at h1 h2 ⊢
    linarith
  · rw [e1, Real.log_mul (by norm_num) (by norm_num), Real.log_mul (by norm_num) (by norm_num)]
    have h1 := (hlog (1024 / 1012) (by norm_num)).1
    have h2 := (hlog (1012 / 999) (by norm_num)).1
    have h3 := (hlog (999 / 987) (by norm_num)).1
    norm_num at h1 h2 h3 ⊢
    linarith

/-- a counter of precision 10 counts the 1315 codes as 38 -/
theorem us_count (log : F64 → F64) (hl : LogOk log) : ∃ c0 c, Hll.new 10#8 = .val c0 ∧ runHll c0 ((usAirports.map Airport.code).map some) = .val c ∧
    Hll.count log c = .val 38 := by
  obtain ⟨b1, b2⟩ := us_linear
  have e : emptyRegisters (10#8 : Byte).toNat ((live ((usAirports.map Airport.code).map some)).map fun v => fnv1 (nats v)) = 987 := by
    rw [live_somes]; exact us_empty
  obtain ⟨c0, c, n, g0, g, g1, g2, g3⟩ := C14_linear_partial log hl 10#8 (by decide) (by decide) ((usAirports.map Airport.code).map some) (by rw [e]; decide) (by
    rw [e]
    have hT : (linearThreshold (10#8 : Byte).toNat : ℝ) = 900 := by norm_num [linearThreshold]
    rw [hT]
    have : linearEstimate (10#8 : Byte).toNat 987 = linearEstimate 10 987 := rfl
    rw [this]
    norm_num at b2 ⊢
    linarith)
  rw [e, show linearEstimate (10#8 : Byte).toNat 987 = linearEstimate 10 987 from rfl] at g2 g3
  have : n = 38 := by
    have h1 : (37 : ℝ) < n := by norm_num at b1 g2; linarith
    have h2 : (n : ℝ) < 39 := by norm_num at b2 g3; linarith
    have h1' : 37 < n := by exact_mod_cast h1
    have h2' : n < 39 := by exact_mod_cast h2
    omega
  rw [this] at g1
  exact ⟨c0, c, g0, g, g1⟩

/-! ### the answers -/

/-- the four queries of README.md (it asks for the two extremes in one query) -/
def askCount : Bytes := asc "select count(*) where country='United States'"
def askMin : Bytes := asc "select min(height) where country='United States'"
def askMax : Bytes := asc "select max(height) where country='United States'"
def askCodes : Bytes := asc "select uniquecount(iata) where country='United States'"

theorem ask_parses (env : Env) (hord : ∀ l, (env.ord l).Perm l) :
    Query.roughParse env.ord askCount = .ok ⟨[⟨asc "*", [asc "count"]⟩], usCrit⟩ ∧ Query.roughParse env.ord askMin = .ok ⟨[⟨asc "height", [asc "min"]⟩], usCrit⟩ ∧
    Query.roughParse env.ord askMax = .ok ⟨[⟨asc "height", [asc "max"]⟩], usCrit⟩ ∧ Query.roughParse env.ord askCodes = .ok ⟨[⟨asc "iata", [asc "uniquecount"]⟩], usCrit⟩ := by
  refine ⟨?_, ?_, ?_, ?_⟩
  · rw [roughParse_ord env.ord (q := ⟨[⟨asc "*", [asc "count"]⟩], usCrit⟩) (by decide +kernel), List.perm_singleton.1 (hord _)]
  · rw [roughParse_ord env.ord (q := ⟨[⟨asc "height", [asc "min"]⟩], usCrit⟩) (by decide +kernel), List.perm_singleton.1 (hord _)]
  · rw [roughParse_ord env.ord (q := ⟨[⟨asc "height", [asc "max"]⟩], usCrit⟩) (by decide +kernel), List.perm_singleton.1 (hord _)]
  · rw [roughParse_ord env.ord (q := ⟨[⟨asc "iata", [asc "uniquecount"]⟩], usCrit⟩) (by decide +kernel), List.perm_singleton.1 (hord _)]

theorem height_numbers (lib : Lib) (hp : ∀ h : Int, h.natAbs < 1000000000000000 → lib.parseFloat (decimalText h) = some (F64.ofInt h)) {rows : List Row} {as : List Airport}
    (hok : ∀ a ∈ as, a.Ok) (h : rows.map Row.data = as.map Airport.fields) : numbersOf lib (asc "height") rows = as.map fun a => F64.ofInt a.height := by
  unfold numbersOf
  rw [airports_values (asc "height") (fun a => decimalText a.height) height_values h, List.filterMap_map, ← List.filterMap_eq_map]
  exact List.filterMap_congr fun a ha => hp a.height (hok a ha).1

theorem height_is {h : Int} (hh : h.natAbs ≤ 2 ^ 53) : F64.Is (F64.ofInt h) (h * F64.one) := by
  have e := Hll.ofInt_is hh
  rcases Int.lt_or_le h 0 with h0 | h0
  · have e1 : F64.mk false (h.natAbs * F64.one) 1 = .fin false (h.natAbs * F64.one) := by
      unfold F64.ofInt at e
      rw [decide_eq_false (by omega), Int.natAbs_natCast] at e
      exact e
    unfold F64.mk at e1
    split at e1
    · next hlt =>
      have e2 := (F64.fin.inj e1).2
      refine ⟨true, h.natAbs * F64.one, ?_, ?_⟩
      · unfold F64.ofInt F64.mk
        rw [decide_eq_true h0, if_pos hlt, e2]
      · rw [F64.signed, if_pos rfl, Nat.cast_mul]
        have : (h.natAbs : Int) = -h := by omega
        rw [this, Int.neg_mul, Int.neg_neg]
    · simp at e1
  · refine ⟨false, h.natAbs * F64.one, ?_, ?_⟩
    · rw [← e]
      congr 1
      omega
    · rw [F64.signed, if_neg (by simp), Nat.cast_mul]
      have : (h.natAbs : Int) = h := by omega
      rw [this]

theorem accepted_ok {as : List Airport} {rs : List Reply} (h : List.Forall₂ Step.Accepted (airportSteps as) rs) : ∀ r ∈ rs, r = .ok [] := by
  induction as generalizing rs with
  | nil => cases h; simp
  | cons a as ih =>
    cases h with
    | cons h1 h2 =>
      intro r hr
      rcases List.mem_cons.1 hr with rfl | hr
      · exact h1
      · exact ih h2 r hr

/-- the answers for any list of airports -/
theorem airports_answers (env : Env) (hord : ∀ l, (env.ord l).Perm l) (hd : ParsesDoubles env.lib) (hp : ∀ h : Int, h.natAbs < 1000000000000000 → env.lib.parseFloat (decimalText h) = some (F64.ofInt h))
    (a : Airport) (as : List Airport) (hok : ∀ b ∈ a :: as, b.Ok) (lo hi : Int) (hlo : -2 ^ 53 ≤ lo) (hhi : hi ≤ 2 ^ 53) (hall : ∀ b ∈ a :: as, lo ≤ b.height ∧ b.height ≤ hi)
    (inlo : ∃ b ∈ a :: as, b.height = lo) (inhi : ∃ b ∈ a :: as, b.height = hi) (st : List Store)
    (hst : (serveAll env Demo.stores ((airportSteps (a :: as)).map Step.request)).1 = st) :
    (Server.serve env st (askFor (asc "country") askCount)).2 = .ok (echo usCrit ++ countLine env (a :: as).length) ∧
    (Server.serve env st (askFor (asc "country") askMin)).2 = .ok (echo usCrit ++ measureLine env (asc "min") (asc "height") (F64.ofInt lo)) ∧
    (Server.serve env st (askFor (asc "country") askMax)).2 = .ok (echo usCrit ++ measureLine env (asc "max") (asc "height") (F64.ofInt hi)) ∧
    ∃ c0 c n, Hll.new 10#8 = .val c0 ∧ runHll c0 (((a :: as).map Airport.code).map some) = .val c ∧ Hll.count env.lib.log c = .val n ∧
      (Server.serve env st (askFor (asc "country") askCodes)).2 = .ok (echo usCrit ++ measureLine env (asc "uniquecount") (asc "iata") (F64.ofInt n)) := by
  have hp' : ∀ h : Int, h.natAbs < 1000000000000000 → env.lib.parseFloat (decimalText h) ≠ none := fun h hh => by rw [hp h hh]; simp
  obtain ⟨rows, buf, hrows, hrec, hask⟩ := airports_record env hp' hok (by simp)
  rw [hst] at hask
  obtain ⟨p1, p2, p3, p4⟩ := ask_parses env hord
  have hnum := height_numbers env.lib hp hok hrows
  have hlen : rows.length = (a :: as).length := by
    have := congrArg List.length hrows
    rwa [List.length_map, List.length_map] at this
  cases rows with
  | nil => simp at hlen
  | cons r rows =>
    have hr : r.data = a.fields := by
      rw [List.map_cons, List.map_cons, List.cons.injEq] at hrows
      exact hrows.1
    have hx : ∀ x ∈ numbersOf env.lib (asc "height") (r :: rows), ∃ h : Int, (lo ≤ h ∧ h ≤ hi) ∧ x = F64.ofInt h := by
      intro x hx
      rw [hnum] at hx
      obtain ⟨b, hb, rfl⟩ := List.mem_map.1 hx
      exact ⟨b.height, hall b hb, rfl⟩
    have his : ∀ h : Int, lo ≤ h ∧ h ≤ hi → F64.Is (F64.ofInt h) (h * F64.one) := fun h hh => height_is (by omega)
    have hlohi : lo ≤ hi := by
      obtain ⟨b, hb, _⟩ := inlo
      have := hall b hb
      omega
    have hin : ∀ h : Int, (∃ b ∈ a :: as, b.height = h) → F64.ofInt h ∈ numbersOf env.lib (asc "height") (r :: rows) := by
      rintro h ⟨b, hb, rfl⟩
      rw [hnum]
      exact List.mem_map.2 ⟨b, hb, rfl⟩
    have hext := C25_extreme_partial env.lib hd Demo.country country_valid (asc "height") r rows buf hrec (decimalText a.height) (by
      rw [airports_values (asc "height") (fun a => decimalText a.height) height_values (as := [a]) (by rw [List.map_cons, List.map_nil, hr]; rfl)]; rfl) (by
      intro x hx' e
      obtain ⟨h, hh, e'⟩ := hx x hx'
      obtain ⟨s, m, e'', _⟩ := his h hh
      rw [e', e''] at e
      simp at e)
    have hone : (0 : Int) < F64.one := by exact_mod_cast F64.one_pos
    refine ⟨?_, ?_, ?_, ?_⟩
    · have := C25_count env.lib Demo.country country_valid (r :: rows) buf hrec (.inl ⟨rfl, rfl, by decide⟩)
      rw [hask _ _ p1, show Collation.read env.lib (compile Demo.country) [⟨asc "*", [asc "count"]⟩] buf = _ from this, hlen]
      exact congrArg Reply.ok (render_count env usCrit _)
    · obtain ⟨x, e, hx', hle⟩ := hext.2 (.inr ⟨by simp, _, List.mem_cons_self .., by simp⟩)
      obtain ⟨h, hh, rfl⟩ := hx x hx'
      have := (F64.Is.le_iff (his h hh) (his lo ⟨by omega, hlohi⟩)).1 (hle _ (hin _ inlo))
      have := Int.le_of_mul_le_mul_right this hone
      obtain rfl : h = lo := by omega
      rw [hask _ _ p2, show Collation.read env.lib (compile Demo.country) [⟨asc "height", [asc "min"]⟩] buf = _ from e]
      exact congrArg Reply.ok (render_one env usCrit (asc "height") (asc "min") _)
    · obtain ⟨x, e, hx', hle⟩ := hext.1 (.inr ⟨by simp, _, List.mem_cons_self .., by simp⟩)
      obtain ⟨h, hh, rfl⟩ := hx x hx'
      have := (F64.Is.le_iff (his hi ⟨hlohi, by omega⟩) (his h hh)).1 (hle _ (hin _ inhi))
      have := Int.le_of_mul_le_mul_right this hone
      obtain rfl : h = hi := by omega
      rw [hask _ _ p3, show Collation.read env.lib (compile Demo.country) [⟨asc "height", [asc "max"]⟩] buf = _ from e]
      exact congrArg Reply.ok (render_one env usCrit (asc "height") (asc "max") _)
    · obtain ⟨q, c0, c, n, d1, d2, d3, d4, d5⟩ := C25_uniquecount_partial env.lib Demo.country country_valid (asc "iata") 10
        (.inr ⟨by simp, [.cardinality 10], by simp [Demo.country], by simp⟩) r rows buf hrec a.code (by
          rw [airports_values (asc "iata") Airport.code iata_values (as := [a]) (by rw [List.map_cons, List.map_nil, hr]; rfl)]; rfl)
      have hq : q = 10 := by
        rcases country_declares d1 with ⟨_, e⟩ | ⟨_, e⟩ | ⟨_, e⟩
        · simp at e
        · simp at e
        · simpa using e
      subst hq
      rw [airports_values (asc "iata") Airport.code iata_values hrows] at d3
      rw [show BitVec.ofInt 8 10 = 10#8 by decide] at d2
      refine ⟨c0, c, n, d2, d3, d4, ?_⟩
      rw [hask _ _ p4, show Collation.read env.lib (compile Demo.country) [⟨asc "iata", [asc "uniquecount"]⟩] buf = _ from d5]
      exact congrArg Reply.ok (render_one env usCrit (asc "iata") (asc "uniquecount") _)

/-- the state of the program after these airports were posted, one request each -/
def afterAirports (env : Env) (as : List Airport) : List Store := (serveAll env Demo.stores ((airportSteps as).map Step.request)).1

/-- the answers for a list of airports with 1315 members, heights from -54 to 9078 and a count of 38 -/
theorem airports_readme (env : Env) (hord : ∀ l, (env.ord l).Perm l) (hd : ParsesDoubles env.lib) (hp : ∀ h : Int, h.natAbs < 1000000000000000 → env.lib.parseFloat (decimalText h) = some (F64.ofInt h))
    (us : List Airport) (hok : ∀ b ∈ us, b.Ok) (hn : us.length = 1315) (lo hi : Int) (hlo : -2 ^ 53 ≤ lo) (hhi : hi ≤ 2 ^ 53) (h1 : ∀ a ∈ us, lo ≤ a.height ∧ a.height ≤ hi)
    (h2 : (us.any fun a => a.height == lo) = true) (h3 : (us.any fun a => a.height == hi) = true) {k : Int}
    (hc : ∃ c0 c, Hll.new 10#8 = .val c0 ∧ runHll c0 ((us.map Airport.code).map some) = .val c ∧ Hll.count env.lib.log c = .val k) :
    (Server.serve env (afterAirports env us) (askFor (asc "country") askCount)).2 = .ok (echo usCrit ++ countLine env 1315) ∧
    (Server.serve env (afterAirports env us) (askFor (asc "country") askMin)).2 = .ok (echo usCrit ++ measureLine env (asc "min") (asc "height") (F64.ofInt lo)) ∧
    (Server.serve env (afterAirports env us) (askFor (asc "country") askMax)).2 = .ok (echo usCrit ++ measureLine env (asc "max") (asc "height") (F64.ofInt hi)) ∧
    (Server.serve env (afterAirports env us) (askFor (asc "country") askCodes)).2 = .ok (echo usCrit ++ measureLine env (asc "uniquecount") (asc "iata") (F64.ofInt k)) := by
  obtain ⟨b, hb, eb⟩ := List.any_eq_true.1 h2
  obtain ⟨d, hd', ed⟩ := List.any_eq_true.1 h3
  obtain ⟨c0', c', g0, g, g1⟩ := hc
  cases us with
  | nil => simp at hn
  | cons a as =>
    obtain ⟨x1, x2, x3, c0, c, n, x4, x5, x6, x7⟩ := airports_answers env hord hd hp a as hok lo hi hlo hhi h1 ⟨b, hb, beq_iff_eq.1 eb⟩ ⟨d, hd', beq_iff_eq.1 ed⟩ (afterAirports env (a :: as)) rfl
    rw [g0] at x4
    obtain rfl := Out.val.inj x4
    rw [g] at x5
    obtain rfl := Out.val.inj x5
    rw [g1] at x6
    obtain rfl := Out.val.inj x6
    rw [hn] at x1
    exact ⟨x1, x2, x3, x7⟩

theorem low_bound : -2 ^ 53 ≤ (-54 : Int) := by norm_num
theorem high_bound : (9078 : Int) ≤ 2 ^ 53 := by norm_num

/-- **C15** fails of the program, on the example of README.md itself: the 1315 airports of the United States in misc/airports.sh have 1315 different codes, and after posting
them (each is accepted) the answers are count(*)=1315, min(height)=-54, max(height)=9078 and uniquecount(iata)=38, which is what README.md prints. At precision 10 an error of
about 3 percent is what the algorithm would give. -/
theorem C15_readme_refuted (env : Env) (hord : ∀ l, (env.ord l).Perm l) (hl : LogOk env.lib.log) (hd : ParsesDoubles env.lib)
    (hp : ∀ h : Int, h.natAbs < 1000000000000000 → env.lib.parseFloat (decimalText h) = some (F64.ofInt h)) :
    usAirports.length = 1315 ∧ (usAirports.map Airport.code).Nodup ∧
    (∀ r ∈ (serveAll env Demo.stores ((airportSteps usAirports).map Step.request)).2, r = .ok []) ∧
    (Server.serve env (afterAirports env usAirports) (askFor (asc "country") askCount)).2 = .ok (echo usCrit ++ countLine env 1315) ∧
    (Server.serve env (afterAirports env usAirports) (askFor (asc "country") askMin)).2 = .ok (echo usCrit ++ measureLine env (asc "min") (asc "height") (F64.ofInt (-54))) ∧
    (Server.serve env (afterAirports env usAirports) (askFor (asc "country") askMax)).2 = .ok (echo usCrit ++ measureLine env (asc "max") (asc "height") (F64.ofInt 9078)) ∧
    (Server.serve env (afterAirports env usAirports) (askFor (asc "country") askCodes)).2 = .ok (echo usCrit ++ measureLine env (asc "uniquecount") (asc "iata") (F64.ofInt 38)) :=
  ⟨us_length, us_codes, accepted_ok (airports_accepted env (fun h hh => by rw [hp h hh]; simp) us_ok),
    airports_readme env hord hd hp usAirports us_ok us_length (-54) 9078 low_bound high_bound us_heights.1 us_heights.2.1 us_heights.2.2 (us_count env.lib.log hl)⟩

/-! ### an instance -/

theorem decimalValue_digits (n x : Nat) (h : x < 10 ^ n) (ys : Bytes) : decimalValue (digitBytes n x ++ ys) = x * 10 ^ ys.length + decimalValue ys := by
  induction n generalizing x ys with
  | zero =>
    have : x = 0 := by simpa using h
    simp [digitBytes, this]
  | succ n ih =>
    rw [digitBytes, List.append_assoc]
    have hd : ∀ d, d < 10 → (BitVec.ofNat 8 (48 + d)).toNat - 0x30 = d := by decide
    have h1 : decimalValue (BitVec.ofNat 8 (48 + x % 10) :: ys) = x % 10 * 10 ^ ys.length + decimalValue ys := by
      rw [decimalValue, hd _ (Nat.mod_lt _ (by decide))]
    split
    · next hx =>
      rw [List.nil_append, List.singleton_append, h1, Nat.mod_eq_of_lt hx]
    · rw [ih (x / 10) (by rw [Nat.pow_succ] at h; omega), List.singleton_append, h1, List.length_cons, Nat.pow_succ]
      have := Nat.div_add_mod x 10
      calc x / 10 * (10 ^ ys.length * 10) + (x % 10 * 10 ^ ys.length + decimalValue ys)
          = (10 * (x / 10) + x % 10) * 10 ^ ys.length + decimalValue ys := by ring
        _ = _ := by rw [this]

/-- reads whole numbers (and calls everything else one, too) -/
def readWhole (s : Bytes) : Option F64 := some (F64.ofInt (if s.head? = some 0x2d then -(decimalValue s.tail : Int) else decimalValue s))

theorem digitBytes_head (n x : Nat) : (digitBytes n x).head? ≠ some 0x2d := by
  intro h
  have hm := List.mem_of_head? h
  have : ∀ n x, ∀ b ∈ digitBytes n x, 48 ≤ b.toNat := by
    intro n
    induction n with
    | zero => simp [digitBytes]
    | succ n ih =>
      intro x b hb
      rw [digitBytes] at hb
      have hd : ∀ d, d < 10 → 48 ≤ (BitVec.ofNat 8 (48 + d)).toNat := by decide
      rcases List.mem_append.1 hb with hb | hb
      · split at hb
        · simp at hb
        · exact ih _ b hb
      · rw [List.mem_singleton.1 hb]
        exact hd _ (Nat.mod_lt _ (by decide))
  have := this n x _ hm
  simp at this

theorem readWhole_decimal (h : Int) (hh : h.natAbs < 1000000000000000) : readWhole (decimalText h) = some (F64.ofInt h) := by
  have hv : decimalValue (digitBytes 20 h.natAbs) = h.natAbs := by
    have := decimalValue_digits 20 h.natAbs (by omega) []
    rw [List.append_nil] at this
    rw [this]
    simp [decimalValue]
  unfold readWhole decimalText
  split
  · next h0 =>
    rw [List.head?_cons, if_pos rfl, List.tail_cons, hv]
    congr 2
    omega
  · next h0 =>
    rw [if_neg (digitBytes_head _ _), hv]
    congr 2
    omega

/-- there is an environment as in C15_readme_refuted -/
example : ∃ env : Env, (∀ l, (env.ord l).Perm l) ∧ LogOk env.lib.log ∧ ParsesDoubles env.lib ∧
    ∀ h : Int, h.natAbs < 1000000000000000 → env.lib.parseFloat (decimalText h) = some (F64.ofInt h) := by
  refine ⟨⟨⟨refLog, readWhole⟩, fun s => .ok s, fun _ => [], id⟩, fun l => .refl l, refLog_ok, ?_, fun h hh => readWhole_decimal h hh⟩
  intro s x e
  obtain rfl := Option.some.inj e
  exact isDouble_iff.2 (F64.wf_mk _ _ _ Nat.one_pos)

end Starbow.Props
