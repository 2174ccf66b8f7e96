import Verif.Props.Order
import Verif.Props.ServerLive
import Verif.Props.BloomRate
/-
C85 and C86 in the program: refutations and instances.
-/
namespace Starbow.Props
open Starbow.Collation Starbow.Spec Starbow.Storage Starbow.Server

/-- each observation in a request of its own -/
def oneByOne (obs : List (List FV)) : List Step := obs.map fun fs => .posted [⟨asc "0", 0x3b, fs⟩]

theorem oneByOne_obs (obs : List (List FV)) : observations (oneByOne obs) = obs := by
  induction obs with
  | nil => rfl
  | cons fs obs ih =>
    show [fs] ++ observations (oneByOne obs) = fs :: obs
    rw [ih]
    rfl

/-- fields that can be written down with semicolons -/
def Plainly (fs : List FV) : Prop :=
  (∀ fv ∈ fs, (0x3b ∉ fv.f) ∧ (0x3d ∉ fv.f) ∧ 0x3b ∉ fv.v) ∧ (0x0a ∉ (⟨asc "0", 0x3b, fs⟩ : Line).text) ∧
    (⟨asc "0", 0x3b, fs⟩ : Line).text.getLast? ≠ some 0x0d ∧ (⟨asc "0", 0x3b, fs⟩ : Line).text.length ≤ 65535

instance (fs : List FV) : Decidable (Plainly fs) := by unfold Plainly; infer_instance

theorem oneByOne_correct {obs : List (List FV)} (h : ∀ fs ∈ obs, Plainly fs) : ∀ s ∈ oneByOne obs, s.Correct := by
  intro s hs
  obtain ⟨fs, hfs, rfl⟩ := List.mem_map.1 hs
  intro l hl
  rw [List.mem_singleton] at hl
  subst hl
  obtain ⟨h1, h2, h3, h4⟩ := h fs hfs
  have f1 : asc "0" ≠ [] ∧ (∀ b ∈ asc "0", Digit b) ∧ (asc "0").length ≤ 20 ∧ decimalValue (asc "0") * 1000 < 2 ^ 63 ∧ ¬ Digit 0x3b ∧ (0x3b : Byte) ≠ 0x3d := by
    decide +kernel
  exact ⟨f1.1, f1.2.1, f1.2.2.1, f1.2.2.2.1, f1.2.2.2.2.1, f1.2.2.2.2.2, h1, h2, h3, h4⟩

def demoColls : List (Schema × Nat) := [(Demo.country, Demo.slots), (Demo.tz, Demo.slots)]

theorem demoColls_valid : ∀ c ∈ demoColls, ValidSchema c.1 ∧ 0 < c.2 := by
  intro c hc
  simp only [demoColls, List.mem_cons, List.not_mem_nil, or_false] at hc
  rcases hc with rfl | rfl
  · exact ⟨country_valid, by decide⟩
  · exact ⟨tz_valid, by decide⟩

theorem demoColls_stores : (demoColls.map fun c => newStore c.1 c.2) = Demo.stores := rfl

/-- observations of FR without a time zone -/
def OfFR (obs : List (List FV)) : Prop := ∀ fs ∈ obs, valueOf fs (asc "country") = some (asc "FR") ∧ valueOf fs (asc "tz") = none

instance (obs : List (List FV)) : Decidable (OfFR obs) := by unfold OfFR; infer_instance

theorem ofFR_keys {obs : List (List FV)} (h : OfFR obs) : ∀ fs ∈ obs, ¬ WithKeys Demo.tz.keys fs := by
  intro fs hfs hk
  exact valueOf_ne_none.2 (hk (asc "tz") (by simp [Demo.tz])) (h fs hfs).2

theorem ofFR_agree {obs : List (List FV)} (h : OfFR obs) : ∀ x ∈ obs, ∀ y ∈ obs, AgreeOn Demo.country.keys x y := by
  intro x hx y hy key hkey
  have : key = asc "country" := by simpa [Demo.country] using hkey
  subst this
  rw [(h x hx).1, (h y hy).1]

theorem ofFR_apart {obs : List (List FV)} (h : OfFR obs) : ∀ c ∈ demoColls, KeysApart c.1.keys c.2 obs := by
  intro c hc
  simp only [demoColls, List.mem_cons, List.not_mem_nil, or_false] at hc
  rcases hc with rfl | rfl
  · intro x hx y hy _ _ _ _ _
    exact ofFR_agree h x hx y hy
  · intro x hx y hy kx ky hkx _ _
    exact absurd (withKeys_iff.2 ⟨kx, hkx⟩) (ofFR_keys h x hx)

theorem ofFR_key {fs : List FV} (h : valueOf fs (asc "country") = some (asc "FR")) : keyValue fs Demo.country.keys = some 12582602682680778473 := by
  rw [← fr_key]
  apply C28_key
  intro key hkey
  have : key = asc "country" := by simpa [Demo.country] using hkey
  subst this
  rw [h]
  decide +kernel

/-- in the program, observations of FR without time zone are accepted if and only if the heights are numbers and, if an airport occurs at all, it occurs in the first -/
theorem ofFR_accepted (env : Env) {obs : List (List FV)} (h : OfFR obs) (hpl : ∀ fs ∈ obs, Plainly fs) :
    List.Forall₂ Step.Accepted (oneByOne obs) (serveAll env Demo.stores ((oneByOne obs).map Step.request)).2 ↔
      (∀ fs ∈ obs, ∀ fv ∈ fs, fv.f = asc "height" → env.lib.parseFloat fv.v ≠ none) ∧
      (∀ g rest, obs = g :: rest → (∃ fs ∈ obs, ∃ fv ∈ fs, fv.f = asc "iata") → ∃ fv ∈ g, fv.f = asc "iata") := by
  have hC := C86_apart env demoColls demoColls_valid (oneByOne obs) (oneByOne_correct hpl) (by rw [oneByOne_obs]; exact ofFR_apart h)
  rw [demoColls_stores, oneByOne_obs] at hC
  rw [hC]
  have hall : ∀ fs ∈ obs, (obs.filter fun x => AgreeOn Demo.country.keys x fs) = obs := by
    intro fs hfs
    rw [List.filter_eq_self]
    intro x hx
    exact decide_eq_true (ofFR_agree h x hx fs hfs)
  constructor
  · intro hs
    have hs1 : ∀ fs ∈ obs, Suits env.lib Demo.country obs fs := fun fs hfs =>
      hs (Demo.country, Demo.slots) (by simp [demoColls]) fs hfs (withKeys_iff.2 ⟨_, ofFR_key (h fs hfs).1⟩)
    refine ⟨?_, ?_⟩
    · intro fs hfs fv hfv e
      exact (hs1 fs hfs).number fv hfv .sum (by rw [e]; exact fr_declares) ⟨by simp, by simp⟩
    · rintro g rest e ⟨fs, hfs, fv, hfv, ef⟩
      have := (hs1 fs hfs).first fv hfv 10 (by rw [ef]; exact .inr ⟨by decide +kernel, _, .tail _ (.head _), by decide +kernel⟩) g rest (by rw [hall fs hfs, e])
      rwa [ef] at this
  · rintro ⟨h1, h2⟩ c hc fs hfs hk
    simp only [demoColls, List.mem_cons, List.not_mem_nil, or_false] at hc
    rcases hc with rfl | rfl
    · refine ⟨?_, ?_, ?_⟩
      · simp only
        rw [ofFR_key (h fs hfs).1]
        decide
      · intro fv hfv m hd hm
        rcases country_declares hd with ⟨_, e⟩ | ⟨e, _⟩ | ⟨_, e⟩
        · exact absurd e hm.1
        · exact h1 fs hfs fv hfv e
        · exact absurd e (hm.2 10)
      · intro fv hfv p hd g rest hg
        simp only at hg
        rw [hall fs hfs] at hg
        rcases country_declares hd with ⟨_, e⟩ | ⟨_, e⟩ | ⟨e, _⟩
        · simp at e
        · simp at e
        · rw [e]
          exact h2 g rest hg ⟨fs, hfs, fv, hfv, e⟩
    · exact absurd hk (ofFR_keys h fs hfs)

/-! ### what the program says about FR -/

/-- a query about FR -/
def AsksFR (env : Env) (text : Bytes) (sel : List FM) : Prop := Query.roughParse env.ord text = .ok ⟨sel, [⟨asc "country", asc "FR"⟩]⟩

theorem ofFR_crit {obs : List (List FV)} (h : OfFR obs) : KeysApart Demo.country.keys Demo.slots ([⟨asc "country", asc "FR"⟩] :: obs) := by
  intro x hx y hy _ _ _ _ _ key hkey
  have : key = asc "country" := by simpa [Demo.country] using hkey
  subst this
  have h0 : valueOf [⟨asc "country", asc "FR"⟩] (asc "country") = some (asc "FR") := by decide +kernel
  have hv : ∀ z ∈ [⟨asc "country", asc "FR"⟩] :: obs, valueOf z (asc "country") = some (asc "FR") := by
    intro z hz
    rcases List.mem_cons.1 hz with rfl | hz
    · exact h0
    · exact (h z hz).1
  rw [hv x hx, hv y hy]

theorem ofFR_filter {obs : List (List FV)} (h : OfFR obs) : (obs.filter fun fs => AgreeOn Demo.country.keys fs [⟨asc "country", asc "FR"⟩]) = obs := by
  rw [List.filter_eq_self]
  intro x hx
  refine decide_eq_true ?_
  have hk := ofFR_key (h x hx).1
  exact ofFR_crit h x (by simp [hx]) _ (by simp) _ _ hk fr_key rfl

/-- the program after the observations, each posted in a request of its own -/
def afterPosts (env : Env) (obs : List (List FV)) : List Store := (serveAll env Demo.stores ((oneByOne obs).map Step.request)).1

/-- all these posts are accepted -/
def AllAccepted (env : Env) (obs : List (List FV)) : Prop :=
  List.Forall₂ Step.Accepted (oneByOne obs) (serveAll env Demo.stores ((oneByOne obs).map Step.request)).2

theorem ofFR_answer (env : Env) {obs : List (List FV)} (h : OfFR obs) (hpl : ∀ fs ∈ obs, Plainly fs) (hne : obs ≠ []) (hacc : AllAccepted env obs) :
    ∃ rows buf, rows.map Row.data = obs ∧ RecordOf env.lib (compile Demo.country) rows buf ∧ ∀ text sel, AsksFR env text sel →
      (Server.serve env (afterPosts env obs) (askFor (asc "country") text)).2 =
        resultReply env [⟨asc "country", asc "FR"⟩] (Collation.read env.lib (compile Demo.country) sel buf) := by
  have := C59_server_partial env Demo.country country_valid country_name Demo.slots (by decide) [] [newStore Demo.tz Demo.slots] (by simp) (oneByOne obs)
    (oneByOne_correct hpl) hacc [⟨asc "country", asc "FR"⟩] (by rw [oneByOne_obs]; exact ofFR_crit h) 12582602682680778473 fr_key (by decide)
    (by rw [country_size]; decide) (by rw [country_size]; decide) (by rw [oneByOne_obs, ofFR_filter h]; exact hne)
  rw [oneByOne_obs, ofFR_filter h] at this
  exact this

/-- FR with a height -/
def frHeight (v : Bytes) : List FV := [⟨asc "country", asc "FR"⟩, ⟨asc "height", v⟩]

/-- FR without anything -/
def frBare : List FV := [⟨asc "country", asc "FR"⟩]

/-- FR with an airport -/
def frIata (v : Bytes) : List FV := [⟨asc "country", asc "FR"⟩, ⟨asc "iata", v⟩]

theorem frHeight_numbers (lib : Lib) (v : Bytes) {x : F64} (hx : lib.parseFloat v = some x) (obs : List (List FV)) :
    numbersIn lib (asc "height") (frHeight v :: obs) = x :: numbersIn lib (asc "height") obs := by
  unfold numbersIn frHeight
  rw [List.flatten_cons, List.filterMap_append]
  simp only [List.filterMap_cons, List.filterMap_nil]
  rw [if_neg (by decide +kernel), if_pos (by decide +kernel), hx]
  rfl

theorem frBare_numbers (lib : Lib) (obs : List (List FV)) : numbersIn lib (asc "height") (frBare :: obs) = numbersIn lib (asc "height") obs := by
  unfold numbersIn frBare
  rw [List.flatten_cons, List.filterMap_append]
  simp only [List.filterMap_cons, List.filterMap_nil]
  rw [if_neg (by decide +kernel)]
  rfl

theorem ofFR_sum (env : Env) (hord : ∀ l, (env.ord l).Perm l) {obs : List (List FV)} (h : OfFR obs) (hpl : ∀ fs ∈ obs, Plainly fs) (hne : obs ≠ [])
    (hacc : AllAccepted env obs) : (Server.serve env (afterPosts env obs) (askFor (asc "country") frText)).2 =
      .ok (echo [⟨asc "country", asc "FR"⟩] ++ measureLine env (asc "sum") (asc "height") ((numbersIn env.lib (asc "height") obs).foldl F64.add (.fin false 0))) := by
  have := C59_server_values_partial env Demo.country country_valid country_name Demo.slots (by decide) [] [newStore Demo.tz Demo.slots] (by simp) (oneByOne obs)
    (oneByOne_correct hpl) hacc [⟨asc "country", asc "FR"⟩] (by rw [oneByOne_obs]; exact ofFR_crit h) 12582602682680778473 fr_key (by decide)
    (by rw [country_size]; decide) (by rw [country_size]; decide) (by rw [oneByOne_obs, ofFR_filter h]; exact hne)
    (asc "height") .sum (.inl rfl) fr_declares frText (frText_parse env.ord hord)
  rw [oneByOne_obs, ofFR_filter h] at this
  exact this

/-! ### refutations -/

/-- heights 2^53, 1, 1 -/
def bigFirst : List (List FV) := [frHeight (asc "9007199254740992"), frHeight (asc "1"), frHeight (asc "1")]

/-- heights 1, 1, 2^53 -/
def bigLast : List (List FV) := [frHeight (asc "1"), frHeight (asc "1"), frHeight (asc "9007199254740992")]

theorem big_ok : OfFR bigFirst ∧ OfFR bigLast ∧ (∀ fs ∈ bigFirst, Plainly fs) ∧ (∀ fs ∈ bigLast, Plainly fs) ∧
    (∀ fs ∈ bigFirst, ∀ fv ∈ fs, fv.f ≠ asc "iata") ∧ (∀ fs ∈ bigLast, ∀ fv ∈ fs, fv.f ≠ asc "iata") ∧
    (∀ fs ∈ bigFirst, ∀ fv ∈ fs, fv.f = asc "height" → fv.v = asc "9007199254740992" ∨ fv.v = asc "1") ∧
    (∀ fs ∈ bigLast, ∀ fv ∈ fs, fv.f = asc "height" → fv.v = asc "9007199254740992" ∨ fv.v = asc "1") := by decide +kernel

/-- **C85 refuted**, sums: in the program the heights 2^53, 1 and 1, each posted in a request of its own, are accepted in this order and in the opposite
one; but sum(height) is 2^53 in the first case and 2^53+2 in the second. -/
theorem C85_sum_refuted (env : Env) (hord : ∀ l, (env.ord l).Perm l) (h1 : env.lib.parseFloat (asc "1") = some (F64.ofNat 1))
    (h2 : env.lib.parseFloat (asc "9007199254740992") = some (F64.ofNat 9007199254740992)) :
    bigFirst.Perm bigLast ∧ AllAccepted env bigFirst ∧ AllAccepted env bigLast ∧
    (Server.serve env (afterPosts env bigFirst) (askFor (asc "country") frText)).2 =
      .ok (echo [⟨asc "country", asc "FR"⟩] ++ measureLine env (asc "sum") (asc "height") (F64.ofNat 9007199254740992)) ∧
    (Server.serve env (afterPosts env bigLast) (askFor (asc "country") frText)).2 =
      .ok (echo [⟨asc "country", asc "FR"⟩] ++ measureLine env (asc "sum") (asc "height") (F64.ofNat 9007199254740994)) ∧
    F64.ofNat 9007199254740992 ≠ F64.ofNat 9007199254740994 := by
  obtain ⟨a1, a2, a3, a4, a5, a6, a7, a8⟩ := big_ok
  have b1 : AllAccepted env bigFirst := by
    refine (ofFR_accepted env a1 a3).2 ⟨?_, ?_⟩
    · intro fs hfs fv hfv e
      rcases a7 fs hfs fv hfv e with e | e <;> rw [e]
      · rw [h2]; simp
      · rw [h1]; simp
    · rintro g rest - ⟨fs, hfs, fv, hfv, e⟩
      exact absurd e (a5 fs hfs fv hfv)
  have b2 : AllAccepted env bigLast := by
    refine (ofFR_accepted env a2 a4).2 ⟨?_, ?_⟩
    · intro fs hfs fv hfv e
      rcases a8 fs hfs fv hfv e with e | e <;> rw [e]
      · rw [h2]; simp
      · rw [h1]; simp
    · rintro g rest - ⟨fs, hfs, fv, hfv, e⟩
      exact absurd e (a6 fs hfs fv hfv)
  refine ⟨by decide +kernel, b1, b2, ?_, ?_, by decide +kernel⟩
  · rw [ofFR_sum env hord a1 a3 (by simp [bigFirst]) b1, bigFirst, frHeight_numbers _ _ h2, frHeight_numbers _ _ h1, frHeight_numbers _ _ h1]
    have : ([F64.ofNat 9007199254740992, F64.ofNat 1, F64.ofNat 1]).foldl F64.add (.fin false 0) = F64.ofNat 9007199254740992 := by decide +kernel
    rw [show numbersIn env.lib (asc "height") [] = [] from rfl, this]
  · rw [ofFR_sum env hord a2 a4 (by simp [bigLast]) b2, bigLast, frHeight_numbers _ _ h1, frHeight_numbers _ _ h1, frHeight_numbers _ _ h2]
    have : ([F64.ofNat 1, F64.ofNat 1, F64.ofNat 9007199254740992]).foldl F64.add (.fin false 0) = F64.ofNat 9007199254740994 := by decide +kernel
    rw [show numbersIn env.lib (asc "height") [] = [] from rfl, this]

/-- the query for max(height) -/
def maxText : Bytes := asc "select max(height) where country='FR'"

theorem maxText_parse (env : Env) (hord : ∀ l, (env.ord l).Perm l) : AsksFR env maxText [⟨asc "height", [asc "max"]⟩] := by
  unfold AsksFR
  rw [roughParse_ord env.ord (q := ⟨[⟨asc "height", [asc "max"]⟩], [⟨asc "country", asc "FR"⟩]⟩) (by decide +kernel),
    List.perm_singleton.1 (hord _)]

theorem max_declares : Declares Demo.country (asc "height") .max := .inr ⟨by simp, _, List.mem_cons_self .., by simp⟩

theorem bare_ok : OfFR [frBare, frHeight (asc "-5")] ∧ OfFR [frHeight (asc "-5"), frBare] ∧ (∀ fs ∈ [frBare, frHeight (asc "-5")], Plainly fs) ∧
    (∀ fs ∈ [frHeight (asc "-5"), frBare], Plainly fs) ∧ (∀ fs ∈ [frBare, frHeight (asc "-5")], ∀ fv ∈ fs, fv.f ≠ asc "iata") ∧
    (∀ fs ∈ [frBare, frHeight (asc "-5")], ∀ fv ∈ fs, fv.f = asc "height" → fv.v = asc "-5") := by decide +kernel

theorem max_read (env : Env) (hl : ParsesDoubles env.lib) {r : Row} {rows : List Row} {buf : Bytes} (hr : RecordOf env.lib (compile Demo.country) (r :: rows) buf)
    {first : F64} {xs : List F64} (h1 : (numbersOf env.lib (asc "height") [r]).getLastD (.fin false 0) = first)
    (h2 : numbersOf env.lib (asc "height") rows = xs) (hn : ∀ x ∈ first :: xs, x ≠ .nan) :
    ∃ x ∈ first :: xs, (∀ y ∈ first :: xs, F64.le y x = true) ∧
      resultReply env [⟨asc "country", asc "FR"⟩] (Collation.read env.lib (compile Demo.country) [⟨asc "height", [asc "max"]⟩] buf) =
        .ok (echo [⟨asc "country", asc "FR"⟩] ++ measureLine env (asc "max") (asc "height") x) := by
  subst h1 h2
  obtain ⟨x, e1, e2, e3⟩ := (C25_extreme_law env.lib hl Demo.country country_valid (asc "height") r rows buf hr hn).1 max_declares
  refine ⟨x, e2, e3, ?_⟩
  rw [show Collation.read env.lib (compile Demo.country) [⟨asc "height", [asc "max"]⟩] buf = _ from e1]
  exact congrArg Reply.ok (render_one env _ _ _ _)

/-- **C85 refuted**, extremes: in the program an observation of FR without height and one with height -5, each posted in a request of its own, are accepted in
both orders; but max(height) is 0 in one case and -5 in the other. -/
theorem C85_extreme_refuted (env : Env) (hord : ∀ l, (env.ord l).Perm l) (hl : ParsesDoubles env.lib)
    (h5 : env.lib.parseFloat (asc "-5") = some (F64.ofInt (-5))) :
    AllAccepted env [frBare, frHeight (asc "-5")] ∧ AllAccepted env [frHeight (asc "-5"), frBare] ∧
    (Server.serve env (afterPosts env [frBare, frHeight (asc "-5")]) (askFor (asc "country") maxText)).2 =
      .ok (echo [⟨asc "country", asc "FR"⟩] ++ measureLine env (asc "max") (asc "height") (F64.ofInt 0)) ∧
    (Server.serve env (afterPosts env [frHeight (asc "-5"), frBare]) (askFor (asc "country") maxText)).2 =
      .ok (echo [⟨asc "country", asc "FR"⟩] ++ measureLine env (asc "max") (asc "height") (F64.ofInt (-5))) := by
  obtain ⟨a1, a2, a3, a4, a5, a6⟩ := bare_ok
  have hsw : ∀ fs, fs ∈ [frHeight (asc "-5"), frBare] → fs ∈ [frBare, frHeight (asc "-5")] := by
    intro fs hfs
    simp only [List.mem_cons, List.not_mem_nil, or_false] at hfs ⊢
    tauto
  have b1 : AllAccepted env [frBare, frHeight (asc "-5")] := by
    refine (ofFR_accepted env a1 a3).2 ⟨?_, ?_⟩
    · intro fs hfs fv hfv e
      rw [a6 fs hfs fv hfv e, h5]; simp
    · rintro g rest - ⟨fs, hfs, fv, hfv, e⟩
      exact absurd e (a5 fs hfs fv hfv)
  have b2 : AllAccepted env [frHeight (asc "-5"), frBare] := by
    refine (ofFR_accepted env a2 a4).2 ⟨?_, ?_⟩
    · intro fs hfs fv hfv e
      rw [a6 fs (hsw fs hfs) fv hfv e, h5]; simp
    · rintro g rest - ⟨fs, hfs, fv, hfv, e⟩
      exact absurd e (a5 fs (hsw fs hfs) fv hfv)
  have hz : F64.ofInt 0 = .fin false 0 := by decide +kernel
  have hnn : F64.ofInt (-5) ≠ .nan := by decide +kernel
  have hnil : numbersIn env.lib (asc "height") [] = [] := rfl
  refine ⟨b1, b2, ?_, ?_⟩
  · obtain ⟨rows, buf, e1, e2, e3⟩ := ofFR_answer env a1 a3 (by simp) b1
    rw [e3 _ _ (maxText_parse env hord)]
    obtain ⟨r, rows, rfl⟩ := List.exists_cons_of_ne_nil (l := rows) (by rintro rfl; simp at e1)
    rw [List.map_cons] at e1
    obtain ⟨f1, f2⟩ := List.cons.inj e1
    obtain ⟨x, g1, g2, g3⟩ := max_read env hl e2 (first := .fin false 0) (xs := [F64.ofInt (-5)])
      (by rw [numbersOf_data, List.map_cons, f1, List.map_nil, frBare_numbers]; rfl)
      (by rw [numbersOf_data, f2, frHeight_numbers _ _ h5, hnil]) (by simp [hnn])
    rw [g3]
    rcases List.mem_cons.1 g1 with rfl | g1
    · rw [hz]
    · rw [List.mem_singleton] at g1
      subst g1
      have := g2 (.fin false 0) (by simp)
      exact absurd this (by decide +kernel)
  · obtain ⟨rows, buf, e1, e2, e3⟩ := ofFR_answer env a2 a4 (by simp) b2
    rw [e3 _ _ (maxText_parse env hord)]
    obtain ⟨r, rows, rfl⟩ := List.exists_cons_of_ne_nil (l := rows) (by rintro rfl; simp at e1)
    rw [List.map_cons] at e1
    obtain ⟨f1, f2⟩ := List.cons.inj e1
    obtain ⟨x, g1, g2, g3⟩ := max_read env hl e2 (first := F64.ofInt (-5)) (xs := [])
      (by rw [numbersOf_data, List.map_cons, f1, List.map_nil, frHeight_numbers _ _ h5, hnil]; rfl)
      (by rw [numbersOf_data, f2, frBare_numbers, hnil]) (by simp [hnn])
    rw [g3]
    rw [List.mem_singleton] at g1
    subst g1
    rfl

theorem cdg_ok : OfFR [frBare, frIata (asc "CDG")] ∧ OfFR [frIata (asc "CDG"), frBare] ∧ (∀ fs ∈ [frBare, frIata (asc "CDG")], Plainly fs) ∧
    (∀ fs ∈ [frIata (asc "CDG"), frBare], Plainly fs) ∧ (∀ fs ∈ [frIata (asc "CDG"), frBare], ∀ fv ∈ fs, fv.f ≠ asc "height") ∧
    (∃ fv ∈ frIata (asc "CDG"), fv.f = asc "iata") ∧ (∀ fv ∈ frBare, fv.f ≠ asc "iata") := by decide +kernel

/-- **C85 refuted**, acceptance: in the program an observation of FR without airport and one with the airport CDG, each posted in a request of its own, are
accepted if the one with the airport comes first, and not both accepted if it comes second. -/
theorem C85_unique_refuted (env : Env) : ¬ AllAccepted env [frBare, frIata (asc "CDG")] ∧ AllAccepted env [frIata (asc "CDG"), frBare] := by
  obtain ⟨a1, a2, a3, a4, a5, a6, a7⟩ := cdg_ok
  constructor
  · intro hacc
    obtain ⟨fv, h1, h2⟩ := ((ofFR_accepted env a1 a3).1 hacc).2 _ _ rfl ⟨frIata (asc "CDG"), by simp, a6⟩
    exact a7 fv h1 h2
  · refine (ofFR_accepted env a2 a4).2 ⟨?_, ?_⟩
    · intro fs hfs fv hfv e
      exact absurd e (a5 fs hfs fv hfv)
    · rintro g rest e -
      obtain ⟨rfl, -⟩ := List.cons.inj e
      exact a6

/-! ### instances -/

/-- heights 5 and 3, in both orders -/
theorem two_ok : OfFR [frHeight (asc "5"), frHeight (asc "3")] ∧ OfFR [frHeight (asc "3"), frHeight (asc "5")] ∧
    (∀ fs ∈ [frHeight (asc "5"), frHeight (asc "3")], Plainly fs) ∧ (∀ fs ∈ [frHeight (asc "3"), frHeight (asc "5")], Plainly fs) ∧
    (∀ fs ∈ [frHeight (asc "5"), frHeight (asc "3")], ∀ fv ∈ fs, fv.f ≠ asc "iata") ∧ Carried (asc "height") [frHeight (asc "5"), frHeight (asc "3")] := by
  refine ⟨by decide +kernel, by decide +kernel, by decide +kernel, by decide +kernel, by decide +kernel, ?_⟩
  intro fs hfs
  simp only [List.mem_cons, List.not_mem_nil, or_false] at hfs
  rcases hfs with rfl | rfl
  · exact ⟨asc "5", by decide +kernel⟩
  · exact ⟨asc "3", by decide +kernel⟩

theorem two_accepted (env : Env) (h5 : env.lib.parseFloat (asc "5") = some (F64.ofNat 5)) (h3 : env.lib.parseFloat (asc "3") = some (F64.ofNat 3)) :
    AllAccepted env [frHeight (asc "5"), frHeight (asc "3")] ∧ AllAccepted env [frHeight (asc "3"), frHeight (asc "5")] := by
  obtain ⟨a1, a2, a3, a4, a5, a6⟩ := two_ok
  have hv : ∀ fs ∈ [frHeight (asc "5"), frHeight (asc "3")], ∀ fv ∈ fs, fv.f = asc "height" → fv.v = asc "5" ∨ fv.v = asc "3" := by decide +kernel
  have hsw : ∀ fs, fs ∈ [frHeight (asc "3"), frHeight (asc "5")] → fs ∈ [frHeight (asc "5"), frHeight (asc "3")] := by
    intro fs hfs
    simp only [List.mem_cons, List.not_mem_nil, or_false] at hfs ⊢
    tauto
  have hp : ∀ v, v = asc "5" ∨ v = asc "3" → env.lib.parseFloat v ≠ none := by
    rintro v (rfl | rfl)
    · rw [h5]; simp
    · rw [h3]; simp
  constructor
  · refine (ofFR_accepted env a1 a3).2 ⟨fun fs hfs fv hfv e => hp _ (hv fs hfs fv hfv e), ?_⟩
    rintro g rest - ⟨fs, hfs, fv, hfv, e⟩
    exact absurd e (a5 fs hfs fv hfv)
  · refine (ofFR_accepted env a2 a4).2 ⟨fun fs hfs fv hfv e => hp _ (hv fs (hsw fs hfs) fv hfv e), ?_⟩
    rintro g rest - ⟨fs, hfs, fv, hfv, e⟩
    exact absurd e (a5 fs (hsw fs hfs) fv hfv)

theorem ofFR_order (env : Env) (hl : ParsesDoubles env.lib) {obs obs' : List (List FV)} (a1 : OfFR obs) (_a2 : OfFR obs') (a3 : ∀ fs ∈ obs, Plainly fs)
    (a4 : ∀ fs ∈ obs', Plainly fs) (b1 : AllAccepted env obs) (b2 : AllAccepted env obs') (hp : obs.Perm obs') (hne : obs ≠ [])
    {m : Measure} {text : Bytes} (hd : Declares Demo.country (asc "height") m) (hq : AsksFR env text [⟨asc "height", [m.name]⟩])
    (hfree : OrderFree env.lib (asc "height") obs m) :
    (Server.serve env (afterPosts env obs) (askFor (asc "country") text)).2 = (Server.serve env (afterPosts env obs') (askFor (asc "country") text)).2 := by
  refine C85_partial env hl Demo.country country_valid country_name Demo.slots (by decide) [] [newStore Demo.tz Demo.slots] []
    [newStore Demo.tz Demo.slots] (by simp) (by simp) _ _ (oneByOne_correct a3) (oneByOne_correct a4) b1 b2 ?_ [⟨asc "country", asc "FR"⟩] ?_
    12582602682680778473 fr_key (by decide) (by rw [country_size]; decide) (by rw [country_size]; decide) ?_ (asc "height") m hd ?_ text hq
  · rw [oneByOne_obs, oneByOne_obs]
    exact hp
  · rw [oneByOne_obs]; exact ofFR_crit a1
  · rw [oneByOne_obs, ofFR_filter a1]; exact hne
  · rw [oneByOne_obs, ofFR_filter a1]; exact hfree

theorem small_two {x y : F64} (h5 : value x = some ((5 : Int) : ℚ)) (h3 : value y = some ((3 : Int) : ℚ)) : SmallIntegers [x, y] := by
  constructor
  · intro z hz
    simp only [List.mem_cons, List.not_mem_nil, or_false] at hz
    rcases hz with rfl | rfl
    · exact ⟨5, h5⟩
    · exact ⟨3, h3⟩
  · rw [List.map_cons, List.map_cons, List.map_nil, h5, h3]
    norm_num

/-- instance of C85_partial: in the program, whether 5 or 3 comes first, the queries for sum(height) and max(height) are answered alike -/
example (env : Env) (hord : ∀ l, (env.ord l).Perm l) (hl : ParsesDoubles env.lib) (h5 : env.lib.parseFloat (asc "5") = some (F64.ofNat 5))
    (h3 : env.lib.parseFloat (asc "3") = some (F64.ofNat 3)) :
    (Server.serve env (afterPosts env [frHeight (asc "5"), frHeight (asc "3")]) (askFor (asc "country") frText)).2 =
      (Server.serve env (afterPosts env [frHeight (asc "3"), frHeight (asc "5")]) (askFor (asc "country") frText)).2 ∧
    (Server.serve env (afterPosts env [frHeight (asc "5"), frHeight (asc "3")]) (askFor (asc "country") maxText)).2 =
      (Server.serve env (afterPosts env [frHeight (asc "3"), frHeight (asc "5")]) (askFor (asc "country") maxText)).2 := by
  obtain ⟨a1, a2, a3, a4, a5, a6⟩ := two_ok
  obtain ⟨b1, b2⟩ := two_accepted env h5 h3
  have hnum : numbersIn env.lib (asc "height") [frHeight (asc "5"), frHeight (asc "3")] = [F64.ofNat 5, F64.ofNat 3] := by
    rw [frHeight_numbers _ _ h5, frHeight_numbers _ _ h3, show numbersIn env.lib (asc "height") [] = [] from rfl]
  have key : ∀ (m : Measure) (text : Bytes), Declares Demo.country (asc "height") m → AsksFR env text [⟨asc "height", [m.name]⟩] →
      OrderFree env.lib (asc "height") [frHeight (asc "5"), frHeight (asc "3")] m →
      (Server.serve env (afterPosts env [frHeight (asc "5"), frHeight (asc "3")]) (askFor (asc "country") text)).2 =
        (Server.serve env (afterPosts env [frHeight (asc "3"), frHeight (asc "5")]) (askFor (asc "country") text)).2 := by
    intro m text hd hq hfree
    exact ofFR_order env hl a1 a2 a3 a4 b1 b2 (.swap ..) (by simp) hd hq hfree
  refine ⟨key .sum _ fr_declares (frText_parse env.ord hord) ?_, key .max _ max_declares (maxText_parse env hord) ?_⟩
  · show SmallIntegers _
    have e5 := value_ofNat (k := 5) (by decide)
    have e3 := value_ofNat (k := 3) (by decide)
    rw [hnum]
    exact small_two (e5.trans (by norm_num)) (e3.trans (by norm_num))
  · refine ⟨a6, ?_⟩
    rw [hnum]
    have : ∀ x ∈ [F64.ofNat 5, F64.ofNat 3], x ≠ .nan ∧ x ≠ .fin true 0 := by decide +kernel
    exact this

theorem air_ok : OfFR [frIata (asc "CDG"), frIata (asc "ORY")] ∧ (∀ fs ∈ [frIata (asc "CDG"), frIata (asc "ORY")], Plainly fs) ∧
    (∀ fs ∈ [frIata (asc "ORY"), frIata (asc "CDG")], Plainly fs) ∧
    (∀ fs ∈ [frIata (asc "CDG"), frIata (asc "ORY")], ∀ fv ∈ fs, fv.f ≠ asc "height") ∧
    (∀ fs ∈ [frIata (asc "CDG"), frIata (asc "ORY")], ∃ fv ∈ fs, fv.f = asc "iata") := by decide +kernel

/-- instance of C86_apart and C85_accepted_partial: in the program the airports CDG and ORY of FR are accepted in this order (by C86), and so in the other -/
example (env : Env) : AllAccepted env [frIata (asc "CDG"), frIata (asc "ORY")] ∧ AllAccepted env [frIata (asc "ORY"), frIata (asc "CDG")] := by
  obtain ⟨a1, a3, a4, a5, a6⟩ := air_ok
  have b1 : AllAccepted env [frIata (asc "CDG"), frIata (asc "ORY")] := by
    refine (ofFR_accepted env a1 a3).2 ⟨fun fs hfs fv hfv e => absurd e (a5 fs hfs fv hfv), ?_⟩
    rintro g rest e -
    obtain ⟨rfl, -⟩ := List.cons.inj e
    exact a6 _ (by simp)
  refine ⟨b1, ?_⟩
  refine C85_accepted_partial env demoColls demoColls_valid (oneByOne [frIata (asc "CDG"), frIata (asc "ORY")]) _ (oneByOne_correct a3) (oneByOne_correct a4) ?_ ?_ ?_ ?_
  · rw [oneByOne_obs]; exact ofFR_apart a1
  · rw [oneByOne_obs, oneByOne_obs]; exact .swap ..
  · rw [oneByOne_obs]
    intro c hc f p hd fs hfs hk
    simp only [demoColls, List.mem_cons, List.not_mem_nil, or_false] at hc
    rcases hc with rfl | rfl
    · rcases country_declares hd with ⟨_, e⟩ | ⟨_, e⟩ | ⟨e, _⟩
      · simp at e
      · simp at e
      · rw [e]; exact a6 fs hfs
    · exact absurd hk (ofFR_keys a1 fs hfs)
  · rw [demoColls_stores]; exact b1

end Starbow.Props
