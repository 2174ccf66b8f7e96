import Verif.Props.DisplacedConc
import Verif.Props.DisplacedServer
/-
An instance of the laws of C66 for keys out of their home slot: "LT" and "ZZ" have the same home slot in the program.
-/
namespace Starbow.Props
open Starbow.Collation Starbow.Spec Starbow.Storage Starbow.Server Starbow.ServerConc Starbow.BufmapConc Starbow.Cell Starbow.Probe

/-- the observation `0;country=c;height=v` -/
def heightIn (c v : Bytes) : Line := ⟨asc "0", 0x3b, [⟨asc "country", c⟩, ⟨asc "height", v⟩]⟩

/-- a post of a height that is accepted -/
theorem heightIn_post (env : Env) (os : List Obs) {c v : Bytes} (hcor : (heightIn c v).Correct) (hx : env.lib.parseFloat v ≠ none) {k : U64}
    (hkey : keyValue (seenHeight c v).row.data Demo.country.keys = some k) (h0 : k ≠ 0)
    (htz : keyValue (seenHeight c v).row.data Demo.tz.keys = none)
    (hroom : slotAfter Demo.country.keys Demo.slots os k ≠ none ∨
      ∃ j, j ≤ maxReprobe ∧ (writes env.lib (newStore Demo.country Demo.slots) os).1.backend.keyAt (pos Demo.slots k j) = 0) :
    Server.serve env [(writes env.lib (newStore Demo.country Demo.slots) os).1, newStore Demo.tz Demo.slots] (Step.posted [heightIn c v]).request =
      ([(writes env.lib (newStore Demo.country Demo.slots) (os ++ [seenHeight c v])).1, newStore Demo.tz Demo.slots], .ok []) := by
  have hp := line_parse hcor
  rw [show (⟨(decimalValue (heightIn c v).ts : Int) * 1000, (heightIn c v).fs⟩ : Row) = (seenHeight c v).row by
    unfold seenHeight heightIn
    simp only
    rw [show (decimalValue (asc "0") : Int) * 1000 = 0 by decide +kernel]] at hp
  obtain ⟨L, D, pos, h, hD⟩ := laid_compile Demo.country country_valid
  obtain ⟨st, hst⟩ : ∃ st, st = (writes env.lib (newStore Demo.country Demo.slots) os).1 := ⟨_, rfl⟩
  have hg := good_writes (l := Demo.slots) env.lib h os (good_new h (by decide))
  have hw := write_plain env.lib h hD hg (seenHeight c v).row hkey h0 (by
      rcases hroom with hr | hr
      · left
        rw [slot_run env.lib h (by decide) os h0]
        exact hr
      · exact .inr hr) (height_all_plain hx _)
  have htw : write env.lib (newStore Demo.tz Demo.slots) false (seenHeight c v).row = (newStore Demo.tz Demo.slots, .ret none) := by
    have : keyValue (seenHeight c v).row.data (newStore Demo.tz Demo.slots).coll.keys = none := by
      rw [show (newStore Demo.tz Demo.slots).coll.keys = Demo.tz.keys by unfold newStore; exact compile_keys Demo.tz]
      exact htz
    unfold write
    rw [this]
  rw [(writes_append env.lib os _ _).1]
  rw [← hst] at hw ⊢
  have := C43_line env [st, newStore Demo.tz Demo.slots] (heightIn c v).text ⟨hcor.no_newline, hcor.fits⟩ (seenHeight c v).row hp (by
    intro st hst
    simp only [List.mem_cons, List.not_mem_nil, or_false] at hst
    rcases hst with rfl | rfl
    · exact hw
    · rw [htw])
  rw [show (Step.posted [heightIn c v]).request = post ((heightIn c v).text ++ [0x0a]) by simp [Step.request, unlines], this]
  rw [List.map_cons, List.map_cons, List.map_nil, htw, writes_one env.lib _ (seenHeight c v), show (seenHeight c v).canceled = false from rfl]

/-- a slot no key has taken is empty -/
theorem empty_slot (lib : Lib) (os : List Obs) {x : Nat} (hx : x < Demo.slots)
    (h : ((seating Demo.slots (keysOf Demo.country.keys os)).all fun p => p.2 ≠ x) = true) :
    (writes lib (newStore Demo.country Demo.slots) os).1.backend.keyAt x = 0 := by
  obtain ⟨L, D, pos, hL, hD⟩ := laid_compile Demo.country country_valid
  by_contra hne
  have hg := good_writes (l := Demo.slots) lib hL os (good_new hL (by decide))
  have hs := (Bufmap.slotOf_eq hg.wf hne).2 ⟨hx, rfl⟩
  rw [slot_run lib hL (by decide) os hne] at hs
  unfold slotAfter Seating.slot at hs
  rw [Option.map_eq_some_iff] at hs
  obtain ⟨p, hp, hpx⟩ := hs
  have := List.all_eq_true.1 h p (List.mem_of_find?_eq_some hp)
  simp [hpx] at this

/-- "LT" and "ZZ" have the same home slot -/
def twinSteps : List Step :=
  [.posted [heightIn (asc "LT") (asc "1")], .posted [heightIn (asc "ZZ") (asc "5")], .posted [heightIn (asc "ZZ") (asc "3")]]

theorem twin_correct : ∀ st ∈ twinSteps, st.Correct := by
  intro st hst
  simp only [twinSteps, List.mem_cons, List.not_mem_nil, or_false] at hst
  rcases hst with rfl | rfl | rfl <;>
  · intro l hl
    rw [List.mem_singleton.1 hl]
    exact ⟨by decide +kernel, by decide +kernel, by decide +kernel, by decide +kernel, by decide +kernel, by decide +kernel, by decide +kernel,
      by decide +kernel, by decide +kernel, by decide +kernel⟩

def zzText : Bytes := asc "select max(height) where country='ZZ'"

theorem zzText_parse (ord : List FM → List FM) (hord : ∀ l, (ord l).Perm l) :
    Query.roughParse ord zzText = .ok ⟨[⟨asc "height", [asc "max"]⟩], [⟨asc "country", asc "ZZ"⟩]⟩ := by
  rw [roughParse_ord ord (q := ⟨[⟨asc "height", [asc "max"]⟩], [⟨asc "country", asc "ZZ"⟩]⟩) (by decide +kernel),
    List.perm_singleton.1 (hord _)]

theorem zz_key : keyValue [⟨asc "country", asc "ZZ"⟩] Demo.country.keys = some 12582580692448214245 := by decide +kernel

theorem serveAll_three (env : Env) {S A B T : List Store} {r r' r'' : Request} {p p' p'' : Reply} (h : Server.serve env S r = (A, p))
    (h' : Server.serve env A r' = (B, p')) (h'' : Server.serve env B r'' = (T, p'')) :
    serveAll env S [r, r', r''] = (T, [p, p', p'']) := by
  rw [serveAll, serveAll, serveAll, serveAll, h]
  simp only
  rw [h']
  simp only
  rw [h'']

theorem twin_requests : twinSteps.map Step.request = [(Step.posted [heightIn (asc "LT") (asc "1")]).request,
    (Step.posted [heightIn (asc "ZZ") (asc "5")]).request, (Step.posted [heightIn (asc "ZZ") (asc "3")]).request] := rfl

/-- one after the other: the greatest of the heights 5 and 3 of "ZZ" is said to be 3 -/
theorem zz_asked (env : Env) (hord : ∀ l, (env.ord l).Perm l) (hld : ParsesDoubles env.lib) {x y : F64} (hx : env.lib.parseFloat (asc "5") = some x)
    (hy : env.lib.parseFloat (asc "3") = some y) {A B T : List Store}
    (p1 : Server.serve env ([] ++ newStore Demo.country Demo.slots :: [newStore Demo.tz Demo.slots]) (Step.posted [heightIn (asc "LT") (asc "1")]).request = (A, .ok []))
    (p2 : Server.serve env A (Step.posted [heightIn (asc "ZZ") (asc "5")]).request = (B, .ok []))
    (p3 : Server.serve env B (Step.posted [heightIn (asc "ZZ") (asc "3")]).request = (T, .ok [])) :
    Server.serve env T (askFor (asc "country") zzText) =
      (T, .ok (echo [⟨asc "country", asc "ZZ"⟩] ++ measureLine env (asc "max") (asc "height") y)) := by
  have hall := serveAll_three env p1 p2 p3
  obtain ⟨rows, buf, h1, hlen, _, h2, h3⟩ := (C59_server_law env Demo.country country_valid country_name Demo.slots (by decide) [] [newStore Demo.tz Demo.slots] (by simp)
    twinSteps twin_correct (by
      rw [twin_requests, hall]
      exact .cons rfl (.cons rfl (.cons rfl .nil))) [⟨asc "country", asc "ZZ"⟩] 12582580692448214245 zz_key (by decide)).2 4246 (by decide +kernel)
  rw [show ((observations twinSteps).filter fun fs => keyValue fs Demo.country.keys = some 12582580692448214245) =
    [(heightIn (asc "ZZ") (asc "5")).fs, (heightIn (asc "ZZ") (asc "3")).fs] by decide +kernel] at h1
  have h3 := h3 _ _ (zzText_parse env.ord hord)
  have hsz : buf.length = 900 := by rw [hlen, country_size]; rfl
  rw [twin_requests, hall, if_neg (by rw [country_size]; decide),
    List.take_of_length_le (by rw [hsz]; decide), hsz, show 900 - 4246 = 0 from rfl, List.replicate_zero, List.append_nil] at h3
  have hnum : numbersOf env.lib (asc "height") rows = [x, y] := by
    rw [numbersOf_data, h1]
    unfold numbersIn heightIn
    simp only [List.flatten_cons, List.flatten_nil, List.append_nil, List.cons_append, List.nil_append, List.filterMap_cons, List.filterMap_nil]
    rw [if_neg (by decide +kernel), if_pos (by decide +kernel), hx, hy]
    simp
  have key := (C59_firsts env.lib hld Demo.country country_valid rows buf (h2 (by decide)) (asc "height")).2.2.2.2.1 maxAsk_declares
  rw [hnum] at key
  refine Prod.ext (asked_same env _ _ _ country_name) ?_
  refine h3.trans ?_
  rw [show Collation.read env.lib (compile Demo.country) [⟨asc "height", [asc "max"]⟩] buf = _ from key]
  exact congrArg Reply.ok (render_one env _ _ _ _)

/-- **C66 fails** in the program without any concurrency, and an instance of C66_displaced_server and C66_displaced_last: there is a run of the demo program in
which a height of "LT" and then the heights 5 and 3 of "ZZ" have been posted, and the query for max(height) of "ZZ" has then been answered,
with 3; the hypotheses of those theorems hold there. -/
theorem C66_twin_refuted (env : Env) (hord : ∀ l, (env.ord l).Perm l) (hld : ParsesDoubles env.lib) {u x y : F64} (hu : env.lib.parseFloat (asc "1") = some u)
    (hx : env.lib.parseFloat (asc "5") = some x) (hy : env.lib.parseFloat (asc "3") = some y) :
    ∃ σ₁ σ₀ σ, ServerConc.Steps env demoConfs ServerConc.init σ₁ ∧ ServerConc.Steps env demoConfs σ₁ σ₀ ∧ ServerConc.Steps env demoConfs σ₀ σ ∧
    Unwrapped σ ∧ σ.reqs = (twinSteps ++ [Step.other (askFor (asc "country") zzText)]).map Step.request ∧
    (∀ j ls, (twinSteps ++ [Step.other (askFor (asc "country") zzText)])[j]? = some (.posted ls) → Acked σ₀ j) ∧ σ₀.reqs.length ≤ 3 ∧ Acked σ₁ 0 ∧
    (∀ o fs, obsAt (twinSteps ++ [Step.other (askFor (asc "country") zzText)]) o = some fs → AgreeOn Demo.country.keys fs [⟨asc "country", asc "ZZ"⟩] →
      σ₁.reqs.length ≤ o.1) ∧
    (3, .ok (echo [⟨asc "country", asc "ZZ"⟩] ++ measureLine env (asc "max") (asc "height") y)) ∈ σ.replies := by
  have hpos : ∀ c ∈ demoConfs, 0 < c.slots := by
    intro c hc
    simp only [demoConfs, List.mem_cons, List.not_mem_nil, or_false] at hc
    rcases hc with rfl | rfl <;> (show 0 < Demo.slots; decide)
  have p1 := heightIn_post env [] (c := asc "LT") (v := asc "1") (twin_correct (.posted [heightIn (asc "LT") (asc "1")]) (by simp [twinSteps]) _ (by simp)) (by rw [hu]; simp)
    (k := 12582596085611009245) (by decide +kernel) (by decide) (by decide +kernel) (.inr (room_new (by decide) _))
  have p2 := heightIn_post env ([] ++ [seenHeight (asc "LT") (asc "1")]) (c := asc "ZZ") (v := asc "5")
    (twin_correct (.posted [heightIn (asc "ZZ") (asc "5")]) (by simp [twinSteps]) _ (by simp)) (by rw [hx]; simp)
    (k := 12582580692448214245) (by decide +kernel) (by decide) (by decide +kernel)
    (.inr ⟨1, by decide, empty_slot env.lib _ (by decide +kernel) (by decide +kernel)⟩)
  have p3 := heightIn_post env (([] ++ [seenHeight (asc "LT") (asc "1")]) ++ [seenHeight (asc "ZZ") (asc "5")]) (c := asc "ZZ") (v := asc "3")
    (twin_correct (.posted [heightIn (asc "ZZ") (asc "3")]) (by simp [twinSteps]) _ (by simp)) (by rw [hy]; simp)
    (k := 12582580692448214245) (by decide +kernel) (by decide) (by decide +kernel) (.inl (by decide +kernel))
  rw [show (writes env.lib (newStore Demo.country Demo.slots) []).1 = newStore Demo.country Demo.slots from rfl] at p1
  obtain ⟨A, hA⟩ : ∃ S, S = [(writes env.lib (newStore Demo.country Demo.slots) ([] ++ [seenHeight (asc "LT") (asc "1")])).1, newStore Demo.tz Demo.slots] := ⟨_, rfl⟩
  obtain ⟨B, hB⟩ : ∃ S, S = [(writes env.lib (newStore Demo.country Demo.slots) (([] ++ [seenHeight (asc "LT") (asc "1")]) ++ [seenHeight (asc "ZZ") (asc "5")])).1,
    newStore Demo.tz Demo.slots] := ⟨_, rfl⟩
  obtain ⟨T, hT⟩ : ∃ S, S = [(writes env.lib (newStore Demo.country Demo.slots) ((([] ++ [seenHeight (asc "LT") (asc "1")]) ++ [seenHeight (asc "ZZ") (asc "5")]) ++
    [seenHeight (asc "ZZ") (asc "3")])).1, newStore Demo.tz Demo.slots] := ⟨_, rfl⟩
  rw [← hA] at p1 p2
  rw [← hB] at p2 p3
  rw [← hT] at p3
  clear hA hB hT
  have hans := zz_asked env hord hld hx hy (by rw [List.nil_append]; exact p1) p2 p3
  obtain ⟨σ₁, a1, a2, a3, a4, a5, a6, a7⟩ := C68_alone env demoConfs hpos ServerConc.init (.refl _) 0 rfl (fun _ => rfl) Demo.stores demo_agrees
    _ A _ (by rw [show Demo.stores = [newStore Demo.country Demo.slots, newStore Demo.tz Demo.slots] from rfl]; exact p1) (by simp) (by simp)
  obtain ⟨σ₂, b1, b2, b3, b4, b5, b6, b7⟩ := C68_alone env demoConfs hpos σ₁ a1 1 (by rw [a5]; rfl) (fun s => by rw [a6]; rfl) A a2 _ B _ p2
    (by simp) (by simp)
  obtain ⟨σ₀, c1, c2, c3, c4, c5, c6, c7⟩ := C68_alone env demoConfs hpos σ₂ (a1.trans b1) 2 (by rw [b5, a5]; rfl) (fun s => by rw [b6, a6]; rfl) B b2 _ T _ p3
    (by simp) (by simp)
  obtain ⟨σ, d1, d2, d3, d4, d5, d6, d7⟩ := C68_alone env demoConfs hpos σ₀ ((a1.trans b1).trans c1) 3 (by rw [c5, b5, a5]; rfl) (fun s => by rw [c6, b6, a6]; rfl)
    T c2 _ _ _ hans (by simp) (by simp)
  refine ⟨σ₁, σ₀, σ, a1, b1.trans c1, d1, ?_, ?_, ?_, ?_, ?_, ?_, ?_⟩
  · intro s i buf d hm
    rcases d7 s i true buf d hm with h | rfl
    · rcases c7 s i true buf d h with h | rfl
      · rcases b7 s i true buf d h with h | rfl
        · rcases a7 s i true buf d h with h | rfl
          · simp [ServerConc.init, StoreConc.init, BufmapConc.init] at h
          · decide
        · decide
      · decide
    · decide
  · rw [d3, c3, b3, a3]; simp [twinSteps, Step.request, ServerConc.init]
  · intro j ls hj
    unfold twinSteps at hj
    unfold Acked
    rw [c4, b4, a4, b3, a3]
    match j with
    | 0 => simp [ServerConc.init]
    | 1 => simp [ServerConc.init]
    | 2 => simp [ServerConc.init]
    | 3 => simp at hj
    | j + 4 => simp at hj
  · rw [c3, b3, a3]; simp [ServerConc.init]
  · unfold Acked; rw [a4]; simp [ServerConc.init]
  · rintro ⟨j, p⟩ fs ho hag
    rw [a3]
    simp only [ServerConc.init, List.nil_append, List.length_singleton]
    rcases j with _ | j
    · exfalso
      rcases p with _ | p
      · have : obsAt (twinSteps ++ [Step.other (askFor (asc "country") zzText)]) (0, 0) = some (heightIn (asc "LT") (asc "1")).fs := rfl
        rw [this] at ho
        obtain rfl := Option.some.inj ho
        exact absurd hag (by decide +kernel)
      · simp [obsAt, twinSteps, Step.posts] at ho
    · omega
  · rw [d4, c3, b3, a3]
    exact List.mem_append_right _ (List.mem_singleton.2 rfl)

/-- the remaining hypotheses of C66_displaced_last -/
example : keyValue (heightIn (asc "LT") (asc "1")).fs Demo.country.keys = some 12582596085611009245 ∧
    (12582596085611009245 : U64).toNat % Demo.slots = (12582580692448214245 : U64).toNat % Demo.slots ∧
    ∀ x ∈ candidates Demo.slots 12582580692448214245, x ≠ (12582580692448214245 : U64).toNat % Demo.slots → (compile Demo.country).size.toNat ≤ x := by
  rw [country_size]
  decide +kernel

end Starbow.Props
