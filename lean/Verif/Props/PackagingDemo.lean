import Verif.Props.Packaging
import Verif.Props.ReadPanic
/-
Instances of C84 and C26_trace in the program, and the refutation of C84 for refused observations.
-/
namespace Starbow.Props
open Starbow.Collation Starbow.Spec Starbow.Storage Starbow.Server

/-- an observation of a country and an airport -/
def cdgRow : Row := ⟨0, [⟨asc "country", asc "FR"⟩, ⟨asc "iata", asc "CDG"⟩]⟩
/-- an observation of a country alone -/
def frRow : Row := ⟨0, [⟨asc "country", asc "FR"⟩]⟩

theorem cdg_key : keyValue cdgRow.data Demo.country.keys = some 12582602682680778473 ∧
    keyValue cdgRow.data Demo.tz.keys = none := by decide +kernel

theorem frRow_key : keyValue frRow.data Demo.country.keys = some 12582602682680778473 := by decide +kernel

theorem no_numbers (lib : Lib) (d : List FV) (h : ∀ fv ∈ d, fv.f ≠ asc "height") :
    ∀ fv ∈ d, ∀ m, Declares Demo.country fv.f m → m.continuousInput = true → lib.parseFloat fv.v ≠ none := by
  intro fv hfv m hd hm
  exfalso
  rcases country_declares hd with ⟨_, e⟩ | ⟨e, _⟩ | ⟨_, e⟩
  · subst e; simp [Measure.continuousInput] at hm
  · simp_all
  · subst e; simp [Measure.continuousInput] at hm

theorem cdg_write (lib : Lib) : (write lib (newStore Demo.country Demo.slots) false cdgRow).2 = .ret none :=
  (write_first lib country_valid (by decide) cdgRow cdg_key.1 (by decide) (no_numbers lib _ (by decide +kernel))).1

theorem frRow_write (lib : Lib) : (write lib (newStore Demo.country Demo.slots) false frRow).2 = .ret none :=
  (write_first lib country_valid (by decide) frRow frRow_key (by decide) (no_numbers lib _ (by decide +kernel))).1

/-- an observation with a height that is no number, after the fields `d` and before the fields `rest`: what the country store makes of it -/
theorem bad_height (lib : Lib) (hx : lib.parseFloat (asc "x") = none) (d rest : List FV) (k : U64)
    (hk : keyValue d Demo.country.keys = some k) (hk' : keyValue (d ++ ⟨asc "height", asc "x"⟩ :: rest) Demo.country.keys = some k)
    (hacc : (write lib (newStore Demo.country Demo.slots) false ⟨0, d⟩).2 = .ret none) :
    write lib (newStore Demo.country Demo.slots) false ⟨0, d ++ ⟨asc "height", asc "x"⟩ :: rest⟩ =
      ((writes lib (newStore Demo.country Demo.slots) [⟨⟨0, d⟩, false⟩]).1, .ret (some .parseFloat)) := by
  have := C26_trace lib Demo.country country_valid Demo.slots (by decide) [] 0 0 d ⟨asc "height", asc "x"⟩ rest .sum rfl
    (.inr ⟨by decide +kernel, _, .head _, by decide +kernel⟩) hx k hk hk' hacc
  rw [show (writes lib (newStore Demo.country Demo.slots) []).1 = newStore Demo.country Demo.slots from rfl] at this
  rw [this]
  rfl

theorem bad_post (env : Env) (line : Bytes) (hline : LineOk line) (d rest : List FV) (k : U64)
    (hp : parseRow (noCR line) = .val (.ok ⟨0, d ++ ⟨asc "height", asc "x"⟩ :: rest⟩)) (hx : env.lib.parseFloat (asc "x") = none)
    (hk : keyValue d Demo.country.keys = some k) (hk' : keyValue (d ++ ⟨asc "height", asc "x"⟩ :: rest) Demo.country.keys = some k)
    (hacc : (write env.lib (newStore Demo.country Demo.slots) false ⟨0, d⟩).2 = .ret none) :
    Server.serve env Demo.stores (post (line ++ [0x0a])) =
      ([(writes env.lib (newStore Demo.country Demo.slots) [⟨⟨0, d⟩, false⟩]).1, newStore Demo.tz Demo.slots], .refused 500) := by
  have hb := bad_height env.lib hx d rest k hk hk' hacc
  have := C43_store_fails env [] [newStore Demo.tz Demo.slots] (newStore Demo.country Demo.slots) line hline _ hp (by simp) (by
    rw [hb]; simp)
  rw [hb] at this
  rw [show Demo.stores = [] ++ newStore Demo.country Demo.slots :: [newStore Demo.tz Demo.slots] from rfl, this]
  rfl

theorem iata_query (ord : List FM → List FM) (hord : ∀ l, (ord l).Perm l) :
    Query.roughParse ord (asc "select uniquecount(iata) where country='FR'") =
      .ok (uniqueQuery (asc "iata") [⟨asc "country", asc "FR"⟩]) := by
  rw [parse_id ord (show Query.roughParse id (asc "select uniquecount(iata) where country='FR'") =
    .ok (uniqueQuery (asc "iata") [⟨asc "country", asc "FR"⟩]) by decide +kernel)]
  unfold uniqueQuery
  simp only
  rw [ord_one hord]

/-- the number of airports of FR after the first observation of FR -/
theorem iata_read (lib : Lib) (r : Row) (hk : keyValue r.data Demo.country.keys = some 12582602682680778473)
    (hw : (write lib (newStore Demo.country Demo.slots) false r).2 = .ret none) : ∃ buf, RecordOf lib (compile Demo.country) [r] buf ∧
    Storage.read lib (writes lib (newStore Demo.country Demo.slots) [⟨r, false⟩]).1 (uniqueQuery (asc "iata") [⟨asc "country", asc "FR"⟩]) =
      answer (ask lib (compile Demo.country) buf (asc "iata") (asc "uniquecount")) := by
  have hrows : rowsWith Demo.country.keys 12582602682680778473 [⟨r, false⟩] = [r] := by
    simp [rowsWith, hk]
  obtain ⟨buf, h1, h2⟩ := C59_home_partial lib Demo.country country_valid Demo.slots (by decide) [⟨r, false⟩] (by
    intro p hp
    rw [writes, writes] at hp
    simp only [List.mem_singleton] at hp
    rw [hp]; exact hw) (apart_one _ _ _) 12582602682680778473 (by decide) (by rw [hrows]; simp) (by rw [country_size]; decide) (by rw [country_size]; decide)
  rw [hrows] at h1
  exact ⟨buf, h1, h2 _ frRow_key⟩

theorem iata_served (env : Env) (hord : ∀ l, (env.ord l).Perm l) (r : Row) (b : Store) :
    (Server.serve env [(writes env.lib (newStore Demo.country Demo.slots) [⟨r, false⟩]).1, b]
      (askFor (asc "country") (asc "select uniquecount(iata) where country='FR'"))).2 =
    replyOf env (uniqueQuery (asc "iata") [⟨asc "country", asc "FR"⟩]) (Storage.read env.lib
      (writes env.lib (newStore Demo.country Demo.slots) [⟨r, false⟩]).1 (uniqueQuery (asc "iata") [⟨asc "country", asc "FR"⟩])) := by
  have hask := ask_serve env [] [b] (writes env.lib (newStore Demo.country Demo.slots) [⟨r, false⟩]).1 (asc "country") _ country_name (by simp)
    (by rw [writes_coll]; exact compile_name Demo.country) _ (iata_query env.ord hord)
  rw [List.nil_append] at hask
  have hans := store_answers env (writes env.lib (newStore Demo.country Demo.slots) [⟨r, false⟩]).1 [b]
  rw [show (writes env.lib (newStore Demo.country Demo.slots) [⟨r, false⟩]).1.coll.name = asc "country" by
    rw [writes_coll]; exact compile_name Demo.country] at hans
  rw [hask, hans]

/-- **C84 fails** for refused observations (and so does **C26**): the same observation, with a height that is no number, is refused in either order of its
fields, but if the airport comes before the height, the airport is recorded all the same, and a query of the airports of FR is answered; if it comes after
the height, it is not, and the query is refused. -/
theorem C84_refused_refuted (env : Env) (hord : ∀ l, (env.ord l).Perm l) (hx : env.lib.parseFloat (asc "x") = none) :
    ((Server.serve env Demo.stores (post (asc "0;country=FR;iata=CDG;height=x\n"))).2 = .refused 500 ∧
      ∃ text, (Server.serve env (Server.serve env Demo.stores (post (asc "0;country=FR;iata=CDG;height=x\n"))).1
        (askFor (asc "country") (asc "select uniquecount(iata) where country='FR'"))).2 = .ok text) ∧
    ((Server.serve env Demo.stores (post (asc "0;country=FR;height=x;iata=CDG\n"))).2 = .refused 500 ∧
      (Server.serve env (Server.serve env Demo.stores (post (asc "0;country=FR;height=x;iata=CDG\n"))).1
        (askFor (asc "country") (asc "select uniquecount(iata) where country='FR'"))).2 = .refused 500) := by
  have hd : Declares Demo.country (asc "iata") (.cardinality 10) := .inr ⟨by decide +kernel, _, .tail _ (.head _), by decide +kernel⟩
  have h1 := bad_post env (asc "0;country=FR;iata=CDG;height=x") ⟨by decide +kernel, by decide +kernel⟩ cdgRow.data [] 12582602682680778473
    (by decide +kernel) hx cdg_key.1 (by decide +kernel) (cdg_write env.lib)
  have h2 := bad_post env (asc "0;country=FR;height=x;iata=CDG") ⟨by decide +kernel, by decide +kernel⟩ frRow.data [⟨asc "iata", asc "CDG"⟩]
    12582602682680778473 (by decide +kernel) hx frRow_key (by decide +kernel) (frRow_write env.lib)
  rw [show asc "0;country=FR;iata=CDG;height=x\n" = asc "0;country=FR;iata=CDG;height=x" ++ [0x0a] by decide +kernel, h1,
    show asc "0;country=FR;height=x;iata=CDG\n" = asc "0;country=FR;height=x;iata=CDG" ++ [0x0a] by decide +kernel, h2]
  refine ⟨⟨rfl, ?_⟩, rfl, ?_⟩
  · simp only
    rw [iata_served env hord]
    obtain ⟨buf, hr, hread⟩ := iata_read env.lib ⟨0, cdgRow.data⟩ cdg_key.1 (cdg_write env.lib)
    obtain ⟨q, c0, c, n, _, _, _, _, ha⟩ := (C25_uniquecount_law env.lib Demo.country country_valid (asc "iata") 10 hd _ [] buf hr).1 [] (asc "CDG")
      (by decide +kernel)
    rw [hread, ha]
    exact ⟨_, rfl⟩
  · simp only
    rw [iata_served env hord]
    obtain ⟨buf, hr, hread⟩ := iata_read env.lib ⟨0, frRow.data⟩ frRow_key (frRow_write env.lib)
    obtain ⟨_, ha⟩ := (C25_uniquecount_law env.lib Demo.country country_valid (asc "iata") 10 hd _ [] buf hr).2 (by decide +kernel)
    rw [hread, ha]
    rfl

/-! ### instances -/

/-- instance of C84_partial: the observation of FR and CDG sent at once, and sent in another order of the fields, with another timestamp and delimiter,
between other requests -/
example (env : Env) :
    let one : Step := .posted [⟨asc "0", 0x3b, [⟨asc "country", asc "FR"⟩, ⟨asc "iata", asc "CDG"⟩]⟩]
    let two : Step := .posted [⟨asc "1700000000", 0x2c, [⟨asc "iata", asc "CDG"⟩, ⟨asc "country", asc "FR"⟩]⟩]
    (serveAll env Demo.stores ([Step.posted [], .other (askFor (asc "tz") (asc "nonsense")), two].map Step.request)).1 =
      (serveAll env Demo.stores ([one].map Step.request)).1 := by
  intro one two
  have correct : ∀ l : Line, l.ts ≠ [] → (∀ b ∈ l.ts, Digit b) → l.ts.length ≤ 20 → decimalValue l.ts * 1000 < 2 ^ 63 → ¬ Digit l.d → l.d ≠ 0x3d →
      (∀ f ∈ l.fs, (l.d ∉ f.f) ∧ (0x3d ∉ f.f) ∧ l.d ∉ f.v) → (0x0a ∉ l.text) → l.text.getLast? ≠ some 0x0d → l.text.length ≤ 65535 → l.Correct :=
    fun l a b c d e f g h i j => ⟨a, b, c, d, e, f, g, h, i, j⟩
  have h1 : ∀ l ∈ [(⟨asc "0", 0x3b, [⟨asc "country", asc "FR"⟩, ⟨asc "iata", asc "CDG"⟩]⟩ : Line)], l.Correct := by
    intro l hl
    rw [List.mem_singleton] at hl
    subst hl
    apply correct <;> decide +kernel
  have h2 : ∀ l ∈ [(⟨asc "1700000000", 0x2c, [⟨asc "iata", asc "CDG"⟩, ⟨asc "country", asc "FR"⟩]⟩ : Line)], l.Correct := by
    intro l hl
    rw [List.mem_singleton] at hl
    subst hl
    apply correct <;> decide +kernel
  refine (C84_partial env [(Demo.country, Demo.slots), (Demo.tz, Demo.slots)] ?_ [one] _ ?_ ?_ ?_ ?_).2
  · intro c hc
    simp only [List.mem_cons, List.not_mem_nil, or_false] at hc
    rcases hc with rfl | rfl
    · exact ⟨country_valid, by decide⟩
    · exact ⟨gsh_valid, by decide⟩
  · intro s hs
    rw [List.mem_singleton] at hs
    subst hs
    exact h1
  · intro s hs
    simp only [List.mem_cons, List.not_mem_nil, or_false] at hs
    rcases hs with rfl | rfl | rfl
    · intro l hl; simp at hl
    · exact fun h => absurd h.2 (by decide +kernel)
    · exact h2
  · exact .cons (sameOrder_perm (List.Perm.swap _ _ _) (by decide +kernel)) .nil
  · refine .cons ?_ .nil
    have hserve := post_first env (asc "0;country=FR;iata=CDG") ⟨by decide +kernel, by decide +kernel⟩ cdgRow (by decide +kernel) (by
      intro st hst
      rw [show Demo.stores = [newStore Demo.country Demo.slots, newStore Demo.tz Demo.slots] from rfl] at hst
      simp only [List.mem_cons, List.not_mem_nil, or_false] at hst
      rcases hst with rfl | rfl
      · exact cdg_write env.lib
      · rw [write_skipped env.lib Demo.tz Demo.slots cdgRow cdg_key.2])
    show (Server.serve env Demo.stores (post (unlines _))).2 = .ok []
    rw [show unlines (List.map Line.text [⟨asc "0", 0x3b, [⟨asc "country", asc "FR"⟩, ⟨asc "iata", asc "CDG"⟩]⟩]) =
      asc "0;country=FR;iata=CDG" ++ [0x0a] by decide +kernel, hserve]

/-- instances of C84_split, C84_newline, C84_crlf and C84_blank_refuted -/
example (env : Env) : Server.serve env Demo.stores (post (asc "0;country=Poland;iata=WAW\n" ++ asc "rubbish")) =
      Server.serve env (Server.serve env Demo.stores (post (asc "0;country=Poland;iata=WAW\n"))).1 (post (asc "rubbish")) ∧
    Server.serve env Demo.stores (post (asc "0;country=Poland;iata=WAW")) = Server.serve env Demo.stores (post (asc "0;country=Poland;iata=WAW\n")) ∧
    Server.serve env Demo.stores (post (asc "0;country=Poland;iata=WAW\x0d\n")) = Server.serve env Demo.stores (post (asc "0;country=Poland;iata=WAW\n")) ∧
    (Server.serve env Demo.stores (post (asc "0;country=Poland;iata=WAW\n\n"))).2 = .refused 500 := by
  refine ⟨?_, ?_, ?_, ?_⟩
  · rw [C84_split env Demo.stores _ (asc "rubbish") (.inr (by decide +kernel)), if_pos (by rw [poland_post env])]
  · rw [← C84_newline env Demo.stores (asc "0;country=Poland;iata=WAW") (by decide +kernel) (by decide +kernel)]
    congr 2
  · have := C84_crlf env Demo.stores [asc "0;country=Poland;iata=WAW"] (by
      intro l hl
      rw [List.mem_singleton] at hl
      subst hl
      exact ⟨by decide +kernel, by decide +kernel, by decide +kernel⟩)
    rw [show unlines ([asc "0;country=Poland;iata=WAW"].map (· ++ [0x0d])) = asc "0;country=Poland;iata=WAW\x0d\n" by decide +kernel,
      show unlines [asc "0;country=Poland;iata=WAW"] = asc "0;country=Poland;iata=WAW\n" by decide +kernel] at this
    exact this
  · have e : asc "0;country=Poland;iata=WAW\n" = asc "0;country=Poland;iata=WAW" ++ [0x0a] := by decide +kernel
    have hp := poland_post env
    rw [e] at hp
    have := C84_blank_refuted env Demo.stores (asc "0;country=Poland;iata=WAW") (by rw [hp])
    rw [show asc "0;country=Poland;iata=WAW\n\n" = asc "0;country=Poland;iata=WAW" ++ [0x0a] ++ [0x0a] by decide +kernel, this]

end Starbow.Props
