import Verif.Props.DisplacedServer
import Verif.Props.AcceptedDemo
/-
Instance of the law of C59: a country displaced from its home slot, in the program.
-/
namespace Starbow.Props
open Starbow.Collation Starbow.Spec Starbow.Storage Starbow.Server

/-- a measure whose bytes are among the first x is read as from the whole record -/
theorem ask_cut (lib : Lib) (sch : Schema) (hv : ValidSchema sch) {f n : Bytes} {r : Cell} (hr : readerAt (compile sch) f n = some r) {buf : Bytes}
    (hlen : buf.length = (compile sch).size.toNat) {x : Nat} (hx : r.high.toNat ≤ x) :
    Collation.read lib (compile sch) [⟨f, [n]⟩] (buf.take x ++ List.replicate (buf.length - x) 0#8) = ask lib (compile sch) buf f n := by
  obtain ⟨L, D, pos, h, hD⟩ := laid_compile sch hv
  have hin : InRec (compile sch).size.toNat r := by
    obtain ⟨_, _, o, w, hm, e1, e2, _, _⟩ := h.reader f _ r hr
    have := inRec h hm
    exact ⟨e1 ▸ this.low, by rw [← e1, ← e2]; exact this.le, e2 ▸ this.high⟩
  show ask lib (compile sch) (seen x buf) f n = _
  have hhi : r.high.toNat ≤ buf.length := by
    have := hin.high
    omega
  rw [ask_reply lib hr, ask_reply lib hr, cell_read_eq lib hin (by rw [seen_length]; exact hlen), cell_read_eq lib hin hlen, slice_seen hx hhi]

def uzHeight (v : Bytes) : List FV := [⟨asc "country", asc "UZ"⟩, ⟨asc "height", v⟩]

/-- the query for max(height) -/
def uzMax : Bytes := asc "select max(height) where country='UZ'"

def gtUz : List (List FV) := [gt, uzHeight (asc "5"), uzHeight (asc "3")]

theorem gtUz_facts : (∀ fs ∈ gtUz, Plainly fs) ∧
    slotAfter Demo.country.keys Demo.slots (gtUz.map obsOf) 12582601583169150300 = some 300 ∧
    slotAfter Demo.country.keys Demo.slots (gtUz.map obsOf) 12582586190006355300 = some 301 ∧
    (gtUz.filter fun fs => keyValue fs Demo.country.keys = some 12582586190006355300) = [uzHeight (asc "5"), uzHeight (asc "3")] ∧
    (∀ fs ∈ gtUz, keyValue fs Demo.country.keys = some 12582601583169150300 ∨ keyValue fs Demo.country.keys = some 12582586190006355300) ∧
    (∀ fs ∈ gtUz, ∀ fv ∈ fs, fv.f = asc "height" → fv.v = asc "5" ∨ fv.v = asc "3") ∧
    (∀ fs ∈ gtUz, ∀ fv ∈ fs, fv.f ≠ asc "iata" ∧ fv.f ≠ asc "tz") ∧
    keyValue [⟨asc "country", asc "UZ"⟩] Demo.country.keys = some 12582586190006355300 := by decide +kernel

theorem gtUz_accepted (env : Env) (h5 : env.lib.parseFloat (asc "5") = some (F64.ofNat 5)) (h3 : env.lib.parseFloat (asc "3") = some (F64.ofNat 3)) :
    AllAccepted env gtUz := by
  obtain ⟨f1, f2, f3, f4, f5, f6, f7, f8⟩ := gtUz_facts
  have hC := C86_server env demoColls demoColls_valid (oneByOne gtUz) (oneByOne_correct f1)
  simp only [demoColls_stores, oneByOne_obs] at hC
  refine hC.2 ?_
  intro c hc fs hfs hk
  simp only [demoColls, List.mem_cons, List.not_mem_nil, or_false] at hc
  rcases hc with rfl | rfl
  · refine ⟨?_, ?_, ?_, ?_⟩
    · simp only
      rcases f5 fs hfs with e | e <;> (rw [e]; decide)
    · intro k hk
      simp only at hk ⊢
      rcases f5 fs hfs with e | e <;> (rw [e] at hk; rw [← Option.some.inj hk])
      · rw [f2]; simp
      · rw [f3]; simp
    · intro fv hfv m hd hm
      rcases country_declares hd with ⟨_, e⟩ | ⟨e, _⟩ | ⟨_, e⟩
      · exact absurd e hm.1
      · rcases f6 fs hfs fv hfv e with e | e <;> rw [e]
        · rw [h5]; simp
        · rw [h3]; simp
      · exact absurd e (hm.2 10)
    · intro k _ _ fv hfv p hd
      rcases country_declares hd with ⟨_, e⟩ | ⟨_, e⟩ | ⟨e, _⟩
      · simp at e
      · simp at e
      · exact absurd e (f7 fs hfs fv hfv).1
  · exfalso
    obtain ⟨fv, hfv, e⟩ := hk (asc "tz") (by simp [Demo.tz])
    exact (f7 fs hfs fv hfv).2 e

theorem uzMax_parse (env : Env) (hord : ∀ l, (env.ord l).Perm l) :
    Query.roughParse env.ord uzMax = .ok ⟨[⟨asc "height", [asc "max"]⟩], [⟨asc "country", asc "UZ"⟩]⟩ := by
  rw [roughParse_ord env.ord (q := ⟨[⟨asc "height", [asc "max"]⟩], [⟨asc "country", asc "UZ"⟩]⟩) (by decide +kernel),
    List.perm_singleton.1 (hord _)]

theorem uz_numbers (lib : Lib) (v : Bytes) {x : F64} (hx : lib.parseFloat v = some x) (obs : List (List FV)) :
    numbersIn lib (asc "height") (uzHeight v :: obs) = x :: numbersIn lib (asc "height") obs := by
  unfold numbersIn uzHeight
  rw [List.flatten_cons, List.filterMap_append]
  simp only [List.filterMap_cons, List.filterMap_nil]
  rw [if_neg (by decide +kernel), if_pos (by decide +kernel), hx]
  rfl

/-- max(height) of UZ when it is in slot 301 -/
theorem uz_max (env : Env) (hord : ∀ l, (env.ord l).Perm l) (hl : ParsesDoubles env.lib) {obs mine : List (List FV)} (hpl : ∀ fs ∈ obs, Plainly fs)
    (hacc : AllAccepted env obs) (hs : slotAfter Demo.country.keys Demo.slots (obs.map obsOf) 12582586190006355300 = some 301)
    (hm : (obs.filter fun fs => keyValue fs Demo.country.keys = some 12582586190006355300) = mine) :
    (Server.serve env (afterPosts env obs) (askFor (asc "country") uzMax)).2 =
      .ok (echo [⟨asc "country", asc "UZ"⟩] ++ measureLine env (asc "max") (asc "height") ((numbersIn env.lib (asc "height") mine).getLastD (.fin false 0))) := by
  have := (C59_server_law env Demo.country country_valid country_name Demo.slots (by decide) [] [newStore Demo.tz Demo.slots] (by simp) (oneByOne obs)
    (oneByOne_correct hpl) hacc [⟨asc "country", asc "UZ"⟩] 12582586190006355300 gtUz_facts.2.2.2.2.2.2.2 (by decide)).2 301 (by rw [oneByOne_obs]; exact hs)
  rw [oneByOne_obs, hm] at this
  obtain ⟨rows, buf, e1, e2, _, e4, e5⟩ := this
  have e4 := e4 (by decide)
  have e5 := e5 _ _ (uzMax_parse env hord)
  rw [country_size, if_neg (by decide), ask_cut env.lib Demo.country country_valid height_reader e2 (by decide)] at e5
  refine Eq.trans e5 ?_
  have hmax := (C59_firsts env.lib hl Demo.country country_valid rows buf e4 (asc "height")).2.2.2.2.1 height_declares
  rw [hmax, numbersOf_data, e1]
  exact congrArg Reply.ok (render_one env _ _ _ _)

/-- **C59 refuted**, over HTTP: in the program, after posts of GT, of UZ with height 5 and of UZ with height 3, all accepted, the query for max(height) of UZ is
answered with 3. -/
theorem C59_http_refuted (env : Env) (hord : ∀ l, (env.ord l).Perm l) (hl : ParsesDoubles env.lib)
    (h5 : env.lib.parseFloat (asc "5") = some (F64.ofNat 5)) (h3 : env.lib.parseFloat (asc "3") = some (F64.ofNat 3)) :
    AllAccepted env gtUz ∧ (Server.serve env (afterPosts env gtUz) (askFor (asc "country") uzMax)).2 =
      .ok (echo [⟨asc "country", asc "UZ"⟩] ++ measureLine env (asc "max") (asc "height") (F64.ofNat 3)) := by
  obtain ⟨f1, f2, f3, f4, f5, f6, f7, f8⟩ := gtUz_facts
  have hacc := gtUz_accepted env h5 h3
  refine ⟨hacc, ?_⟩
  rw [uz_max env hord hl f1 hacc f3 f4, uz_numbers _ _ h5, uz_numbers _ _ h3]
  rfl

end Starbow.Props
