import Verif.Proof.ServerDriven
import Verif.Props.StoreRace
import Verif.Props.ServerStatsSeq
import Verif.Props.ServerAlone
/-
Property C66 at the HTTP interface, and the general fact behind it: every concurrent run of a store is a run of the server under
concurrent requests.
-/
namespace Starbow.Props
open Starbow Starbow.Collation Starbow.Server Starbow.Cell Starbow.Probe Starbow.Spec Starbow.ServerConc Starbow.Storage

/-- **C68**, nothing is excluded: whatever concurrent Writes and Reads can do to a fresh store, concurrent requests can do to it, if each call
can be asked for by a request (`mk call`): a post of one line that is a row no other store has the key fields of, or a query. Request `j` is
answered exactly if call `j` has returned, with status 200 or 500 as the Write returned nil or not, and with what the Read returned. -/
theorem C68_realised (env : Env) (confs : List Conf) (s : Nat) (c : Conf) (hs : confs[s]? = some c) (hsize : 0 ≤ c.coll.size) (hpos : 0 < c.slots)
    (τ : StoreConc.State) (hr : StoreConc.Steps env.lib c.coll c.slots StoreConc.init τ) (mk : StoreConc.Call → Request)
    (hw : ∀ r, .write r ∈ τ.calls → ∃ line, task env confs (mk (.write r)) = .observe [line] none ∧ parseRow line = .val (.ok r) ∧
      ∀ s' c', s' ≠ s → confs[s']? = some c' → keyValue r.data c'.coll.keys = none)
    (hq : ∀ q, .read q ∈ τ.calls → task env confs (mk (.read q)) = .query s q) :
    ∃ σ, Steps env confs ServerConc.init σ ∧ σ.stores s = τ ∧ σ.reqs = τ.calls.map mk ∧
      ∀ (j : Nat) (rep : Reply), (j, rep) ∈ σ.replies ↔
        (∃ r ret, τ.calls[j]? = some (.write r) ∧ (j, ret) ∈ τ.m.rets ∧
          rep = if StoreConc.writeReply ret = some none then .ok [] else .refused 500) ∨
        ∃ q ret out, τ.calls[j]? = some (.read q) ∧ (j, ret) ∈ τ.m.rets ∧ StoreConc.readReply env.lib c.coll q ret = some out ∧
          rep = queryReply env q out := by
  obtain ⟨σ, h1, h2⟩ := driven_steps (env := env) (mk := mk) hs hsize hpos (.refl _) hr (by
    intro call hc
    cases call with
    | write r => exact hw r hc
    | read q => exact hq q hc) (driven_init s c mk)
  refine ⟨σ, h1, h2.store, h2.reqs, ?_⟩
  intro j rep
  rw [h2.replies]
  constructor
  · rintro ⟨call, ret, g1, g2, g3⟩
    cases call with
    | write r => exact .inl ⟨r, ret, g1, g2, g3⟩
    | read q =>
      obtain ⟨out, ho⟩ := (ret_kind hpos hr g2).2 q g1
      refine .inr ⟨q, ret, out, g1, g2, ho, ?_⟩
      rw [g3]
      unfold answerOf
      simp only
      rw [ho]
  · rintro (⟨r, ret, g1, g2, g3⟩ | ⟨q, ret, out, g1, g2, g3, g4⟩)
    · exact ⟨_, ret, g1, g2, g3⟩
    · refine ⟨_, ret, g1, g2, ?_⟩
      rw [g4]
      unfold answerOf
      simp only
      rw [g3]

/-! ### the program -/

/-- the observation `0;country=FR;height=v` -/
def heightLine (v : Bytes) : Line := ⟨asc "0", 0x3b, [⟨asc "country", asc "FR"⟩, ⟨asc "height", v⟩]⟩

/-- the request behind a call -/
def heightReq : StoreConc.Call → Request
  | .write r => if r.data = (heightLine (asc "3")).fs then (Step.posted [heightLine (asc "3")]).request else (Step.posted [heightLine (asc "5")]).request
  | .read _ => askFor (asc "country") (asc "select max(height) where country='FR'")

theorem heightLine_correct (v : Bytes) (hv : v = asc "3" ∨ v = asc "5") : (heightLine v).Correct := by
  rcases hv with rfl | rfl <;>
  exact ⟨by decide +kernel, by decide +kernel, by decide +kernel, by decide +kernel, by decide +kernel, by decide +kernel, by decide +kernel,
    by decide +kernel, by decide +kernel, by decide +kernel⟩

theorem height_asks (env : Env) (v : Bytes) (hv : v = asc "3" ∨ v = asc "5") :
    Asks env demoConfs 0 (.write (seenHeight (asc "FR") v).row) (heightReq (.write (seenHeight (asc "FR") v).row)) := by
  have hcor := heightLine_correct v hv
  have hreq : heightReq (.write (seenHeight (asc "FR") v).row) = (Step.posted [heightLine v]).request := by
    unfold heightReq seenHeight heightLine
    simp only
    rcases hv with rfl | rfl
    · rw [if_pos rfl]
    · rw [if_neg (by decide +kernel)]
  refine ⟨(heightLine v).text, ?_, ?_, ?_⟩
  · rw [hreq, task_post env demoConfs _ (by simpa using hcor)]; rfl
  · have hp := line_parse hcor
    rw [show noCR (heightLine v).text = (heightLine v).text by unfold noCR; rw [if_neg hcor.no_cr]] at hp
    rw [hp]
    unfold seenHeight heightLine
    simp only
    rw [show (decimalValue (asc "0") : Int) * 1000 = 0 by decide +kernel]
  · intro s' c' hne hc'
    match s' with
    | 0 => exact absurd rfl hne
    | 1 =>
      obtain rfl := Option.some.inj hc'
      show keyValue _ (compile Demo.tz).keys = none
      rw [compile_keys]
      unfold seenHeight
      simp only
      rcases hv with rfl | rfl <;> decide +kernel
    | _ + 2 => simp [demoConfs] at hc'

/-- **C66 fails** at the HTTP interface of the program: nothing else going on, two requests post the first two observations of France, heights 3 and
5, at once, both are answered with status 200, and the query for max(height) received after that is answered with 3: the observation of 5 is
lost. -/
theorem C66_http_refuted (env : Env) (hord : ∀ l, (env.ord l).Perm l) (hl : ParsesDoubles env.lib)
    (h5 : env.lib.parseFloat (asc "5") = some (F64.ofNat 5)) (h3 : env.lib.parseFloat (asc "3") = some (F64.ofNat 3)) :
    ∃ σ σ', Steps env demoConfs ServerConc.init σ ∧ Steps env demoConfs σ σ' ∧
      σ.reqs = [post (asc "0;country=FR;height=3\n"), post (asc "0;country=FR;height=5\n")] ∧ (0, .ok []) ∈ σ.replies ∧ (1, .ok []) ∈ σ.replies ∧
      σ'.reqs = σ.reqs ++ [askFor (asc "country") (asc "select max(height) where country='FR'")] ∧
      (2, .ok (asc "country=FR\nmax(height)=" ++ env.fmtFloat (F64.ofNat 3) ++ asc "\n")) ∈ σ'.replies := by
  obtain ⟨τ, τ', buf, t1, t2, t3, t4, t5, t6, t7⟩ := C66_race_refuted env.lib hl h5 h3
  obtain ⟨c, hceq⟩ : ∃ c, c = (⟨compile Demo.country, Demo.slots⟩ : Conf) := ⟨_, rfl⟩
  have hc : demoConfs[0]? = some c := by rw [hceq]; rfl
  have hcoll : compile Demo.country = c.coll := by rw [hceq]
  have hslots : Demo.slots = c.slots := by rw [hceq]
  have hpos : 0 < c.slots := by rw [← hslots]; decide
  have hsize : 0 ≤ c.coll.size := by rw [← hcoll, country_size]; decide
  have hname : c.coll.name = asc "country" := by rw [← hcoll]; exact compile_name Demo.country
  rw [hcoll, hslots] at t1 t2
  rw [hcoll] at t7
  have hask : ∀ call ∈ τ'.calls, Asks env demoConfs 0 call (heightReq call) := by
    intro call hcall
    rw [t5, t3] at hcall
    simp only [List.cons_append, List.nil_append, List.mem_cons, List.not_mem_nil, or_false] at hcall
    rcases hcall with rfl | rfl | rfl
    · exact height_asks env _ (.inl rfl)
    · exact height_asks env _ (.inr rfl)
    · refine task_ask env demoConfs (asc "country") _ country_name _ ?_ 0 c hc hname (by omega)
      rw [roughParse_ord env.ord (q := ⟨[⟨asc "height", [asc "max"]⟩], [⟨asc "country", asc "FR"⟩]⟩) (by decide +kernel),
        List.perm_singleton.1 (hord _)]
  obtain ⟨σ, a1, a2⟩ := driven_steps (env := env) (mk := heightReq) hc hsize hpos (.refl _) t1
    (fun call h => hask call (by rw [t5]; simp [h])) (driven_init 0 c heightReq)
  obtain ⟨σ', b1, b2⟩ := driven_steps hc hsize hpos t1 t2 hask a2
  refine ⟨σ, σ', a1, b1, ?_, ?_, ?_, ?_, ?_⟩
  · rw [a2.reqs, t3]
    simp only [List.map_cons, List.map_nil]
    have e3 : heightReq (.write (seenHeight (asc "FR") (asc "3")).row) = post (asc "0;country=FR;height=3\n") := by
      rw [show asc "0;country=FR;height=3\n" = unlines ([heightLine (asc "3")].map Line.text) by decide +kernel]
      unfold heightReq
      simp only
      rw [if_pos (by decide +kernel)]
      rfl
    have e5 : heightReq (.write (seenHeight (asc "FR") (asc "5")).row) = post (asc "0;country=FR;height=5\n") := by
      rw [show asc "0;country=FR;height=5\n" = unlines ([heightLine (asc "5")].map Line.text) by decide +kernel]
      unfold heightReq
      simp only
      rw [if_neg (by decide +kernel)]
      rfl
    rw [e3, e5]
  · rw [a2.replies]
    refine ⟨_, .ran none, by rw [t3]; rfl, by rw [t4]; simp, ?_⟩
    unfold answerOf
    simp only
    rw [if_pos (show StoreConc.writeReply (.ran none) = some none from rfl)]
  · rw [a2.replies]
    refine ⟨_, .ran none, by rw [t3]; rfl, by rw [t4]; simp, ?_⟩
    unfold answerOf
    simp only
    rw [if_pos (show StoreConc.writeReply (.ran none) = some none from rfl)]
  · rw [b2.reqs, t5, List.map_append, a2.reqs]; rfl
  · rw [b2.replies]
    refine ⟨_, .got true buf 0, by rw [t5, t3]; rfl, by rw [t6]; simp, ?_⟩
    unfold answerOf
    simp only
    rw [t7]
    unfold queryReply
    simp only
    rw [render_one]
    congr 1

end Starbow.Props
