import Verif.Props.AnswerRace
import Verif.Props.UnknownRace
/-
Property C81 under concurrent requests.
-/
namespace Starbow.Props
open Starbow.Collation Starbow.Spec Starbow.Storage Starbow.Server Starbow.ServerConc Starbow.Cell Starbow.Probe

/-- what the server does with a request for a collation -/
theorem task_collation (env : Env) (confs : List Conf) (req : Request) (hp : asc "/collation/" <+: req.path) :
    (∃ r, task env confs req = .answer r ∧ ∀ b, r ≠ .ok b) ∨
      ∃ s q c, task env confs req = .query s q ∧ Query.roughParse env.ord (req.form (asc "q")) = .ok q ∧ confs[s]? = some c ∧
        req.path = asc "/collation/" ++ c.coll.name ∧ ∀ s' c', s' < s → confs[s']? = some c' → c'.coll.name ≠ c.coll.name := by
  obtain ⟨name, hname⟩ := hp
  unfold task
  split
  · exact .inl ⟨_, rfl, by simp⟩
  split
  · exact .inl ⟨_, rfl, by simp⟩
  split
  · next h =>
    rw [← hname] at h
    have := congrArg List.length h
    rw [List.length_append, show (asc "/collation/").length = 11 by decide +kernel, show (asc "/obs").length = 4 by decide +kernel] at this
    omega
  rw [if_pos (by rw [← hname]; exact List.prefix_append _ _)]
  simp only
  rw [← hname, List.drop_left]
  split
  · exact .inl ⟨_, rfl, by simp⟩
  split
  · exact .inl ⟨_, rfl, by simp⟩
  split
  · exact .inl ⟨_, rfl, by simp⟩
  unfold ServerConc.lookup
  split
  · exact .inl ⟨_, rfl, by simp⟩
  · next q hq =>
    split
    · exact .inl ⟨_, rfl, by simp⟩
    · next s hs =>
      rw [List.findIdx?_eq_some_iff_getElem] at hs
      obtain ⟨hlt, h1, h2⟩ := hs
      have h1 : confs[s].coll.name = name := by simpa using h1
      refine .inr ⟨s, q, confs[s], rfl, hq, List.getElem?_eq_getElem hlt, by rw [h1], ?_⟩
      intro s' c' hs' hc'
      have hlt' : s' < confs.length := by omega
      rw [List.getElem?_eq_getElem hlt'] at hc'
      obtain rfl := Option.some.inj hc'
      have := h2 s' hs'
      rw [h1]
      simpa using this

/-- what a successful answer is made of -/
theorem queryReply_ok {env : Env} {q : Query} {out : Out (List FMV × Option Err)} {body : Bytes} (h : queryReply env q out = .ok body) :
    ∃ res, out = .val (res, none) ∧ body = render env q.criteria res := by
  rcases out with ⟨r, _ | e⟩ | _
  · exact ⟨r, rfl, (Reply.ok.inj h).symm⟩
  · exact absurd h (by simp [queryReply])
  · exact absurd h (by simp [queryReply])

/-- a Read of store `s` by request `j` gave these results for the query -/
def ReadGave (env : Env) (σ : ServerConc.State) (c : Collator) (s j : Nat) (q : Query) (res : List FMV) : Prop :=
  ∃ i buf d, (σ.origin s)[i]? = some (j, 0) ∧ (σ.stores s).calls[i]? = some (.read q) ∧ (i, BufmapConc.Ret.got true buf d) ∈ (σ.stores s).m.rets ∧
    Collation.read env.lib c q.fieldMeasures buf = .val (res, none)

/-- **C81** under concurrent requests: any number of requests are in progress, in any interleaving. The body of a successful answer about a collation is the criteria repeated, followed by
the results, which can be read in exactly one way as lines `m(f)=v`; these are the results of the Read made for this request, or there are none. If no criterion's name contains `=` or
`(`, the whole body can be read in exactly one way. -/
theorem C81_concurrent (env : Env) (hfmt : PrintsNumbers env) (hord : ∀ l, (env.ord l).Perm l) (confs : List (Schema × Nat)) (hv : ∀ c ∈ confs, ValidSchema c.1)
    (σ : ServerConc.State) (hr : ServerConc.Steps env (serverOf confs) ServerConc.init σ) (j : Nat) (req : Request) (hreq : σ.reqs[j]? = some req)
    (hp : asc "/collation/" <+: req.path) (body : Bytes) (hok : (j, Reply.ok body) ∈ σ.replies) :
    ∃ q s c res, Query.roughParse env.ord (req.form (asc "q")) = .ok q ∧ confs[s]? = some c ∧ req.path = asc "/collation/" ++ c.1.name ∧
      (∀ s' c', s' < s → confs[s']? = some c' → c'.1.name ≠ c.1.name) ∧ (res = [] ∨ ReadGave env σ (compile c.1) s j q res) ∧
      (∃ rest, body = echo q.criteria ++ rest ∧ ∀ ls, Reads rest ls ↔ ls = res.map (resultOf env)) ∧
      ((∀ c ∈ q.criteria, 0x3d ∉ c.f ∧ 0x28 ∉ c.f) → ∀ ls, Reads body ls ↔ ls = q.criteria.map criterionOf ++ res.map (resultOf env)) := by
  have hI := ServerConc.inv_reach hr
  rcases task_collation env (serverOf confs) req hp with ⟨r, h1, h2⟩ | ⟨s, q, c', ht, hq, hs, hpath, hfirst⟩
  · exact absurd ((hI.replies j _ hok).now req r hreq h1).symm (h2 body)
  obtain ⟨c, hc, rfl⟩ : ∃ c, confs[s]? = some c ∧ c' = ⟨compile c.1, c.2⟩ := by
    unfold serverOf at hs
    rw [List.getElem?_map] at hs
    cases hc : confs[s]? with
    | none => rw [hc] at hs; simp at hs
    | some c =>
      rw [hc] at hs
      exact ⟨c, rfl, (Option.some.inj hs).symm⟩
  have hvc := hv c (List.mem_of_getElem? hc)
  have hname : (compile c.1).name = c.1.name := compile_name c.1
  obtain ⟨res, hgave, hnames, hbody⟩ : ∃ res, (res = [] ∨ ReadGave env σ (compile c.1) s j q res) ∧
      (∀ x ∈ res, (x.f, x.m) ∈ pairs q.fieldMeasures ∧ Maintains c.1 x.f x.m) ∧ body = render env q.criteria res := by
    obtain ⟨c₁, hs', hcases⟩ := (hI.replies j _ hok).ask _ s _ hreq ht
    rw [hs] at hs'
    obtain rfl := Option.some.inj hs'
    rcases hcases with ⟨-, e⟩ | ⟨-, e⟩ | ⟨i, ret, out, ho, hcall, hret, hout, e⟩
    · obtain ⟨res, h1, h2⟩ := queryReply_ok e.symm
      obtain rfl : res = [] := by simpa using h1.symm
      exact ⟨[], .inl rfl, by simp, h2⟩
    · simp at e
    · obtain ⟨res, rfl, h2⟩ := queryReply_ok e.symm
      cases ret with
      | ran e => simp [StoreConc.readReply] at hout
      | invalidKey => simp [StoreConc.readReply] at hout
      | outOfSlots => simp [StoreConc.readReply] at hout
      | got fnd buf d =>
        cases fnd with
        | false =>
          have hout := Option.some.inj hout
          obtain rfl : res = [] := by simpa using hout.symm
          exact ⟨[], .inl rfl, by simp, h2⟩
        | true =>
          have hout := Option.some.inj hout
          exact ⟨res, .inr ⟨i, buf, d, ho, hcall, hret, hout⟩, read_names env.lib c.1 hvc _ _ _ hout, h2⟩
  have hpl := result_plain env hfmt hord hq hnames
  refine ⟨q, s, c, res, hq, hc, by rw [hpath]; exact congrArg _ hname, ?_, hgave, ⟨(res.map (resultOf env)).flatMap (fun l => l.text ++ asc "\n"), ?_, fun ls => ⟨fun h => ?_, ?_⟩⟩, ?_⟩
  · intro s' d hs' hd
    have := hfirst s' ⟨compile d.1, d.2⟩ hs' (by unfold serverOf; rw [List.getElem?_map, hd]; rfl)
    rw [show (compile d.1).name = d.1.name from compile_name d.1, hname] at this
    exact this
  · rw [hbody, render_echo]
  · exact Proof.reads_unique h ⟨hpl, rfl⟩
  · rintro rfl
    exact ⟨hpl, rfl⟩
  · intro hcrit ls
    have hall : ∀ l ∈ q.criteria.map criterionOf ++ res.map (resultOf env), l.Plain := by
      intro l hl
      rcases List.mem_append.1 hl with hl | hl
      · obtain ⟨c, hc, rfl⟩ := List.mem_map.1 hl
        obtain ⟨_, h5, _, _, h6⟩ := (Query.parsed_names hord hq).2 c hc
        refine ⟨fun b hb => ⟨?_, ?_, ?_⟩, h6⟩
        · rintro rfl; exact (hcrit c hc).1 hb
        · rintro rfl; exact (hcrit c hc).2 hb
        · rintro rfl; exact h5 _ hb (by decide)
      · exact hpl l hl
    constructor
    · intro h
      exact Proof.reads_unique h ⟨hall, by rw [hbody, render_lines]⟩
    · rintro rfl
      exact ⟨hall, by rw [hbody, render_lines]⟩

end Starbow.Props
