import Verif.Spec.Unknown
import Verif.Props.Neighbours
/-
Property theorem C91: fields no collation uses are ignored.
-/
namespace Starbow.Props
open Starbow.Collation Starbow.Spec Starbow.Storage Starbow.Server

/-- nothing is written for the field -/
def Unwritten (f : Bytes) (c : Collator) : Prop := c.contWriters f = none ∧ c.discWriters f = none

theorem compileMeasure_unwritten {f g : Bytes} (hne : f ≠ g) (m : Measure) (a : Building × Shared) (h : Unwritten f a.1.coll) :
    Unwritten f (compileMeasure g a m).1.coll := by
  have h1 : Unwritten f (compileCont g a m).1.coll := by
    unfold compileCont
    split
    · unfold addCont
      refine ⟨?_, h.2⟩
      simp only
      split
      · exact h.1
      · rw [addWriter, GoMap.insert, if_neg hne]; exact h.1
    · exact h
  unfold compileMeasure compileDisc
  split
  · refine ⟨h1.1, ?_⟩
    simp only
    rw [addWriter, GoMap.insert, if_neg hne]; exact h1.2
  · exact h1

theorem compile_unwritten (s : Schema) (f : Bytes) (hf : f ∉ s.measures.map Prod.fst) : Unwritten f (compile s) := by
  have hm : ∀ (g : Bytes) (_ : f ≠ g) (ms : List Measure) (a : Building × Shared), Unwritten f a.1.coll → Unwritten f (ms.foldl (compileMeasure g) a).1.coll := by
    intro g hne ms
    induction ms with
    | nil => intro a h; exact h
    | cons m ms ih => intro a h; exact ih _ (compileMeasure_unwritten hne m a h)
  have hs : ∀ (l : List (Bytes × List Measure)) (_ : f ∉ l.map Prod.fst) (b : Building), Unwritten f b.coll → Unwritten f (l.foldl compileSpec b).coll := by
    intro l
    induction l with
    | nil => intro _ b h; exact h
    | cons x l ih =>
      intro hl b h
      rw [List.map_cons, List.mem_cons, not_or] at hl
      exact ih hl.2 _ (hm x.1 hl.1 x.2 (b, none) h)
  have hr : ∀ (l : List RowMeasure) (b : Building), Unwritten f b.coll → Unwritten f (l.foldl compileRow b).coll := by
    intro l
    induction l with
    | nil => intro b h; exact h
    | cons x l ih => intro b h; exact ih _ h
  exact hs _ hf _ (hr _ _ ⟨rfl, rfl⟩)

/-- the collator uses no fields but these -/
def UsesOnly (P : FV → Bool) (c : Collator) : Prop := ∀ fv, P fv = false → fv.f ∉ c.keys ∧ Unwritten fv.f c

theorem update_used (lib : Lib) (c : Collator) (P : FV → Bool) (hP : UsesOnly P c) (t t' : Int) (d d' : List FV) (h : d.filter P = d'.filter P) :
    transaction lib c ⟨t, d⟩ = transaction lib c ⟨t', d'⟩ := by
  funext data init
  have key : ∀ d : List FV, d.flatMap (fieldWriters lib c init) = (d.filter P).flatMap (fieldWriters lib c init) := by
    intro d
    induction d with
    | nil => rfl
    | cons fv d ih =>
      rw [List.flatMap_cons, List.filter_cons, ih]
      split
      · rw [List.flatMap_cons]
      · next hne =>
        obtain ⟨_, h1, h2⟩ := hP fv (by simpa using hne)
        rw [fieldWriters, h1, h2]
        rfl
  unfold transaction update
  simp only
  rw [key d, key d', h]

theorem key_used (c : Collator) (P : FV → Bool) (hP : UsesOnly P c) (d d' : List FV) (h : d.filter P = d'.filter P) :
    keyValue d c.keys = keyValue d' c.keys := by
  have key : ∀ (d : List FV) (k : Bytes), k ∈ c.keys → valueOf d k = valueOf (d.filter P) k := by
    intro d k hk
    unfold valueOf
    rw [List.find?_filter]
    congr 2
    funext fv
    by_cases hf : fv.f = k
    · have : P fv = true := by
        by_contra hne
        exact (hP fv (by simpa using hne)).1 (hf ▸ hk)
      simp [hf, this]
    · simp [hf]
  apply C28_key
  intro k hk
  rw [key d k hk, key d' k hk, h]

theorem write_used (lib : Lib) (st : Store) (P : FV → Bool) (hP : UsesOnly P st.coll) (canceled : Bool) (t t' : Int) (d d' : List FV) (h : d.filter P = d'.filter P) :
    write lib st canceled ⟨t, d⟩ = write lib st canceled ⟨t', d'⟩ := by
  unfold write
  simp only
  rw [key_used st.coll P hP d d' h, update_used lib st.coll P hP t t' d d' h]

theorem writeStores_used (lib : Lib) (P : FV → Bool) (t t' : Int) (d d' : List FV) (h : d.filter P = d'.filter P) :
    ∀ (sts : List Store) (_ : ∀ st ∈ sts, UsesOnly P st.coll) (ctx : Ctx), writeStores lib ⟨t, d⟩ ctx sts = writeStores lib ⟨t', d'⟩ ctx sts
  | [], _, _ => rfl
  | st :: sts, hP, ctx => by
    rw [writeStores, writeStores, write_used lib st P (hP st (by simp)) _ t t' d d' h,
      writeStores_used lib P t t' d d' h sts (fun s hs => hP s (by simp [hs])) ctx.next]

theorem recvLoop_used (lib : Lib) (P : FV → Bool) : ∀ (ls ls' : List Line), (∀ l ∈ ls, l.Correct) → (∀ l ∈ ls', l.Correct) →
    ls.map (fun l => l.fs.filter P) = ls'.map (fun l => l.fs.filter P) → ∀ sts : List Store, (∀ st ∈ sts, UsesOnly P st.coll) →
    recvLoop lib none none ((ls.map Line.text).map noCR) sts = recvLoop lib none none ((ls'.map Line.text).map noCR) sts ∧
      ∀ st ∈ (recvLoop lib none none ((ls.map Line.text).map noCR) sts).1, UsesOnly P st.coll
  | [], [], _, _, _, sts, hP => ⟨rfl, hP⟩
  | [], _ :: _, _, _, h, _, _ => by simp at h
  | _ :: _, [], _, _, h, _, _ => by simp at h
  | l :: ls, l' :: ls', hc, hc', h, sts, hP => by
    rw [List.map_cons, List.map_cons, List.cons.injEq] at h
    simp only [List.map_cons]
    rw [recvLoop, recvLoop, if_neg (by decide), if_neg (by decide), line_parse (hc l (by simp)), line_parse (hc' l' (by simp))]
    simp only
    rw [writeStores_used lib P _ (decimalValue l'.ts * 1000) _ l'.fs h.1 sts hP]
    have hn := writeStores_named lib ⟨decimalValue l'.ts * 1000, l'.fs⟩ sts (Ctx.next none)
    have hx := ctx_none lib ⟨decimalValue l'.ts * 1000, l'.fs⟩ sts
    change (writeStores lib _ (Ctx.next none) sts).2.2 = none at hx
    generalize writeStores lib ⟨decimalValue l'.ts * 1000, l'.fs⟩ (Ctx.next none) sts = x at hn hx ⊢
    obtain ⟨x1, x2, x3⟩ := x
    have hP' : ∀ st ∈ x1, UsesOnly P st.coll := by
      intro st hst
      have : st.coll ∈ sts.map fun s => s.coll := by rw [← hn]; exact List.mem_map.2 ⟨st, hst, rfl⟩
      obtain ⟨s, hs, e⟩ := List.mem_map.1 this
      rw [← e]; exact hP s hs
    simp only at hx
    subst hx
    cases x2 with
    | some r => exact ⟨rfl, hP'⟩
    | none => exact recvLoop_used lib P ls ls' (fun l h => hc l (by simp [h])) (fun l h => hc' l (by simp [h])) h.2 x1 hP'

theorem posted_request (env : Env) (ls : List Line) (hc : ∀ l ∈ ls, l.Correct) (sts : List Store) :
    Server.serve env sts (Step.posted ls).request = recvLoop env.lib none none ((ls.map Line.text).map noCR) sts := by
  have hs := scan_unlines none false [] (ls.map Line.text) (by
    intro x hx
    obtain ⟨l, hl, rfl⟩ := List.mem_map.1 hx
    exact ⟨(hc l hl).no_newline, (hc l hl).fits⟩)
  rw [List.append_nil, scan_last none (l := []) ⟨by simp, by simp⟩, if_pos rfl, List.append_nil] at hs
  rw [Step.request, serve_post, hs]

theorem usesOnly_new (confs : List (Schema × Nat)) :
    ∀ st ∈ confs.map fun c => newStore c.1 c.2, UsesOnly (fun fv => decide (UsedBy confs fv.f)) st.coll := by
  intro st hst fv hfv
  obtain ⟨c, hc, rfl⟩ := List.mem_map.1 hst
  have hun : ¬ UsedBy confs fv.f := by simpa using hfv
  refine ⟨?_, compile_unwritten _ _ fun h => hun ⟨c, hc, .inr h⟩⟩
  show fv.f ∉ (compile c.1).keys
  rw [compile_keys]
  exact fun h => hun ⟨c, hc, .inl h⟩

/-- **C91** Fields that no collation of the server uses, the times and the delimiters make no difference: two histories of requests that differ in nothing else (posts of correctly
written observations, and any other requests) get exactly the same answers, request by request, whether observations are accepted or refused, and leave the server in the same state. -/
theorem C91_ignored (env : Env) (confs : List (Schema × Nat)) (steps steps' : List Step) (hc : ∀ s ∈ steps, s.Correct) (hc' : ∀ s ∈ steps', s.Correct)
    (h : List.Forall₂ (SameUsed confs) steps steps') :
    serveAll env (confs.map fun c => newStore c.1 c.2) (steps.map Step.request) = serveAll env (confs.map fun c => newStore c.1 c.2) (steps'.map Step.request) := by
  have key : ∀ (steps steps' : List Step), (∀ s ∈ steps, s.Correct) → (∀ s ∈ steps', s.Correct) → List.Forall₂ (SameUsed confs) steps steps' →
      ∀ sts : List Store, (∀ st ∈ sts, UsesOnly (fun fv => decide (UsedBy confs fv.f)) st.coll) →
      serveAll env sts (steps.map Step.request) = serveAll env sts (steps'.map Step.request) := by
    intro steps steps' hc hc' h
    induction h with
    | nil => intro _ _; rfl
    | @cons s s' steps steps' h1 _ ih =>
      intro sts hP
      have ih' := ih (fun s h => hc s (by simp [h])) (fun s h => hc' s (by simp [h]))
      have hs : Server.serve env sts s.request = Server.serve env sts s'.request ∧
          ∀ st ∈ (Server.serve env sts s.request).1, UsesOnly (fun fv => decide (UsedBy confs fv.f)) st.coll := by
        cases h1 with
        | other r =>
          refine ⟨rfl, ?_⟩
          have hun : (Server.serve env sts r).1 = sts := by
            by_contra hne
            obtain ⟨e1, e2, _⟩ := C44_unchanged env _ r hne
            exact hc (.other r) (by simp) ⟨e1, e2⟩
          rw [show (Step.other r).request = r from rfl, hun]
          exact hP
        | posted h =>
          rename_i ls ls'
          rw [posted_request env ls (hc (.posted ls) (by simp)), posted_request env ls' (hc' (.posted ls') (by simp))]
          exact recvLoop_used env.lib _ ls ls' (hc (.posted ls) (by simp)) (hc' (.posted ls') (by simp)) h sts hP
      simp only [List.map_cons, serveAll]
      rw [← hs.1, ih' _ hs.2]
  exact key steps steps' hc hc' h _ (usesOnly_new confs)

/-- the program's collations -/
def programConfs : List (Schema × Nat) := [(Demo.country, Demo.slots), (Demo.tz, Demo.slots)]

/-- `country=FR;colour=red;height=5` and `shape=x;country=FR;height=5;size=3` -/
def redFR : List FV := [⟨asc "country", asc "FR"⟩, ⟨asc "colour", asc "red"⟩, ⟨asc "height", asc "5"⟩]
def xFR : List FV := [⟨asc "shape", asc "x"⟩, ⟨asc "country", asc "FR"⟩, ⟨asc "height", asc "5"⟩, ⟨asc "size", asc "3"⟩]

theorem red_ok : Plainly redFR ∧ Plainly xFR ∧ usedFields programConfs redFR = usedFields programConfs xFR ∧ (usedFields programConfs redFR).length = 2 := by decide +kernel

/-- instance of C91: two observations, which the program treats alike: only country and height are used -/
example (env : Env) : serveAll env Demo.stores ((oneByOne [redFR]).map Step.request) = serveAll env Demo.stores ((oneByOne [xFR]).map Step.request) := by
  obtain ⟨h1, h2, h3, _⟩ := red_ok
  exact C91_ignored env programConfs _ _ (oneByOne_correct fun fs h => by rw [List.mem_singleton.1 h]; exact h1)
    (oneByOne_correct fun fs h => by rw [List.mem_singleton.1 h]; exact h2) (.cons (.posted (by simp only [List.map_cons, List.map_nil]; rw [h3])) .nil)

end Starbow.Props
