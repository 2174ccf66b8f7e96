import Verif.Proof.FieldOrder
import Verif.Props.EndToEnd
/-
Property theorems C84: how observations are written down and put into requests makes no difference.
-/
namespace Starbow.Props
open Starbow.Collation Starbow.Spec Starbow.Storage Starbow.Server

/-! ### one store -/

theorem update_congr {l s : Nat} {m : Bufmap.Map} (h : Bufmap.WF l s m) (k : U64) (fn fn' : Bufmap.Fn) (e : Option Err)
    (hf : ∀ data init b, data.length = s → fn data init = (b, .val none) → fn' data init = (b, .val e))
    (hok : (Bufmap.update m k fn).2 = .ret none) : Bufmap.update m k fn' = ((Bufmap.update m k fn).1, .ret e) := by
  unfold Bufmap.update at hok ⊢
  by_cases h0 : k = 0
  · simp only [if_pos h0] at hok; simp at hok
  by_cases hl : m.l = 0
  · simp only [if_neg h0, if_pos hl] at hok; simp at hok
  simp only [if_neg h0, if_neg hl] at hok ⊢
  cases hc : Probe.claim m.keyAt m.l k (Probe.maxReprobe + 1) 0 false with
  | full => rw [hc] at hok; simp at hok
  | «at» x init =>
    rw [hc] at hok
    simp only at hok ⊢
    obtain ⟨j, _, _, hx, _⟩ := Probe.claim_at hc
    have hxl : x < l := by rw [← hx, h.hl]; exact Probe.pos_lt h.pos _ _
    by_cases hlk : (m.keys.getD x ⟨0, 0, false⟩).locked = true
    · simp only [hlk, if_true] at hok; simp at hok
    · simp only [hlk] at hok ⊢
      have hlen : (slice m.values (x * m.s) ((x + 1) * m.s)).length = s := by
        rw [slice_length _ _ _ (by
          rw [h.vlen, h.hs]; exact Nat.mul_le_mul_right _ hxl), h.hs, Nat.add_mul, Nat.one_mul]
        omega
      rcases hfn : fn (slice m.values (x * m.s) ((x + 1) * m.s)) init with ⟨b, r⟩
      rw [hfn] at hok
      rcases r with (r | r) | _
      · rw [hf _ _ b hlen hfn]
        rfl
      · simp at hok
      · simp at hok

section
variable {sch : Schema} {L : List (Owner × Cell)} {D : List (Bytes × Measure)} {pos : Int} {l : Nat}

/-- an accepted observation may have its fields in any order -/
theorem write_perm (lib : Lib) (h : Laid ⟨compile sch, pos⟩ L D) {st : Store} (hg : Good sch L pos l st) (c : Bool) (r r' : Row)
    (hs : SameOrder r.data r'.data) (hok : (write lib st c r).2 = .ret none) :
    write lib st c r' = write lib st c r := by
  unfold write at hok ⊢
  rw [← C28_repeated st.coll.keys _ _ hs]
  cases hk : keyValue r.data st.coll.keys with
  | none => rfl
  | some k =>
    rw [hk] at hok
    simp only at hok ⊢
    cases c with
    | true => rfl
    | false =>
      simp only [Bool.false_eq_true, if_false] at hok ⊢
      rw [update_congr hg.wf k (transaction lib st.coll r) (transaction lib st.coll r') none ?_ hok, ← hok]
      intro data init b hl hu
      unfold transaction at hu ⊢
      rw [hg.coll] at hu ⊢
      exact update_reorder lib h init r r' hs data b hl hu
end

theorem update_cut (lib : Lib) (c : Collator) (t t' : Int) (d : List FV) (fv : FV) (rest : List FV) (hw : c.contWriters fv.f ≠ none)
    (hbad : lib.parseFloat fv.v = none) (buf b : Bytes) (init : Bool) (hu : update lib c ⟨t, d⟩ buf init = (b, .val none)) :
    update lib c ⟨t', d ++ fv :: rest⟩ buf init = (b, .val (some .parseFloat)) := by
  unfold update at hu ⊢
  rw [List.flatMap_append, ← List.append_assoc, runWriters_append, hu]
  simp only
  rw [List.flatMap_cons]
  unfold fieldWriters
  obtain ⟨ws, hws⟩ := Option.ne_none_iff_exists'.1 hw
  rw [hws, contWriters, hbad]
  rfl

/-- **C26**, what a refused observation leaves behind. If a value that should be a number is none (in the field `fv` with a continuous measure), the
observation is refused, and the store is left exactly as if the observation had consisted of the fields before `fv` alone and had been accepted. Provided the
key fields are among those, and these fields alone are accepted. -/
theorem C26_trace (lib : Lib) (sch : Schema) (hv : ValidSchema sch) (l : Nat) (hl : 0 < l) (os : List Obs) (t t' : Int) (d : List FV) (fv : FV)
    (rest : List FV) (m : Measure) (hm : m.continuousInput = true) (hd : Declares sch fv.f m) (hbad : lib.parseFloat fv.v = none)
    (k : U64) (hk : keyValue d sch.keys = some k) (hk' : keyValue (d ++ fv :: rest) sch.keys = some k)
    (hacc : (write lib (writes lib (newStore sch l) os).1 false ⟨t, d⟩).2 = .ret none) :
    write lib (writes lib (newStore sch l) os).1 false ⟨t', d ++ fv :: rest⟩ =
      ((write lib (writes lib (newStore sch l) os).1 false ⟨t, d⟩).1, .ret (some .parseFloat)) := by
  obtain ⟨L, D, pos, h, hD⟩ := laid_compile sch hv
  have hg := good_writes (l := l) lib h os (good_new h hl)
  have hw : (compile sch).contWriters fv.f ≠ none := by
    obtain ⟨r, hr⟩ := h.served fv.f m ((hD _ _).2 hd)
    obtain ⟨hname, _, o, w, hwm, _, _, hser, hcm⟩ := h.reader _ _ r hr
    have hrm : r.m.continuousInput = true := by
      revert hname hm
      cases m <;> cases r.m <;> simp [Measure.continuousInput, Measure.name] <;> decide +kernel
    have hwc : w.m.continuousInput = true := by
      rcases hcm with e | ⟨_, e, _⟩
      · rw [e]; exact hrm
      · exact e
    have htake := (h.cell o w hwm).2.2.2.2
    rw [show (compile sch).contWriters fv.f = _ from h.cont fv.f]
    cases o with
    | row => rw [show w.m = .count from htake] at hwc; simp [Measure.continuousInput] at hwc
    | disc g => obtain ⟨p, e, _⟩ := htake; rw [e] at hwc; simp [Measure.continuousInput] at hwc
    | cont g =>
      have : fv.f = g := hser
      subst this
      have hne : cells L (.cont fv.f) ≠ [] := by
        intro e
        have := mem_cells.2 hwm
        rw [e] at this
        simp at this
      rw [toOpt, if_neg hne]
      simp
  obtain ⟨st, hst⟩ : ∃ st, (writes lib (newStore sch l) os).1 = st := ⟨_, rfl⟩
  rw [hst] at hg hacc ⊢
  unfold write at hacc ⊢
  simp only [hg.coll, compile_keys, hk, hk', Bool.false_eq_true, if_false] at hacc ⊢
  rw [update_congr hg.wf k (transaction lib (compile sch) ⟨t, d⟩) (transaction lib (compile sch) ⟨t', d ++ fv :: rest⟩) (some .parseFloat) ?_ hacc]
  intro data init b _ hu
  exact update_cut lib (compile sch) t t' d fv rest hw hbad data b init hu

/-! ### histories -/

/-- the observation with these fields -/
def obsOf (fs : List FV) : Obs := ⟨⟨0, fs⟩, false⟩

/-- every store takes the observations, one after the other -/
def AllTake (lib : Lib) (sts : List Store) (obs : List (List FV)) : Prop :=
  ∀ st ∈ sts, ∀ p ∈ (writes lib st (obs.map obsOf)).2, p.2 = .ret none

/-- the stores afterwards -/
def fedWith (lib : Lib) (sts : List Store) (obs : List (List FV)) : List Store := sts.map fun st => (writes lib st (obs.map obsOf)).1

/-- timestamps make no difference -/
theorem writes_data (lib : Lib) (os : List Obs) (hc : ∀ o ∈ os, o.canceled = false) : ∀ st,
    (writes lib st os).1 = (writes lib st ((os.map fun o => o.row.data).map obsOf)).1 ∧
    (writes lib st os).2.map Prod.snd = (writes lib st ((os.map fun o => o.row.data).map obsOf)).2.map Prod.snd := by
  induction os with
  | nil => intro st; exact ⟨rfl, rfl⟩
  | cons o os ih =>
    intro st
    have hw : write lib st o.canceled o.row = write lib st (obsOf o.row.data).canceled (obsOf o.row.data).row := by
      rw [hc o (by simp)]; rfl
    obtain ⟨i1, i2⟩ := ih (fun o h => hc o (by simp [h])) (write lib st o.canceled o.row).1
    simp only [List.map_cons, writes]
    rw [← hw]
    exact ⟨i1, by rw [i2]⟩

theorem allTake_nil (lib : Lib) (sts : List Store) : AllTake lib sts [] ∧ fedWith lib sts [] = sts := by
  refine ⟨?_, ?_⟩
  · intro st _ p hp
    simp [writes] at hp
  · unfold fedWith
    simp [writes]

theorem allTake_cons (lib : Lib) (sts : List Store) (fs : List FV) (obs : List (List FV)) :
    (AllTake lib sts (fs :: obs) ↔ AllTake lib sts [fs] ∧ AllTake lib (fedWith lib sts [fs]) obs) ∧ fedWith lib sts (fs :: obs) = fedWith lib (fedWith lib sts [fs]) obs := by
  refine ⟨?_, ?_⟩
  · unfold AllTake fedWith
    simp only [List.map_cons, List.map_nil, writes, List.mem_map, List.mem_cons, List.not_mem_nil, or_false]
    constructor
    · intro h
      refine ⟨?_, ?_⟩
      · rintro st hst p rfl
        exact h st hst _ (.inl rfl)
      · rintro _ ⟨st, hst, rfl⟩ p hp
        exact h st hst p (.inr hp)
    · rintro ⟨h1, h2⟩ st hst p (rfl | hp)
      · exact h1 st hst _ rfl
      · exact h2 _ ⟨st, hst, rfl⟩ p hp
  · unfold fedWith
    simp [writes]

theorem allTake_append (lib : Lib) (b : List (List FV)) : ∀ (a : List (List FV)) (sts : List Store),
    (AllTake lib sts (a ++ b) ↔ AllTake lib sts a ∧ AllTake lib (fedWith lib sts a) b) ∧ fedWith lib sts (a ++ b) = fedWith lib (fedWith lib sts a) b
  | [], sts => by
    rw [(allTake_nil lib sts).2]
    exact ⟨⟨fun h => ⟨(allTake_nil lib sts).1, h⟩, fun h => h.2⟩, rfl⟩
  | fs :: a, sts => by
    obtain ⟨i1, i2⟩ := allTake_append lib b a (fedWith lib sts [fs])
    rw [List.cons_append, (allTake_cons lib sts fs (a ++ b)).1, (allTake_cons lib sts fs (a ++ b)).2, (allTake_cons lib sts fs a).1,
      (allTake_cons lib sts fs a).2, i1, i2, and_assoc]
    exact ⟨Iff.rfl, rfl⟩

/-- posting correct observations: accepted if and only if all stores take them -/
theorem posted_allTake (env : Env) (ls : List Line) (hc : ∀ l ∈ ls, l.Correct) (sts : List Store) :
    ((Server.serve env sts (Step.posted ls).request).2 = .ok [] ↔ AllTake env.lib sts (ls.map Line.fs)) ∧
    (AllTake env.lib sts (ls.map Line.fs) → (Server.serve env sts (Step.posted ls).request).1 = fedWith env.lib sts (ls.map Line.fs)) := by
  have back : ∀ (ls : List Line), (∀ l ∈ ls, l.Correct) → ∀ sts, AllTake env.lib sts (ls.map Line.fs) →
      recvLoop env.lib none none ((ls.map Line.text).map noCR) sts = (fedWith env.lib sts (ls.map Line.fs), .ok []) := by
    intro ls
    induction ls with
    | nil => intro _ sts _; rw [List.map_nil, List.map_nil, List.map_nil, recvLoop, (allTake_nil env.lib sts).2]; rfl
    | cons x ls ih =>
      intro hc sts ht
      rw [List.map_cons, (allTake_cons env.lib sts _ _).1] at ht
      have hx := hc x (by simp)
      have hone : recvLoop env.lib none none [noCR x.text] sts = (fedWith env.lib sts [x.fs], .ok []) := by
        rw [← serve_line env sts (l := x.text) ⟨hx.no_newline, hx.fits⟩,
          C43_line env sts x.text ⟨hx.no_newline, hx.fits⟩ _ (line_parse hx) (by
            intro st hst
            exact ht.1 st hst (obsOf x.fs, _) (by simp [writes]; rfl))]
        rfl
      simp only [List.map_cons]
      rw [recvLoop_cons, hone, if_pos rfl, ih (fun l hl => hc l (by simp [hl])) _ ht.2, (allTake_cons env.lib sts x.fs (ls.map Line.fs)).2]
  have hreq : Server.serve env sts (Step.posted ls).request = recvLoop env.lib none none ((ls.map Line.text).map noCR) sts := by
    have hs := scan_unlines none false [] (ls.map Line.text) (by
      intro x hx
      obtain ⟨l, hl, rfl⟩ := List.mem_map.1 hx
      exact ⟨(hc l hl).no_newline, (hc l hl).fits⟩)
    rw [List.append_nil, scan_last none (l := []) ⟨by simp, by simp⟩, if_pos rfl, List.append_nil] at hs
    rw [Step.request, serve_post, hs]
  refine ⟨⟨?_, ?_⟩, ?_⟩
  · intro h
    rw [hreq] at h
    obtain ⟨_, rows, e1, _, e3⟩ := recvLoop_ok env.lib none _ sts _ [] (by rw [← h])
    have hdata : rows.map Row.data = ls.map Line.fs := by
      have e0 : ((ls.map Line.text).map noCR).map parseRow =
          ls.map fun l : Line => Out.val (Except.ok (⟨decimalValue l.ts * 1000, l.fs⟩ : Row)) := by
        rw [List.map_map, List.map_map]
        exact List.map_congr_left fun l hl => line_parse (hc l hl)
      rw [e0] at e1
      have : rows = ls.map fun l => (⟨decimalValue l.ts * 1000, l.fs⟩ : Row) := by
        have hinj : Function.Injective fun r : Row => Out.val (Except.ok (ε := Err) r) := by
          intro a b hab
          simpa using hab
        apply List.map_injective_iff.2 hinj
        rw [List.map_map]
        exact e1.symm
      rw [this, List.map_map]
      rfl
    intro st hst p hp
    obtain ⟨_, w2⟩ := writes_data env.lib (rows.map fun r => ⟨r, false⟩) (by simp) st
    rw [show (rows.map fun r => (⟨r, false⟩ : Obs)).map (fun o => o.row.data) = ls.map Line.fs by rw [← hdata, List.map_map]; rfl] at w2
    have : p.2 ∈ (writes env.lib st (rows.map fun r => ⟨r, false⟩)).2.map Prod.snd := by rw [w2]; exact List.mem_map.2 ⟨p, hp, rfl⟩
    obtain ⟨p', hp', e⟩ := List.mem_map.1 this
    rw [← e]
    exact e3 st hst p' hp'
  · intro ht
    rw [hreq, back ls hc sts ht]
  · intro ht
    rw [hreq, back ls hc sts ht]

/-- a history is accepted if and only if all stores take its observations -/
theorem steps_allTake (env : Env) : ∀ (steps : List Step), (∀ s ∈ steps, s.Correct) → ∀ sts : List Store,
    (List.Forall₂ Step.Accepted steps (serveAll env sts (steps.map Step.request)).2 ↔ AllTake env.lib sts (observations steps)) ∧
    (AllTake env.lib sts (observations steps) → (serveAll env sts (steps.map Step.request)).1 = fedWith env.lib sts (observations steps))
  | [], _, sts => by
    refine ⟨⟨fun _ => (allTake_nil _ _).1, fun _ => .nil⟩, fun _ => (allTake_nil _ _).2.symm⟩
  | .other req :: steps, hc, sts => by
    have hun : (Server.serve env sts req).1 = sts := by
      by_contra hne
      obtain ⟨e1, e2, _⟩ := C44_unchanged env _ req hne
      exact hc (.other req) (by simp) ⟨e1, e2⟩
    obtain ⟨i1, i2⟩ := steps_allTake env steps (fun s h => hc s (by simp [h])) sts
    simp only [List.map_cons, serveAll, List.forall₂_cons, observations]
    rw [show (Step.other req).request = req from rfl, hun]
    exact ⟨⟨fun h => i1.1 h.2, fun h => ⟨trivial, i1.2 h⟩⟩, i2⟩
  | .posted ls :: steps, hc, sts => by
    obtain ⟨p1, p2⟩ := posted_allTake env ls (hc (.posted ls) (by simp)) sts
    obtain ⟨a1, a2⟩ := allTake_append env.lib (observations steps) (ls.map Line.fs) sts
    have hi := steps_allTake env steps (fun s h => hc s (by simp [h]))
    simp only [List.map_cons, serveAll, List.forall₂_cons, observations]
    rw [a1, a2]
    refine ⟨⟨?_, ?_⟩, ?_⟩
    · rintro ⟨h1, h2⟩
      have ht := p1.1 h1
      rw [p2 ht] at h2
      exact ⟨ht, (hi _).1.1 h2⟩
    · rintro ⟨h1, h2⟩
      rw [p2 h1]
      exact ⟨p1.2 h1, (hi _).1.2 h2⟩
    · rintro ⟨h1, h2⟩
      rw [p2 h1]
      exact (hi _).2 h2

/-- the same fields in some order, with the values of each field in the same order -/
def SameFields (a b : List FV) : Prop := ∀ f, (a.filter fun fv => fv.f = f) = b.filter fun fv => fv.f = f

theorem writes_perm (lib : Lib) {sch : Schema} {L : List (Owner × Cell)} {D : List (Bytes × Measure)} {pos : Int} {l : Nat}
    (h : Laid ⟨compile sch, pos⟩ L D) {a b : List (List FV)} (hab : List.Forall₂ SameFields a b) : ∀ {st : Store}, Good sch L pos l st →
    (∀ p ∈ (writes lib st (a.map obsOf)).2, p.2 = .ret none) →
    (∀ p ∈ (writes lib st (b.map obsOf)).2, p.2 = .ret none) ∧ (writes lib st (b.map obsOf)).1 = (writes lib st (a.map obsOf)).1 := by
  induction hab with
  | nil => intro st _ h; exact ⟨h, rfl⟩
  | @cons x y a b hxy _ ih =>
    intro st hg hok
    simp only [List.map_cons, writes, List.mem_cons] at hok ⊢
    have e := write_perm lib h hg false (obsOf x).row (obsOf y).row hxy (hok _ (.inl rfl))
    have e' : write lib st (obsOf y).canceled (obsOf y).row = write lib st (obsOf x).canceled (obsOf x).row := e
    rw [e']
    obtain ⟨i1, i2⟩ := ih (good_write lib h hg false (obsOf x).row) (fun p hp => hok p (.inr hp))
    refine ⟨?_, i2⟩
    rintro p (rfl | hp)
    · exact hok (obsOf x, _) (.inl rfl)
    · exact i1 p hp

/-- **C84**, partial. Two histories of requests to servers with the same fresh stores, both of correctly written observations and any other requests. If
the observations are the same in the same order, each up to the order of its fields, then it makes no difference how they are written and sent: their
timestamps, the delimiters, how many go into one request, and the requests between. If all posts of the first history are accepted, so are those of the
second, and the stores end up the same, hence all requests from then on are answered alike. Missing: histories with refused observations, where the order of
the fields does make a difference (`C84_refused_refuted`). -/
theorem C84_partial (env : Env) (confs : List (Schema × Nat)) (hv : ∀ c ∈ confs, ValidSchema c.1 ∧ 0 < c.2) (steps steps' : List Step)
    (hc : ∀ s ∈ steps, s.Correct) (hc' : ∀ s ∈ steps', s.Correct) (hsame : List.Forall₂ SameFields (observations steps) (observations steps'))
    (hacc : List.Forall₂ Step.Accepted steps (serveAll env (confs.map fun c => newStore c.1 c.2) (steps.map Step.request)).2) :
    List.Forall₂ Step.Accepted steps' (serveAll env (confs.map fun c => newStore c.1 c.2) (steps'.map Step.request)).2 ∧
    (serveAll env (confs.map fun c => newStore c.1 c.2) (steps'.map Step.request)).1 =
      (serveAll env (confs.map fun c => newStore c.1 c.2) (steps.map Step.request)).1 := by
  obtain ⟨a1, a2⟩ := steps_allTake env steps hc (confs.map fun c => newStore c.1 c.2)
  obtain ⟨b1, b2⟩ := steps_allTake env steps' hc' (confs.map fun c => newStore c.1 c.2)
  have ht := a1.1 hacc
  have key : ∀ st ∈ confs.map fun c => newStore c.1 c.2,
      (∀ p ∈ (writes env.lib st ((observations steps').map obsOf)).2, p.2 = .ret none) ∧
      (writes env.lib st ((observations steps').map obsOf)).1 = (writes env.lib st ((observations steps).map obsOf)).1 := by
    intro st hst
    obtain ⟨c, hcm, rfl⟩ := List.mem_map.1 hst
    obtain ⟨L, D, pos, h, _⟩ := laid_compile c.1 (hv c hcm).1
    exact writes_perm env.lib h hsame (good_new h (hv c hcm).2) (ht _ hst)
  have ht' : AllTake env.lib (confs.map fun c => newStore c.1 c.2) (observations steps') := fun st hst => (key st hst).1
  refine ⟨b1.2 ht', ?_⟩
  rw [b2 ht', a2 ht]
  unfold fedWith
  apply List.map_congr_left
  intro st hst
  exact (key st hst).2

/-! ### bodies -/

/-- a body is made of lines and what follows the last newline -/
theorem body_lines (a : Bytes) : ∃ ls last, a = unlines ls ++ last ∧ (∀ l ∈ ls, 0x0a ∉ l) ∧ 0x0a ∉ last := by
  induction a with
  | nil => exact ⟨[], [], rfl, by simp, by simp⟩
  | cons b a ih =>
    obtain ⟨ls, last, rfl, h1, h2⟩ := ih
    by_cases hb : b = 0x0a
    · subst hb
      exact ⟨[] :: ls, last, by simp [unlines], by
        intro l hl
        rcases List.mem_cons.1 hl with rfl | hl
        · simp
        · exact h1 l hl, h2⟩
    · cases ls with
      | nil => exact ⟨[], b :: last, by simp [unlines], by simp, by
          intro h
          rcases List.mem_cons.1 h with h | h
          · exact hb h.symm
          · exact h2 h⟩
      | cons l ls => exact ⟨(b :: l) :: ls, last, by simp [unlines], by
          intro x hx
          rcases List.mem_cons.1 hx with rfl | hx
          · intro h
            rcases List.mem_cons.1 h with h | h
            · exact hb h.symm
            · exact h1 l (by simp) h
          · exact h1 x (by simp [hx]), h2⟩

/-- either all lines fit into the scanner's buffer, or there is a first that does not -/
theorem lines_fit (ls : List Bytes) (h : ∀ l ∈ ls, 0x0a ∉ l) :
    (∀ l ∈ ls, LineOk l) ∨ ∃ a long b, ls = a ++ long :: b ∧ (∀ l ∈ a, LineOk l) ∧ (0x0a ∉ long) ∧ 65535 < long.length := by
  induction ls with
  | nil => left; simp
  | cons l ls ih =>
    by_cases hl : l.length ≤ 65535
    · rcases ih fun x hx => h x (by simp [hx]) with h' | ⟨a, long, b, rfl, h1, h2⟩
      · left
        intro x hx
        rcases List.mem_cons.1 hx with rfl | hx
        · exact ⟨h x (by simp), hl⟩
        · exact h' x hx
      · right
        refine ⟨l :: a, long, b, rfl, ?_, h2⟩
        intro x hx
        rcases List.mem_cons.1 hx with rfl | hx
        · exact ⟨h x (by simp), hl⟩
        · exact h1 x hx
    · right
      exact ⟨[], l, ls, rfl, by simp, h l (by simp), by omega⟩

theorem unlines_append (a b : List Bytes) : unlines (a ++ b) = unlines a ++ unlines b := by
  unfold unlines
  rw [List.flatMap_append]

theorem recvLoop_append (lib : Lib) (e : Option Err) (b : List Bytes) : ∀ (a : List Bytes) (sts : List Store),
    recvLoop lib e none (a ++ b) sts = if (recvLoop lib none none a sts).2 = .ok [] then recvLoop lib e none b (recvLoop lib none none a sts).1
      else recvLoop lib none none a sts
  | [], sts => by
    rw [List.nil_append, show recvLoop lib none none [] sts = (sts, .ok []) by rw [recvLoop]; rfl]
    simp
  | x :: a, sts => by
    rw [List.cons_append, recvLoop_cons, recvLoop_cons (scErr := none) (lines := a), recvLoop_append lib e b a]
    by_cases h : (recvLoop lib none none [x] sts).2 = .ok []
    · simp only [if_pos h]
    · simp only [if_neg h]

/-- **C84**, one request or several: a body that ends with a newline, followed by another, can as well be sent in two requests (if the first is refused, the
rest is not looked at). This holds for all bytes, correct observations or not. -/
theorem C84_split (env : Env) (sts : List Store) (a b : Bytes) (ha : a = [] ∨ a.getLast? = some 0x0a) :
    Server.serve env sts (post (a ++ b)) =
      if (Server.serve env sts (post a)).2 = .ok [] then Server.serve env (Server.serve env sts (post a)).1 (post b) else Server.serve env sts (post a) := by
  obtain ⟨ls, last, rfl, h1, h2⟩ := body_lines a
  have hlast : last = [] := by
    by_contra hne
    rcases ha with h | h
    · exact hne (List.append_eq_nil_iff.1 h).2
    · rw [List.getLast?_append_of_ne_nil _ hne] at h
      exact h2 (List.mem_of_getLast? h)
  subst hlast
  rw [List.append_nil]
  rcases lines_fit ls h1 with hok | ⟨x, long, y, rfl, hx, hnl, hlong⟩
  · have hs := scan_unlines none false [] ls hok
    rw [List.append_nil, scan_last none (l := []) ⟨by simp, by simp⟩, if_pos rfl, List.append_nil] at hs
    rw [serve_post, scan_unlines none false b ls hok, serve_post, hs, serve_post]
    exact recvLoop_append env.lib _ _ _ sts
  · have e : ∀ r, unlines (x ++ long :: y) ++ r = unlines x ++ (long ++ (0x0a :: (unlines y ++ r))) := by
      intro r
      rw [unlines_append]
      simp [unlines]
    have h1 := C43_too_long env sts x long (0x0a :: (unlines y ++ b)) hx hnl hlong (.inr ⟨_, rfl⟩)
    have h2 := C43_too_long env sts x long (0x0a :: (unlines y ++ [])) hx hnl hlong (.inr ⟨_, rfl⟩)
    rw [← e] at h1 h2
    rw [List.append_nil] at h2
    rw [h1, h2]
    split
    · rw [if_neg (by simp)]
    · rfl

/-- **C84**, the last newline may be left out, whatever the body -/
theorem C84_newline (env : Env) (sts : List Store) (a : Bytes) (ha : a ≠ []) (hn : a.getLast? ≠ some 0x0a) :
    Server.serve env sts (post (a ++ [0x0a])) = Server.serve env sts (post a) := by
  have hscan : scan none false (a ++ [0x0a]) = scan none false a := by
    obtain ⟨ls, last, rfl, h1, h2⟩ := body_lines a
    have hlast : last ≠ [] := by
      rintro rfl
      rw [List.append_nil] at ha hn
      apply hn
      cases ls using List.reverseRecOn with
      | nil => exact absurd rfl ha
      | append_singleton ls l => rw [unlines_append]; simp [unlines]
    rcases lines_fit (ls ++ [last]) (by
      intro l hl
      rcases List.mem_append.1 hl with hl | hl
      · exact h1 l hl
      · rw [List.mem_singleton.1 hl]; exact h2) with hok | ⟨x, long, y, e, hx, hnl, hlong⟩
    · have h3 : ∀ l ∈ ls, LineOk l := fun l hl => hok l (by simp [hl])
      have h4 : LineOk last := hok last (by simp)
      have h5 := scan_unlines none false [] (ls ++ [last]) hok
      rw [unlines_append, List.append_nil, scan_last none (l := []) ⟨by simp, by simp⟩] at h5
      rw [List.append_assoc, show last ++ [0x0a] = unlines [last] by simp [unlines], h5, scan_unlines none false last ls h3, scan_last none h4, if_neg hlast]
      simp
    · have e1 : ∃ r, unlines ls ++ last = unlines x ++ (long ++ r) ∧ (r = [] ∨ ∃ s, r = 0x0a :: s) := by
        cases y using List.reverseRecOn with
        | nil =>
          have := List.append_inj' e rfl
          obtain ⟨rfl, e2⟩ := this
          exact ⟨[], by simp at e2; simp [e2], .inl rfl⟩
        | append_singleton y l =>
          rw [← List.cons_append, ← List.append_assoc] at e
          obtain ⟨rfl, e2⟩ := List.append_inj' e rfl
          exact ⟨0x0a :: (unlines y ++ last), by rw [unlines_append]; simp [unlines], .inr ⟨_, rfl⟩⟩
      obtain ⟨r, e1, hr⟩ := e1
      rw [e1, List.append_assoc, List.append_assoc, scan_unlines none false _ x hx, scan_unlines none false _ x hx, scan_long none hnl hlong hr,
        scan_long none hnl hlong (by
          rcases hr with rfl | ⟨s, rfl⟩
          · exact .inr ⟨[], rfl⟩
          · exact .inr ⟨s ++ [0x0a], rfl⟩)]
  rw [serve_post, serve_post, hscan]

/-- **C84**, lines may be ended by carriage return and newline -/
theorem C84_crlf (env : Env) (sts : List Store) (ls : List Bytes) (h : ∀ l ∈ ls, (0x0a ∉ l) ∧ l.length < 65535 ∧ l.getLast? ≠ some 0x0d) :
    Server.serve env sts (post (unlines (ls.map (· ++ [0x0d])))) = Server.serve env sts (post (unlines ls)) := by
  have h1 := scan_unlines none false [] ls (fun l hl => ⟨(h l hl).1, by have := (h l hl).2.1; omega⟩)
  have h2 := scan_unlines none false [] (ls.map (· ++ [0x0d])) (by
    intro l hl
    obtain ⟨x, hx, rfl⟩ := List.mem_map.1 hl
    refine ⟨?_, ?_⟩
    · simp only [List.mem_append, List.mem_singleton, not_or]
      exact ⟨(h x hx).1, by decide⟩
    · have := (h x hx).2.1
      simp; omega)
  have h3 : (ls.map (· ++ [0x0d])).map noCR = ls.map noCR := by
    rw [List.map_map]
    apply List.map_congr_left
    intro l hl
    unfold noCR
    simp only [Function.comp]
    rw [if_neg (h l hl).2.2, if_pos (by simp)]
    simp
  rw [List.append_nil] at h1 h2
  rw [serve_post, serve_post, h1, h2, h3]

/-- but a second newline at the end makes a blank line, and blank lines are refused (what comes before is recorded) -/
theorem C84_blank_refuted (env : Env) (sts : List Store) (a : Bytes) (hacc : (Server.serve env sts (post (a ++ [0x0a]))).2 = .ok []) :
    Server.serve env sts (post (a ++ [0x0a] ++ [0x0a])) = ((Server.serve env sts (post (a ++ [0x0a]))).1, .refused 500) := by
  rw [C84_split env sts (a ++ [0x0a]) [0x0a] (.inr (by simp)), if_pos hacc,
    show ([0x0a] : Bytes) = [] ++ [0x0a] from rfl, C43_bad_line env _ [] ⟨by simp, by simp⟩ .missingTimestamp (by decide +kernel)]

end Starbow.Props
