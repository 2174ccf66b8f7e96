import Verif.Props.Unknown
import Verif.Props.ServerReplies
/-
Property C91 under concurrent requests.
-/
namespace Starbow.Props
open Starbow.Collation Starbow.Spec Starbow.Server Starbow.ServerConc Starbow.Cell Starbow.Probe

/-- the server's stores, as demo.go:50-63 sets them up -/
def serverOf (confs : List (Schema × Nat)) : List Conf := confs.map fun c => ⟨compile c.1, c.2⟩

/-- the rows agree on the fields that are used -/
def RowLike (P : FV → Bool) (r r' : Row) : Prop := r.data.filter P = r'.data.filter P

/-- the lines still to come are correct and agree on the fields that are used -/
def LinesLike (P : FV → Bool) (ls ls' : List Line) : Prop :=
  (∀ l ∈ ls, l.Correct) ∧ (∀ l ∈ ls', l.Correct) ∧ ls.map (fun l => l.fs.filter P) = ls'.map fun l => l.fs.filter P

/-- the two goroutines are at the same point, with rows and lines that agree on the fields that are used -/
inductive PCLike (P : FV → Bool) : PC → PC → Prop where
  | idle : PCLike P .idle .idle
  | ask (j : Nat) (q : Query) (s : Nat) : PCLike P (.ask j q s) (.ask j q s)
  | reading (j : Nat) (q : Query) (s i : Nat) : PCLike P (.reading j q s i) (.reading j q s i)
  | lines (j p : Nat) {ls ls' : List Line} (h : LinesLike P ls ls') (e : Option Err) :
      PCLike P (.lines j p (ls.map Line.text) e) (.lines j p (ls'.map Line.text) e)
  | row (j p : Nat) {ls ls' : List Line} (h : LinesLike P ls ls') (e : Option Err) {r r' : Row} (hr : RowLike P r r') (s : Nat) :
      PCLike P (.row j p (ls.map Line.text) e r s) (.row j p (ls'.map Line.text) e r' s)
  | writing (j p : Nat) {ls ls' : List Line} (h : LinesLike P ls ls') (e : Option Err) {r r' : Row} (hr : RowLike P r r') (s i : Nat) :
      PCLike P (.writing j p (ls.map Line.text) e r s i) (.writing j p (ls'.map Line.text) e r' s i)

/-- The two states of the server differ only in fields no collation uses: the goroutines are at the same points, the memory of every store is the same, byte by byte, and so are the
replies sent. -/
structure Like (P : FV → Bool) (steps steps' : List Spec.Step) (σ σ' : ServerConc.State) : Prop where
  mem : ∀ s, (σ'.stores s).m = (σ.stores s).m
  calls : ∀ s, (σ'.stores s).calls.length = (σ.stores s).calls.length
  pc : ∀ t, PCLike P (σ.pc t) (σ'.pc t)
  replies : σ'.replies = σ.replies
  origin : σ'.origin = σ.origin
  reqs' : σ'.reqs = (steps'.map Step.request).take σ.reqs.length

theorem LinesLike.cons {P : FV → Bool} {l : Line} {ls ls₀ : List Line} (h : LinesLike P (l :: ls) ls₀) :
    ∃ l' ls', ls₀ = l' :: ls' ∧ l.Correct ∧ l'.Correct ∧ l.fs.filter P = l'.fs.filter P ∧ LinesLike P ls ls' := by
  obtain ⟨h1, h2, h3⟩ := h
  cases ls₀ with
  | nil => simp at h3
  | cons l' ls' =>
    rw [List.map_cons, List.map_cons, List.cons.injEq] at h3
    exact ⟨l', ls', rfl, h1 l (by simp), h2 l' (by simp), h3.1, fun x hx => h1 x (by simp [hx]), fun x hx => h2 x (by simp [hx]), h3.2⟩

theorem line_row {l : Line} (h : l.Correct) : parseRow l.text = .val (.ok ⟨decimalValue l.ts * 1000, l.fs⟩) := by
  have := line_parse h
  unfold noCR at this
  rwa [if_neg h.no_cr] at this

theorem usesOnly_conf (confs : List (Schema × Nat)) {s : Nat} {c : Conf} (h : (serverOf confs)[s]? = some c) :
    UsesOnly (fun fv => decide (UsedBy confs fv.f)) c.coll := by
  unfold serverOf at h
  rw [List.getElem?_map] at h
  cases hc : confs[s]? with
  | none => rw [hc] at h; simp at h
  | some d =>
    rw [hc] at h
    obtain rfl := Option.some.inj h
    exact usesOnly_new confs (newStore d.1 d.2) (List.mem_map.2 ⟨d, List.mem_of_getElem? hc, rfl⟩)

theorem performs_used (lib : Lib) (c : Collator) (P : FV → Bool) (hP : UsesOnly P c) {r r' : Row} (h : RowLike P r r') {fn : CFn}
    (hf : StoreConc.Performs lib c r fn) : StoreConc.Performs lib c r' fn := by
  intro d init hd
  have e : Collation.update lib c r' d init = Collation.update lib c r d init := congrFun (congrFun (update_used lib c P hP r'.dataTime r.dataTime r'.data r.data h.symm) d) init
  rw [e]
  exact hf d init hd

/-- the same task is set for the same request -/
theorem like_ctx (confs : List (Schema × Nat)) {st st' : Spec.Step} (h : SameUsed confs st st') : st'.request.ctx = st.request.ctx := by
  cases h <;> rfl

theorem PCLike.of_idle {P : FV → Bool} {q : PC} (h : PCLike P .idle q) : q = .idle := by cases h; rfl

theorem PCLike.of_ask {P : FV → Bool} {q : PC} {j : Nat} {a : Query} {s : Nat} (h : PCLike P (.ask j a s) q) : q = .ask j a s := by cases h; rfl

theorem PCLike.of_reading {P : FV → Bool} {q : PC} {j : Nat} {a : Query} {s i : Nat} (h : PCLike P (.reading j a s i) q) : q = .reading j a s i := by cases h; rfl

theorem PCLike.of_lines {P : FV → Bool} {q : PC} {j p : Nat} {L : List Bytes} {e : Option Err} (h : PCLike P (.lines j p L e) q) :
    ∃ ls ls', L = ls.map Line.text ∧ q = .lines j p (ls'.map Line.text) e ∧ LinesLike P ls ls' := by
  cases h with | lines _ _ h => exact ⟨_, _, rfl, rfl, h⟩

theorem PCLike.of_row {P : FV → Bool} {q : PC} {j p : Nat} {L : List Bytes} {e : Option Err} {r : Row} {s : Nat} (h : PCLike P (.row j p L e r s) q) :
    ∃ ls ls' r', L = ls.map Line.text ∧ q = .row j p (ls'.map Line.text) e r' s ∧ LinesLike P ls ls' ∧ RowLike P r r' := by
  cases h with | row _ _ h _ hr => exact ⟨_, _, _, rfl, rfl, h, hr⟩

theorem PCLike.of_writing {P : FV → Bool} {q : PC} {j p : Nat} {L : List Bytes} {e : Option Err} {r : Row} {s i : Nat} (h : PCLike P (.writing j p L e r s i) q) :
    ∃ ls ls' r', L = ls.map Line.text ∧ q = .writing j p (ls'.map Line.text) e r' s i ∧ LinesLike P ls ls' ∧ RowLike P r r' := by
  cases h with | writing _ _ h _ hr => exact ⟨_, _, _, rfl, rfl, h, hr⟩

variable {confs : List (Schema × Nat)} {steps steps' : List Spec.Step}

theorem mayCancel_like (h : List.Forall₂ (SameUsed confs) steps steps') {P : FV → Bool} {σ σ' : ServerConc.State} (hl : Like P steps steps' σ σ')
    (hreq : σ.reqs <+: steps.map Step.request) {j : Nat} (hc : σ.MayCancel j) : σ'.MayCancel j := by
  obtain ⟨req, hj, hne⟩ := hc
  have hlt : j < σ.reqs.length := (List.getElem?_eq_some_iff.1 hj).1
  obtain ⟨more, hmo⟩ := hreq
  have h1 : (steps.map Step.request)[j]? = some req := by rw [← hmo, List.getElem?_append_left hlt]; exact hj
  rw [List.getElem?_map] at h1
  cases hs : steps[j]? with
  | none => rw [hs] at h1; simp at h1
  | some st =>
    rw [hs] at h1
    obtain rfl := Option.some.inj h1
    obtain ⟨hlen, hall⟩ := List.forall₂_iff_get.1 h
    have hjs : j < steps.length := (List.getElem?_eq_some_iff.1 hs).1
    have hjs' : j < steps'.length := by omega
    have hsame := hall j hjs hjs'
    refine ⟨steps'[j].request, ?_, ?_⟩
    · rw [hl.reqs', List.getElem?_take_of_lt hlt, List.getElem?_map, List.getElem?_eq_getElem hjs']
      rfl
    · have := like_ctx confs hsame
      simp only [List.get_eq_getElem] at this
      rw [this]
      have e : steps[j] = st := by
        rw [List.getElem?_eq_getElem hjs] at hs
        exact Option.some.inj hs
      rw [e]
      exact hne

/-- one step of one server can be followed by the other -/
theorem step_like (env : Env) (h : List.Forall₂ (SameUsed confs) steps steps') (hc : ∀ s ∈ steps, s.Correct) (hc' : ∀ s ∈ steps', s.Correct)
    {σ σ' τ : ServerConc.State} (hl : Like (fun fv => decide (UsedBy confs fv.f)) steps steps' σ σ') (hst : ServerConc.Step env (serverOf confs) σ τ)
    (hreq : τ.reqs <+: steps.map Step.request) :
    ∃ τ', ServerConc.Step env (serverOf confs) σ' τ' ∧ Like (fun fv => decide (UsedBy confs fv.f)) steps steps' τ τ' := by
  have hlen : steps.length = steps'.length := h.length_eq
  have upd_pc : ∀ {f g : Nat → PC} (_ : ∀ u, PCLike (fun fv => decide (UsedBy confs fv.f)) (f u) (g u)) (t : Nat) {p q : PC}
      (_ : PCLike (fun fv => decide (UsedBy confs fv.f)) p q) (u : Nat), PCLike (fun fv => decide (UsedBy confs fv.f)) (upd f t p u) (upd g t q u) := by
    intro f g hfg t p q hpq u
    unfold upd
    split
    · exact hpq
    · exact hfg u
  have goto_like : ∀ {t : Nat} {p q : PC}, PCLike (fun fv => decide (UsedBy confs fv.f)) p q →
      Like (fun fv => decide (UsedBy confs fv.f)) steps steps' (σ.goto t p) (σ'.goto t q) := fun hpq =>
    ⟨hl.mem, hl.calls, upd_pc hl.pc _ hpq, hl.replies, hl.origin, hl.reqs'⟩
  have reply_like : ∀ {t j : Nat} {r : Reply}, Like (fun fv => decide (UsedBy confs fv.f)) steps steps' (σ.reply t j r) (σ'.reply t j r) := fun {t j r} =>
    ⟨hl.mem, hl.calls, upd_pc hl.pc _ .idle, by show σ'.replies ++ _ = σ.replies ++ _; rw [hl.replies], hl.origin, hl.reqs'⟩
  have enter_like : ∀ {t s : Nat} {st st' : StoreConc.State} {o : Nat × Nat} {p q : PC}, st'.m = st.m → st'.calls.length = st.calls.length →
      PCLike (fun fv => decide (UsedBy confs fv.f)) p q →
      Like (fun fv => decide (UsedBy confs fv.f)) steps steps' (σ.enter t s st o p) (σ'.enter t s st' o q) := by
    intro t s st st' o p q hm hcl hpq
    refine ⟨?_, ?_, upd_pc hl.pc _ hpq, hl.replies, ?_, hl.reqs'⟩
    · intro u
      show (upd σ'.stores s st' u).m = (upd σ.stores s st u).m
      unfold upd
      split
      · exact hm
      · exact hl.mem u
    · intro u
      show (upd σ'.stores s st' u).calls.length = (upd σ.stores s st u).calls.length
      unfold upd
      split
      · exact hcl
      · exact hl.calls u
    · show upd σ'.origin s (σ'.origin s ++ [o]) = upd σ.origin s (σ.origin s ++ [o])
      rw [hl.origin]
  have hreq0 : σ.reqs <+: steps.map Step.request := by
    obtain ⟨new, hnew⟩ := (ext_steps (.tail (.refl _) hst)).reqs
    obtain ⟨more, hm⟩ := hreq
    rw [← hnew, List.append_assoc] at hm
    exact ⟨_, hm⟩
  have hP : ∀ {s : Nat} {c : Conf}, (serverOf confs)[s]? = some c → UsesOnly (fun fv => decide (UsedBy confs fv.f)) c.coll := fun h => usesOnly_conf confs h
  have rlen : σ'.reqs.length = σ.reqs.length := by
    have := hreq0.length_le
    rw [hl.reqs', List.length_take]
    rw [List.length_map] at this ⊢
    omega
  cases hst with
  | receive t req hp =>
    have hp' : σ'.pc t = .idle := by have := hl.pc t; rw [hp] at this; exact this.of_idle
    have hr : (σ.receive env (serverOf confs) t req).reqs = σ.reqs ++ [req] := by
      unfold State.receive
      simp only
      split <;> rfl
    rw [hr] at hreq
    have hj : steps[σ.reqs.length]?.map Step.request = some req := by
      obtain ⟨more, hm⟩ := hreq
      rw [← List.getElem?_map, ← hm, List.append_assoc, List.getElem?_append_right (Nat.le_refl _), Nat.sub_self]
      rfl
    cases hs : steps[σ.reqs.length]? with
    | none => rw [hs] at hj; simp at hj
    | some st =>
      rw [hs] at hj
      obtain rfl := Option.some.inj hj
      have hjs : σ.reqs.length < steps.length := (List.getElem?_eq_some_iff.1 hs).1
      have hjs' : σ.reqs.length < steps'.length := by omega
      have hst : steps[σ.reqs.length] = st := by
        rw [List.getElem?_eq_getElem hjs] at hs
        exact Option.some.inj hs
      obtain ⟨st', hst'⟩ : ∃ st', st' = steps'[σ.reqs.length] := ⟨_, rfl⟩
      have hsame : SameUsed confs st st' := by
        have := (List.forall₂_iff_get.1 h).2 _ hjs hjs'
        simp only [List.get_eq_getElem] at this
        rwa [hst, ← hst'] at this
      have hcs : st.Correct := hc _ (hst ▸ List.getElem_mem hjs)
      have hcs' : st'.Correct := hc' _ (hst' ▸ List.getElem_mem hjs')
      have hreqs' : σ'.reqs ++ [st'.request] = (steps'.map Step.request).take (σ.reqs ++ [st.request]).length := by
        rw [hl.reqs', List.length_append, List.length_singleton, List.take_add_one, List.getElem?_map, List.getElem?_eq_getElem hjs', hst']
        rfl
      refine ⟨_, .receive σ' t st'.request hp', ?_⟩
      have base : Like (fun fv => decide (UsedBy confs fv.f)) steps steps' { σ with reqs := σ.reqs ++ [st.request] } { σ' with reqs := σ'.reqs ++ [st'.request] } :=
        ⟨hl.mem, hl.calls, hl.pc, hl.replies, hl.origin, hreqs'⟩
      unfold State.receive
      simp only
      rw [rlen]
      cases hsame with
      | posted hls =>
        rename_i ls ls'
        rw [task_post env _ ls hcs, task_post env _ ls' hcs']
        exact ⟨base.mem, base.calls, upd_pc hl.pc t (.lines _ _ ⟨hcs, hcs', hls⟩ _), base.replies, base.origin, base.reqs'⟩
      | other req =>
        cases ht : task env (serverOf confs) (Spec.Step.other req).request with
        | answer r =>
          exact ⟨base.mem, base.calls, upd_pc hl.pc t .idle, by show σ'.replies ++ _ = σ.replies ++ _; rw [hl.replies], base.origin, base.reqs'⟩
        | observe L e => exact absurd (task_observe ht) hcs
        | query s q => exact ⟨base.mem, base.calls, upd_pc hl.pc t (.ask _ _ _), base.replies, base.origin, base.reqs'⟩
  | finish t j p e hp =>
    have hp' := hl.pc t
    rw [hp] at hp'
    obtain ⟨ls, ls', h1, h2, h3⟩ := hp'.of_lines
    obtain rfl := List.map_eq_nil_iff.1 h1.symm
    obtain rfl : ls' = [] := by have := h3.2.2; simpa using this.symm
    exact ⟨_, .finish σ' t j p e h2, reply_like⟩
  | cancelLine t j p line ls e hp hca =>
    have hp' := hl.pc t
    rw [hp] at hp'
    obtain ⟨ls, ls', h1, h2, h3⟩ := hp'.of_lines
    obtain ⟨l, ls, rfl, e1, e2⟩ := List.map_eq_cons_iff.1 h1.symm
    obtain ⟨l', ls', rfl, -, -, -, -⟩ := h3.cons
    exact ⟨_, .cancelLine σ' t j p _ _ e h2 (mayCancel_like h hl hreq0 hca), reply_like⟩
  | parse t j p line ls e hp =>
    have hp' := hl.pc t
    rw [hp] at hp'
    obtain ⟨ls, ls', h1, h2, h3⟩ := hp'.of_lines
    obtain ⟨l, ls, rfl, rfl, rfl⟩ := List.map_eq_cons_iff.1 h1.symm
    obtain ⟨l', ls', rfl, c1, c2, c3, c4⟩ := h3.cons
    refine ⟨_, .parse σ' t j p _ _ e h2, ?_⟩
    unfold State.parse
    rw [line_row c1, line_row c2]
    exact goto_like (.row _ _ c4 _ (show RowLike _ ⟨_, l.fs⟩ ⟨_, l'.fs⟩ from c3) _)
  | stored t j p ls e r hp =>
    have hp' := hl.pc t
    rw [hp] at hp'
    obtain ⟨ls, ls', r', rfl, h2, h3, h4⟩ := hp'.of_row
    exact ⟨_, .stored σ' t j p _ e r' h2, goto_like (.lines _ _ h3 _)⟩
  | skip t j p ls e r s c hp hs hk =>
    have hp' := hl.pc t
    rw [hp] at hp'
    obtain ⟨ls, ls', r', rfl, h2, h3, h4⟩ := hp'.of_row
    exact ⟨_, .skip σ' t j p _ e r' s c h2 hs (by rw [← key_used _ _ (hP hs) _ _ h4]; exact hk), goto_like (.row _ _ h3 _ h4 _)⟩
  | cancelWrite t j p ls e r s c k hp hs hk hca =>
    have hp' := hl.pc t
    rw [hp] at hp'
    obtain ⟨ls, ls', r', rfl, h2, h3, h4⟩ := hp'.of_row
    exact ⟨_, .cancelWrite σ' t j p _ e r' s c k h2 hs (by rw [← key_used _ _ (hP hs) _ _ h4]; exact hk) (mayCancel_like h hl hreq0 hca), reply_like⟩
  | write t j p ls e r s c k fn hp hs hi hk hf =>
    have hp' := hl.pc t
    rw [hp] at hp'
    obtain ⟨ls, ls', r', rfl, h2, h3, h4⟩ := hp'.of_row
    refine ⟨_, .write σ' t j p _ e r' s c k fn h2 hs (by rw [hl.mem]; exact hi) (by rw [← key_used _ _ (hP hs) _ _ h4]; exact hk)
      (performs_used env.lib c.coll _ (hP hs) h4 hf), ?_⟩
    rw [hl.calls s]
    exact enter_like (by simp only; rw [hl.mem]) (by simp only [List.length_append, List.length_singleton, hl.calls]) (.writing _ _ h3 _ h4 _ _)
  | wrote t j p ls e r s i ret err hp hr he =>
    have hp' := hl.pc t
    rw [hp] at hp'
    obtain ⟨ls, ls', r', rfl, h2, h3, h4⟩ := hp'.of_writing
    refine ⟨_, .wrote σ' t j p _ e r' s i ret err h2 (by rw [hl.mem]; exact hr) he, ?_⟩
    split
    · exact goto_like (.row _ _ h3 _ h4 _)
    · exact reply_like
  | noKey t j q s c hp hs hk =>
    have hp' := hl.pc t
    rw [hp] at hp'
    exact ⟨_, .noKey σ' t j q s c hp'.of_ask hs hk, reply_like⟩
  | noBuffer t j q s c k hp hs hk hn =>
    have hp' := hl.pc t
    rw [hp] at hp'
    exact ⟨_, .noBuffer σ' t j q s c k hp'.of_ask hs hk hn, reply_like⟩
  | read t j q s c k hp hs hi hk hn =>
    have hp' := hl.pc t
    rw [hp] at hp'
    refine ⟨_, .read σ' t j q s c k hp'.of_ask hs (by rw [hl.mem]; exact hi) hk hn, ?_⟩
    rw [hl.calls s]
    exact enter_like (by simp only; rw [hl.mem]) (by simp only [List.length_append, List.length_singleton, hl.calls]) (.reading _ _ _ _)
  | answer t j q s i c ret out hp hs hr ho =>
    have hp' := hl.pc t
    rw [hp] at hp'
    exact ⟨_, .answer σ' t j q s i c ret out hp'.of_reading hs (by rw [hl.mem]; exact hr) ho, reply_like⟩
  | inside t s c m' hs hm =>
    refine ⟨_, .inside σ' t s c m' hs (by rw [hl.mem]; exact hm), ?_, ?_, hl.pc, hl.replies, hl.origin, hl.reqs'⟩
    · intro u
      show (upd σ'.stores s _ u).m = (upd σ.stores s _ u).m
      unfold upd
      split
      · rfl
      · exact hl.mem u
    · intro u
      show (upd σ'.stores s _ u).calls.length = (upd σ.stores s _ u).calls.length
      unfold upd
      split
      · exact hl.calls s
      · exact hl.calls u

/-- for every run on the one list of requests there is a run on the other -/
theorem run_like (env : Env) (confs : List (Schema × Nat)) (steps steps' : List Spec.Step) (hc : ∀ s ∈ steps, s.Correct) (hc' : ∀ s ∈ steps', s.Correct)
    (h : List.Forall₂ (SameUsed confs) steps steps') (σ : ServerConc.State) (hr : ServerConc.Steps env (serverOf confs) ServerConc.init σ)
    (hreq : σ.reqs = steps.map Step.request) :
    ∃ σ', ServerConc.Steps env (serverOf confs) ServerConc.init σ' ∧ σ'.reqs = steps'.map Step.request ∧ σ'.replies = σ.replies ∧
      ∀ s, (σ'.stores s).m = (σ.stores s).m := by
  have key : ∀ σ₀ σ, ServerConc.Steps env (serverOf confs) σ₀ σ → σ₀ = ServerConc.init → σ.reqs <+: steps.map Step.request →
      ∃ σ', ServerConc.Steps env (serverOf confs) ServerConc.init σ' ∧ Like (fun fv => decide (UsedBy confs fv.f)) steps steps' σ σ' := by
    intro σ₀ σ hr
    induction hr with
    | refl =>
      rintro rfl -
      exact ⟨_, .refl _, fun _ => rfl, fun _ => rfl, fun _ => .idle, rfl, rfl, rfl⟩
    | @tail σ' σ'' h1 h2 ih =>
      intro h0 hreq
      have hreq0 : σ'.reqs <+: steps.map Step.request := by
        obtain ⟨new, hnew⟩ := (ext_steps (.tail (.refl _) h2)).reqs
        obtain ⟨more, hm⟩ := hreq
        rw [← hnew, List.append_assoc] at hm
        exact ⟨_, hm⟩
      obtain ⟨τ, g1, g2⟩ := ih h0 hreq0
      obtain ⟨τ', k1, k2⟩ := step_like env h hc hc' g2 h2 hreq
      exact ⟨τ', .tail g1 k1, k2⟩
  obtain ⟨σ', h1, h2⟩ := key _ σ hr rfl (by rw [hreq])
  refine ⟨σ', h1, ?_, h2.replies, h2.mem⟩
  rw [h2.reqs', hreq, List.length_map, h.length_eq]
  exact List.take_of_length_le (by simp)

theorem sameUsed_symm {confs : List (Schema × Nat)} {a b : Spec.Step} (h : SameUsed confs a b) : SameUsed confs b a := by
  cases h with
  | posted h => exact .posted h.symm
  | other r => exact .other r

/-- a server with these collations can, after receiving these requests in this order, have sent the replies `R` (in this order, each with the number of its request) and have the stores
in the state `M` (the memory, the locks and who is inside) -/
def CanReach (env : Env) (confs : List (Schema × Nat)) (steps : List Spec.Step) (R : List (Nat × Reply)) (M : Nat → BufmapConc.State) : Prop :=
  ∃ σ, ServerConc.Steps env (serverOf confs) ServerConc.init σ ∧ σ.reqs = steps.map Step.request ∧ σ.replies = R ∧ ∀ s, (σ.stores s).m = M s

/-- **C91** under concurrent requests: take two lists of requests that differ in nothing but fields no collation of the server uses, times and delimiters. With any number of requests in
progress and any interleaving, what can happen with the one can happen with the other: the same replies in the same order, the same bytes in every store. -/
theorem C91_concurrent (env : Env) (confs : List (Schema × Nat)) (steps steps' : List Spec.Step) (hc : ∀ s ∈ steps, s.Correct) (hc' : ∀ s ∈ steps', s.Correct)
    (h : List.Forall₂ (SameUsed confs) steps steps') (R : List (Nat × Reply)) (M : Nat → BufmapConc.State) :
    CanReach env confs steps R M ↔ CanReach env confs steps' R M := by
  have dir : ∀ steps steps' : List Spec.Step, (∀ s ∈ steps, s.Correct) → (∀ s ∈ steps', s.Correct) → List.Forall₂ (SameUsed confs) steps steps' →
      CanReach env confs steps R M → CanReach env confs steps' R M := by
    rintro steps steps' hc hc' h ⟨σ, h1, h2, h3, h4⟩
    obtain ⟨σ', k1, k2, k3, k4⟩ := run_like env confs steps steps' hc hc' h σ h1 h2
    exact ⟨σ', k1, k2, by rw [k3, h3], fun s => by rw [k4, h4]⟩
  have hsym : List.Forall₂ (SameUsed confs) steps' steps := (h.flip).imp fun _ _ h => sameUsed_symm h
  exact ⟨dir steps steps' hc hc' h, dir steps' steps hc' hc hsym⟩

end Starbow.Props
