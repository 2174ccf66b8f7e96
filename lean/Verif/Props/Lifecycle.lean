import Verif.Model.Lifecycle
import Mathlib.Tactic.Common
/-
Property theorems C72: starting and stopping the server.
-/
namespace Starbow.Props
open Starbow.Lifecycle

theorem run_append {s : State} (es fs : List Event) : run s (es ++ fs) = (run s es).bind fun t => run t fs := by
  induction es generalizing s with
  | nil => rfl
  | cons e es ih =>
    rw [List.cons_append, run, run]
    split
    · rfl
    · exact ih

/-- the handlers are there from the moment requests are accepted -/
def Ready (s : State) : Prop := (s.pc = .start ∨ s.pc = .bound ∨ s.pc = .returned true) ∨ s.mux = true

theorem ready_next {s : State} (h : Ready s) (e : Event) : Ready (next s e) := by
  obtain ⟨pc, mux, alive⟩ := s
  unfold Ready at *
  cases e with
  | request => exact h
  | signal x => cases pc <;> cases alive <;> simp_all [next]
  | step ok => cases pc <;> cases alive <;> cases ok <;> simp_all [next]

theorem ready_run : ∀ (es : List Event) (s t : State), Ready s → run s es = some t → Ready t
  | [], s, t, h, hr => by simp only [run, Option.some.injEq] at hr; exact hr ▸ h
  | e :: es, s, t, h, hr => by
    rw [run] at hr
    split at hr
    · simp at hr
    · exact ready_run es _ t (ready_next h e) hr

/-- **C72**, starting: in no history is a request handled before the handlers are registered (`s.mux` is not nil). -/
theorem C72_ready (es : List Event) (s : State) (h : run initial (es ++ [.request]) = some s) : s.mux = true := by
  rw [run_append] at h
  cases hr : run initial es with
  | none => rw [hr] at h; simp at h
  | some t =>
    have ht := ready_run es initial t (.inl (.inl rfl)) hr
    rw [hr] at h
    simp only [Option.bind_some, run] at h
    cases ha : accepts t with
    | false => simp [ha] at h
    | true =>
      rw [if_neg (by simp [ha]), Option.some.injEq] at h
      have hm : t.mux = true := by
        rcases ht with (ht | ht | ht) | ht
        · simp [accepts, ht] at ha
        · simp [accepts, ht] at ha
        · simp [accepts, ht] at ha
        · exact ht
      rw [← h]
      exact hm

theorem dead : ∀ (es : List Event) (s t : State), s.alive = false → s.pc ≠ .returned true → run s es = some t → t.pc ≠ .returned true
  | [], s, t, _, h, hr => by simp only [run, Option.some.injEq] at hr; exact hr ▸ h
  | e :: es, s, t, ha, h, hr => by
    rw [run] at hr
    split at hr
    · simp at hr
    · refine dead es (next s e) t ?_ ?_ hr <;> (obtain ⟨pc, mux, alive⟩ := s; cases e <;> cases pc <;> simp_all [next])

/-- **C72**, starting: if Serve returns an error, it is because it could not listen: its first step failed, no request was handled before,
and none is handled after. -/
theorem C72_listen (es : List Event) (s : State) (h : run initial es = some s) (hret : s.pc = .returned true) :
    Event.request ∉ es ∧ Event.step false ∈ es ∧ accepts s = false := by
  refine ⟨?_, ?_, by simp [accepts, hret]⟩
  · have key : ∀ (es : List Event) (s t : State), (s.pc ≠ .returned true → s.mux = true ∨ s.pc = .start ∨ s.pc = .bound) → accepts s = true →
        run s es = some t → t.pc ≠ .returned true := by
      intro es
      induction es with
      | nil =>
        intro s t _ ha hr
        simp only [run, Option.some.injEq] at hr
        rw [← hr]
        intro hp
        simp [accepts, hp] at ha
      | cons e es ih =>
        intro s t hs ha hr
        rw [run] at hr
        split at hr
        · simp at hr
        · by_cases ha' : accepts (next s e) = true
          · refine ih (next s e) t ?_ ha' hr
            intro _
            obtain ⟨pc, mux, alive⟩ := s
            cases e with
            | request => exact hs (by intro hp; simp only at hp; simp [accepts, hp] at ha)
            | signal x => cases pc <;> cases alive <;> simp_all [next, accepts]
            | step ok => cases pc <;> cases alive <;> cases ok <;> simp_all [next, accepts]
          · exact dead es (next s e) t (by
              obtain ⟨pc, mux, alive⟩ := s
              cases e with
              | request => exact absurd ha ha'
              | signal x => cases pc <;> cases alive <;> simp_all [next, accepts]
              | step ok => cases pc <;> cases alive <;> cases ok <;> simp_all [next, accepts]) (by
              obtain ⟨pc, mux, alive⟩ := s
              cases e with
              | request => exact absurd ha ha'
              | signal x => cases pc <;> cases alive <;> simp_all [next, accepts]
              | step ok => cases pc <;> cases alive <;> cases ok <;> simp_all [next, accepts]) hr
    intro hq
    obtain ⟨as, bs, rfl⟩ := List.append_of_mem hq
    rw [run_append] at h
    cases hr : run initial as with
    | none => rw [hr] at h; simp at h
    | some t =>
      rw [hr, Option.bind_some, run] at h
      split at h
      · simp at h
      · rename_i hc
        have ha : accepts t = true := by simpa using hc
        refine key bs (next t .request) s ?_ ha h hret
        intro _
        rcases ready_run as initial t (.inl (.inl rfl)) hr with (ht | ht | ht) | ht
        · exact .inr (.inl ht)
        · exact .inr (.inr ht)
        · simp [accepts, ht] at ha
        · exact .inl ht
  · by_contra hn
    have key : ∀ (es : List Event) (s t : State), Event.step false ∉ es → s.pc ≠ .returned true → run s es = some t → t.pc ≠ .returned true := by
      intro es
      induction es with
      | nil => intro s t _ h1 hr; simp only [run, Option.some.injEq] at hr; exact hr ▸ h1
      | cons e es ih =>
        intro s t hn h1 hr
        rw [run] at hr
        split at hr
        · simp at hr
        · refine ih (next s e) t (fun hx => hn (by simp [hx])) ?_ hr
          obtain ⟨pc, mux, alive⟩ := s
          cases e with
          | request => exact h1
          | signal x => cases pc <;> cases alive <;> simp_all [next]
          | step ok =>
            cases ok with
            | false => exact absurd (by simp) hn
            | true => cases pc <;> cases alive <;> simp_all [next]
    exact key es initial s hn (by simp [initial]) h hret

theorem stays (es : List Event) : ∀ s : State, (s.pc = .notified ∨ s.pc = .waiting) → (∀ x, Event.signal x ∉ es) → s.alive = true →
    ∀ t, run s es = some t → (t.pc = .notified ∨ t.pc = .waiting) ∧ t.alive = true := by
  induction es with
  | nil => intro s h _ ha t hr; simp only [run, Option.some.injEq] at hr; exact hr ▸ ⟨h, ha⟩
  | cons e es ih =>
    intro s h hn ha t hr
    rw [run] at hr
    split at hr
    · simp at hr
    · refine ih (next s e) ?_ (fun x hx => hn x (by simp [hx])) ?_ t hr
      · cases e with
        | request => exact h
        | signal x => exact absurd (by simp) (hn x)
        | step ok => rcases h with h | h <;> simp [next, ha, h]
      · cases e with
        | request => exact ha
        | signal x => exact absurd (by simp) (hn x)
        | step ok => rcases h with h | h <;> simp [next, ha, h]

/-- **C72**, stopping, partial: a signal ends the process if it arrives before `signal.Notify`, and makes Serve return without an error
if it arrives while Serve is waiting for it. Missing: the moment in between, see `C72_signal_refuted`. -/
theorem C72_signal_partial (es : List Event) (s : State) (x : Sig) (h : run initial es = some s) (hpc : s.pc ≠ .notified)
    (hret : ∀ e, s.pc ≠ .returned e) : (next s (.signal x)).alive = false ∨ (next s (.signal x)).pc = .returned false := by
  obtain ⟨pc, mux, alive⟩ := s
  cases pc <;> cases alive <;> simp_all [next]

/-- Serve does not return without an error unless a signal arrives -/
theorem C72_only_signal (es : List Event) (s : State) (h : run initial es = some s) (hs : ∀ x, Event.signal x ∉ es) : s.pc ≠ .returned false ∧ s.alive = true := by
  have key : ∀ (es : List Event) (s t : State), (∀ x, Event.signal x ∉ es) → s.pc ≠ .returned false → s.alive = true → run s es = some t →
      t.pc ≠ .returned false ∧ t.alive = true := by
    intro es
    induction es with
    | nil => intro s t _ h1 h2 hr; simp only [run, Option.some.injEq] at hr; exact hr ▸ ⟨h1, h2⟩
    | cons e es ih =>
      intro s t hn h1 h2 hr
      rw [run] at hr
      split at hr
      · simp at hr
      · refine ih (next s e) t (fun x hx => hn x (by simp [hx])) ?_ ?_ hr
        · cases e with
          | request => exact h1
          | signal x => exact absurd (by simp) (hn x)
          | step ok => obtain ⟨pc, mux, alive⟩ := s; cases pc <;> cases ok <;> simp_all [next]
        · cases e with
          | request => exact h2
          | signal x => exact absurd (by simp) (hn x)
          | step ok => obtain ⟨pc, mux, alive⟩ := s; cases pc <;> cases ok <;> simp_all [next]
  exact key es initial s hs (by simp [initial]) rfl h

/-- **C72 fails**: a signal that arrives after `signal.Notify` and before Serve waits on the channel (which has no buffer) is lost: the
server is accepting requests at that moment, and however long it goes on, without another signal neither does Serve return nor does the
process end. -/
theorem C72_signal_refuted (x : Sig) : ∃ es s, run initial (es ++ [.signal x]) = some s ∧ accepts s = true ∧
    ∀ fs t, (∀ y, Event.signal y ∉ fs) → run s fs = some t → t.alive = true ∧ ∀ e, t.pc ≠ .returned e := by
  refine ⟨[.step true, .step true, .step true, .step true], ⟨.notified, true, true⟩, by cases x <;> decide, by decide, ?_⟩
  intro fs t hn hr
  obtain ⟨h1, h2⟩ := stays fs ⟨.notified, true, true⟩ (.inl rfl) hn rfl t hr
  exact ⟨h2, fun e => by rcases h1 with h | h <;> rw [h] <;> simp⟩

/-- once Serve has returned an error, it stays so -/
theorem failed_stays : ∀ (fs : List Event) (s t : State), s.pc = .returned true → run s fs = some t → t.pc = .returned true := by
  intro fs
  induction fs with
  | nil => intro s t h hr; simp only [run, Option.some.injEq] at hr; rw [← hr]; exact h
  | cons e fs ih =>
    intro s t h hr
    rw [run] at hr
    split at hr
    · simp at hr
    · refine ih (next s e) t ?_ hr
      cases e with
      | step ok => unfold next; simp only [h]; split <;> exact h
      | signal x => unfold next; simp only [h]
      | request => exact h

/-- Converse of C72_listen: if Serve could not listen, the history has no request, Serve returned the error and (whatever comes later) nothing
is served. -/
theorem C72_listen_fails (fs : List Event) (s : State) (h : run initial (.step false :: fs) = some s) :
    s.pc = .returned true ∧ accepts s = false ∧ Event.request ∉ fs := by
  rw [run, if_neg (by simp)] at h
  have hp := failed_stays fs _ s (by rfl) h
  have h' : run initial (.step false :: fs) = some s := by rw [run, if_neg (by simp)]; exact h
  obtain ⟨h1, _, h3⟩ := C72_listen _ s h' hp
  exact ⟨hp, h3, fun hm => h1 (List.mem_cons_of_mem _ hm)⟩

/-- a history in which listening fails and two signals come -/
example : run initial [.step false, .signal .int, .step true, .signal .term] = some ⟨.returned true, false, true⟩ := by decide

/-- **C72 fails**: a failure to listen is not seen by whoever started the program: `main` exits with status 0, as after a normal stop. -/
theorem C72_exit_refuted : ∃ es s, run initial es = some s ∧ s.pc = .returned true ∧ exitStatus true s = some 0 :=
  ⟨[.step false], ⟨.returned true, false, true⟩, by decide, rfl, rfl⟩

/-- **C72**, exit status: 1 exactly if the demo collations cannot be set up (Serve then never runs); otherwise there is none while Serve
runs and 0 once it has returned, for whatever reason. -/
theorem C72_exit (setupOk : Bool) (es : List Event) (s : State) (_h : run initial es = some s) :
    (exitStatus setupOk s = some 1 ↔ setupOk = false) ∧ (exitStatus setupOk s = none ↔ setupOk = true ∧ ∀ e, s.pc ≠ .returned e) ∧
    (exitStatus setupOk s = some 0 ↔ setupOk = true ∧ ∃ e, s.pc = .returned e) := by
  obtain ⟨pc, m, f⟩ := s
  cases setupOk <;> cases pc <;> simp [exitStatus]

/-- a normal life: start, a request, a signal while waiting -/
example : run initial [.step true, .step true, .step true, .request, .step true, .step true, .request, .signal .term] =
    some ⟨.returned false, true, true⟩ := by decide

end Starbow.Props
