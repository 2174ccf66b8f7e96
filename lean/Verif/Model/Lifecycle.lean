import Verif.Model.Basic
/-
Model of `Server.Serve` and `waitSignal`, /repo/internal/server/server.go:49-95, as a state machine: the goroutine that called Serve makes
steps, the operating system delivers signals, and clients send requests. What happens inside a request is `Model/Server.lean`.
-/
namespace Starbow.Lifecycle

/-- the two signals asked for (server.go:85) -/
inductive Sig where
  | int
  | term
  deriving Repr, DecidableEq

/-- where the goroutine in Serve is -/
inductive Pc where
  /-- before `net.Listen`, server.go:50-60 -/
  | start
  /-- the listener is open, server.go:65-68: before `registerHandlers` -/
  | bound
  /-- the mux is set up, before `go hs.Serve(listener)`, server.go:72-77 -/
  | registered
  /-- requests are being accepted; before `signal.Notify`, server.go:79, 84 -/
  | serving
  /-- after `signal.Notify` (server.go:85), not yet waiting in `range ch` (server.go:88) -/
  | notified
  /-- blocked receiving from the channel, server.go:88 -/
  | waiting
  /-- Serve has returned; `err` tells whether with an error -/
  | returned (err : Bool)
  deriving Repr, DecidableEq

/-- the process -/
structure State where
  pc : Pc
  /-- `s.mux` is not nil -/
  mux : Bool
  /-- the process is alive -/
  alive : Bool
  deriving Repr, DecidableEq

def initial : State := ⟨.start, false, true⟩

/-- what can happen -/
inductive Event where
  /-- Serve makes its next step; `ok` is whether `net.Listen` succeeds, where it is called -/
  | step (ok : Bool)
  /-- the operating system delivers a signal -/
  | signal (s : Sig)
  /-- a client's request is handed to `ServeHTTP` by `hs.Serve` -/
  | request
  deriving Repr, DecidableEq

/-- One event. `signal.Notify` never blocks when it passes a signal on ("the caller must ensure that the channel has sufficient buffer
space"): the channel made at server.go:84 has none, so a signal is received only by a goroutine that is waiting at that moment. Before
`Notify` the two signals end the process, which is what Go does by default. A blocked goroutine makes no step. -/
def next (s : State) : Event → State
  | .step ok =>
    if s.alive then
      match s.pc with
      | .start => if ok then { s with pc := .bound } else { s with pc := .returned true }
      | .bound => { s with pc := .registered, mux := true }
      | .registered => { s with pc := .serving }
      | .serving => { s with pc := .notified }
      | .notified => { s with pc := .waiting }
      | .waiting => s
      | .returned _ => s
    else s
  | .signal _ =>
    match s.pc with
    | .notified => s
    | .waiting => if s.alive then { s with pc := .returned false } else s
    | .returned _ => s
    | _ => { s with alive := false }
  | .request => s

/-- may a request be handed over: `hs.Serve` has been started, server.go:79 -/
def accepts (s : State) : Bool :=
  s.alive &&
    match s.pc with
    | .serving => true
    | .notified => true
    | .waiting => true
    | .returned false => true
    | _ => false

/-- a history: every request comes when requests are accepted -/
def run : State → List Event → Option State
  | s, [] => some s
  | s, e :: es => if e = .request ∧ accepts s = false then none else run (next s e) es

/-- `main`, /repo/starbow.go:9-15: the exit status of the process, `none` while it runs. `setupOk` is whether `setupDemo` returned nil; if not,
`log.Fatal` exits with 1. `main` drops the error Serve returns. A process ended by a signal has no exit status here. -/
def exitStatus (setupOk : Bool) (s : State) : Option Nat :=
  if setupOk then
    match s.pc with
    | .returned _ => some 0
    | _ => none
  else some 1

end Starbow.Lifecycle
