import Verif.Model.ProbeConc
/-
Concurrent model of /repo/internal/incmap/incmap.go: any number of goroutines (numbered by `Nat`), each step one
atomic memory operation of one goroutine, in any order (sequentially consistent, as sync/atomic is).
-/
namespace Starbow.IncmapConc
open Starbow.Probe

/-- a call -/
inductive Op where
  | inc (k d : U64)
  | get (k : U64)
  deriving Repr, DecidableEq

/-- what a call returned -/
inductive Ret where
  | inc (ok : Bool)
  | get (v : U64) (found : Bool)
  deriving Repr, DecidableEq

/-- local state of a goroutine; `id` numbers the call being executed -/
inductive PC where
  | idle
  /-- in the loop of `Inc`, incmap.go:39-68 -/
  | probe (id : Nat) (k d : U64) (p : PPC)
  /-- about to execute incmap.go:70 -/
  | add (id : Nat) (k d : U64) (x : Nat)
  /-- in the loop of `Get`, incmap.go:80-91 -/
  | look (id : Nat) (k : U64) (i : Nat)
  /-- about to execute incmap.go:93 -/
  | load (id : Nat) (k : U64) (x : Nat)
  deriving Repr, DecidableEq

/-- The map (incmap.go:11-15), the goroutines and, as history, the calls made so far (a call's number is its
index) and the results returned so far. -/
structure State where
  keys : Nat → U64
  vals : Nat → U64
  pc : Nat → PC
  invs : List Op
  rets : List (Nat × Ret)

/-- incmap.go:18-24 `New` -/
def init : State := ⟨fun _ => 0, fun _ => 0, fun _ => .idle, [], []⟩

/-- goroutine `t` starts a call: incmap.go:31-36 (`Inc`, which returns at once for key 0), 76-79 (`Get`) -/
def call (σ : State) (t : Nat) (op : Op) : State :=
  let id := σ.invs.length
  let σ := { σ with invs := σ.invs ++ [op] }
  match op with
  | .inc k d =>
    if k = 0 then { σ with rets := σ.rets ++ [(id, .inc false)] }
    else { σ with pc := upd σ.pc t (.probe id k d (.load 0)) }
  | .get k => { σ with pc := upd σ.pc t (.look id k 0) }

/-- goroutine `t` executes its next atomic operation (a return is part of the last one) -/
def step (l : Nat) (σ : State) (t : Nat) : Option State :=
  match σ.pc t with
  | .idle => none
  | .probe id k d p =>
    match probeStep l k σ.keys false p with
    | (keys, .go p' _) => some { σ with keys := keys, pc := upd σ.pc t (.probe id k d p') }
    | (keys, .found x _) => some { σ with keys := keys, pc := upd σ.pc t (.add id k d x) }
    | (keys, .full) => some { σ with keys := keys, pc := upd σ.pc t .idle, rets := σ.rets ++ [(id, .inc false)] }
  | .add id _ d x =>
    some { σ with vals := upd σ.vals x (σ.vals x + d), pc := upd σ.pc t .idle, rets := σ.rets ++ [(id, .inc true)] }
  | .look id k i =>
    match lookStep l k σ.keys i with
    | .inl x => some { σ with pc := upd σ.pc t (.load id k x) }
    | .inr none => some { σ with pc := upd σ.pc t .idle, rets := σ.rets ++ [(id, .get 0 false)] }
    | .inr (some i') => some { σ with pc := upd σ.pc t (.look id k i') }
  | .load id _ x => some { σ with pc := upd σ.pc t .idle, rets := σ.rets ++ [(id, .get (σ.vals x) true)] }

/-- One transition of the whole system. -/
inductive Step (l : Nat) : State → State → Prop where
  | call (σ : State) (t : Nat) (op : Op) (h : σ.pc t = .idle) : Step l σ (call σ t op)
  | step (σ σ' : State) (t : Nat) (h : step l σ t = some σ') : Step l σ σ'

/-- any number of transitions -/
inductive Steps (l : Nat) : State → State → Prop where
  | refl (σ : State) : Steps l σ σ
  | tail {σ σ' σ'' : State} : Steps l σ σ' → Step l σ' σ'' → Steps l σ σ''

end Starbow.IncmapConc
