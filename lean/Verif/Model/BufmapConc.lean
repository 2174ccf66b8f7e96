import Verif.Model.Cell
/-
Concurrent model of /repo/internal/bufmap/bufmap.go: any number of goroutines (numbered by `Nat`), each step one atomic
operation, one mutex operation or one access to a byte of the values array by one goroutine, in any order. Memory is
sequentially consistent.
-/
namespace Starbow.BufmapConc
open Starbow.Probe Starbow.Cell

/-- a call -/
inductive Op where
  | upd (k : U64) (fn : CFn)
  | get (k : U64) (buf : Bytes)

/-- what a call returned -/
inductive Ret where
  /-- `Update` returned what its function returned -/
  | ran (err : Option Err)
  | invalidKey
  | outOfSlots
  /-- `Get`: whether found, what the caller's buffer then holds, and (history only) the increments of the slot's
  sequence number between the two loads of it -/
  | got (found : Bool) (buf : Bytes) (during : Nat)
  deriving DecidableEq

/-- local state of a goroutine; `id` numbers the call being executed -/
inductive PC where
  | idle
  /-- `Update` in the loop of bufmap.go:104-136 -/
  | uProbe (id : Nat) (k : U64) (fn : CFn) (init : Bool) (p : PPC)
  /-- `Update` at bufmap.go:138-153, slot `x` -/
  | w (k : U64) (x : Nat) (e : Entry) (p : WPC)
  /-- `Get` in the loop of bufmap.go:53-64 -/
  | gProbe (id : Nat) (k : U64) (buf : Bytes) (i : Nat)
  /-- `Get` at bufmap.go:66-87, slot `x` -/
  | r (id : Nat) (k : U64) (buf : Bytes) (x : Nat) (p : RPC)
  /-- `Get` panicked on bufmap.go:76 -/
  | gone

/-- The map (bufmap.go:21-42; `keys[x].key` is `keys x`, `keys[x].seq` and `.mu` and the values array are `cells`), the
goroutines and, as history, the calls made so far (a call's number is its index) and the results returned so far. -/
structure State where
  keys : Nat → U64
  cells : Cells
  pc : Nat → PC
  invs : List Op
  rets : List (Nat × Ret)

/-- bufmap.go:29-36 `New` -/
def init : State := ⟨fun _ => 0, Cell.init, fun _ => .idle, [], []⟩

/-- goroutine `t` starts a call: bufmap.go:95-103 (`Update`, which returns at once for key 0), 49-52 (`Get`) -/
def call (σ : State) (t : Nat) (op : Op) : State :=
  let id := σ.invs.length
  let σ := { σ with invs := σ.invs ++ [op] }
  match op with
  | .upd k fn =>
    if k = 0 then { σ with rets := σ.rets ++ [(id, .invalidKey)] }
    else { σ with pc := upd σ.pc t (.uProbe id k fn false (.load 0)) }
  | .get k buf => { σ with pc := upd σ.pc t (.gProbe id k buf 0) }

/-- Goroutine `t` executes its next atomic operation, for a map of `l` slots of `s` bytes. Line 76 copies
`m.values[x*m.s : x*(m.s+1)]` as in the code: the slice has length `x`, so `min(len(buf), x)` bytes are copied, and its
bound check panics if `x*(s+1) > l*s`. -/
def step (l s : Nat) (σ : State) (t : Nat) : Option State :=
  match σ.pc t with
  | .idle => none
  | .gone => none
  | .uProbe id k fn init p =>
    match probeStep l k σ.keys init p with
    | (keys, .go p' init') => some { σ with keys := keys, pc := upd σ.pc t (.uProbe id k fn init' p') }
    | (keys, .found x init') => some { σ with keys := keys, pc := upd σ.pc t (.w k x ⟨id, fn, init'⟩ .lock) }
    | (keys, .full) => some { σ with keys := keys, pc := upd σ.pc t .idle, rets := σ.rets ++ [(id, .outOfSlots)] }
  | .w k x e p =>
    match wstep s t x e σ.cells p with
    | none => none
    | some (c, .go p') => some { σ with cells := c, pc := upd σ.pc t (.w k x e p') }
    | some (c, .ret err) => some { σ with cells := c, pc := upd σ.pc t .idle, rets := σ.rets ++ [(e.id, .ran err)] }
  | .gProbe id k buf i =>
    match lookStep l k σ.keys i with
    | .inl x => some { σ with pc := upd σ.pc t (.r id k buf x .load1) }
    | .inr none => some { σ with pc := upd σ.pc t .idle, rets := σ.rets ++ [(id, .got false buf 0)] }
    | .inr (some i') => some { σ with pc := upd σ.pc t (.gProbe id k buf i') }
  | .r id k buf x p =>
    if p = .load1 ∧ (σ.cells.seq x).toNat % 2 = 0 ∧ l * s < x * (s + 1) then
      some { σ with pc := upd σ.pc t .gone }
    else
      match rstep s x (min buf.length x) σ.cells p with
      | .go p' => some { σ with pc := upd σ.pc t (.r id k buf x p') }
      | .done got during =>
        some { σ with pc := upd σ.pc t .idle, rets := σ.rets ++ [(id, .got true (got ++ buf.drop got.length) during)] }

/-- One transition of the whole system. -/
inductive Step (l s : Nat) : State → State → Prop where
  | call (σ : State) (t : Nat) (op : Op) (h : σ.pc t = .idle) : Step l s σ (call σ t op)
  | step (σ σ' : State) (t : Nat) (h : step l s σ t = some σ') : Step l s σ σ'

/-- any number of transitions -/
inductive Steps (l s : Nat) : State → State → Prop where
  | refl (σ : State) : Steps l s σ σ
  | tail {σ σ' σ'' : State} : Steps l s σ σ' → Step l s σ' σ'' → Steps l s σ σ''

end Starbow.BufmapConc
