import Verif.Model.Cell
/-
Concurrent model of /repo/internal/seqlock/seqlock.go, with the array size `n` (1024 in the code) as a parameter. One step
is one atomic operation, one mutex operation or one access to a byte of the shared array; memory is sequentially
consistent. The cell number is always 0.
-/
namespace Starbow.Seqlock
open Starbow.Probe Starbow.Cell

/-- A function passed to `Update`: given the private copy of the data, what it leaves in that copy (of which the first
`n` bytes matter) and the error it returns, or a panic. -/
abbrev SFn := Bytes → Bytes × Out (Option Err)

/-- a call -/
inductive Op where
  | put (v : Bytes)
  | update (fn : SFn)
  | get

/-- `copy(s.data[:], v[:])`: the byte writes, in order (`v` is a Go array of `n` bytes) -/
def copyOf (n : Nat) (v : Bytes) : List (Nat × Byte) := (List.range n).map fun i => (i, v.getD i 0)

/-- What a writer does between the two increments of `seq`: `Put` seqlock.go:52, `Update` seqlock.go:68-73. The private
copy of lines 68-69 is taken when `seq` is first incremented; that is no restriction as the mutex is held. -/
def writer (n : Nat) : Op → CFn
  | .put v => fun _ _ => (copyOf n v, .ret none)
  | .update fn => fun d _ =>
    match fn d with
    | (d', .val none) => (copyOf n d', .ret none)
    | (_, .val (some err)) => ([], .ret (some err))
    | (_, .panic) => ([], .panic)
  | .get => fun _ _ => ([], .ret none)

inductive Ret where
  /-- `Put` (always `none`) or `Update` returned -/
  | wrote (err : Option Err)
  /-- `Get` returned `v`; `during` (history only) counts the increments of `seq` between its two loads of it -/
  | got (v : Bytes) (during : Nat)
  deriving DecidableEq

inductive PC where
  | idle
  /-- `Put` or `Update`, seqlock.go:47-56, 63-78 -/
  | w (e : Entry) (p : WPC)
  /-- `Get`, seqlock.go:24-41 -/
  | r (id : Nat) (p : RPC)

structure State where
  cells : Cells
  pc : Nat → PC
  invs : List Op
  rets : List (Nat × Ret)

/-- seqlock.go:18-20 `New` -/
def init : State := ⟨Cell.init, fun _ => .idle, [], []⟩

/-- goroutine `t` starts a call -/
def call (n : Nat) (σ : State) (t : Nat) (op : Op) : State :=
  let id := σ.invs.length
  let p := match op with
    | .get => PC.r id .load1
    | op => PC.w ⟨id, writer n op, false⟩ .lock
  { σ with invs := σ.invs ++ [op], pc := upd σ.pc t p }

/-- goroutine `t` executes its next atomic operation -/
def step (n : Nat) (σ : State) (t : Nat) : Option State :=
  match σ.pc t with
  | .idle => none
  | .w e p =>
    match wstep n t 0 e σ.cells p with
    | none => none
    | some (c, .go p') => some { σ with cells := c, pc := upd σ.pc t (.w e p') }
    | some (c, .ret err) => some { σ with cells := c, pc := upd σ.pc t .idle, rets := σ.rets ++ [(e.id, .wrote err)] }
  | .r id p =>
    match rstep n 0 n σ.cells p with
    | .go p' => some { σ with pc := upd σ.pc t (.r id p') }
    | .done got during => some { σ with pc := upd σ.pc t .idle, rets := σ.rets ++ [(id, .got got during)] }

/-- One transition of the whole system. -/
inductive Step (n : Nat) : State → State → Prop where
  | call (σ : State) (t : Nat) (op : Op) (h : σ.pc t = .idle) : Step n σ (call n σ t op)
  | step (σ σ' : State) (t : Nat) (h : step n σ t = some σ') : Step n σ σ'

/-- any number of transitions -/
inductive Steps (n : Nat) : State → State → Prop where
  | refl (σ : State) : Steps n σ σ
  | tail {σ σ' σ'' : State} : Steps n σ σ' → Step n σ' σ'' → Steps n σ σ''

end Starbow.Seqlock
