import Verif.Model.BufmapConc
import Verif.Model.Collation
/-
Concurrent model of /repo/internal/storage/storage.go on the backend the program uses (bufmap): any number of goroutines call `Write` and
`Read` (net/http runs every request in a goroutine of its own). All that `Write` and `Read` do apart from the one call of the backend
works on data of their own, so the steps are those of the concurrent bufmap (Verif/Model/BufmapConc.lean).

Left out: calls that return without calling the backend (a key field is missing, the context is cancelled); they have no effect.
-/
namespace Starbow.StoreConc
open Starbow Starbow.Collation Starbow.BufmapConc Starbow.Cell

/-- a call of the store -/
inductive Call where
  /-- storage.go:26 `Write` -/
  | write (r : Row)
  /-- storage.go:47 `Read` -/
  | read (q : Query)

/-- how a function ends, in the vocabulary of the concurrent bufmap -/
def ending : Out (Option Err) → FnRes
  | .val e => .ret e
  | .panic => .panic

/-- storage.go:70-72 `Transaction.Do`, executed byte by byte: `fn` makes some writes inside the record, in some order, that leave it as
`Collator.Update` leaves it, and returns what that returns. (Which bytes are written how often on the way is left open.) -/
def Performs (lib : Lib) (c : Collator) (r : Row) (fn : CFn) : Prop :=
  ∀ d init, d.length = c.size.toNat →
    (∀ w ∈ (fn d init).1, w.1 < d.length) ∧
    (fn d init).1.foldl (fun b w => b.set w.1 w.2) d = (Collation.update lib c r d init).1 ∧
    (fn d init).2 = ending (Collation.update lib c r d init).2

/-- the shared memory and the goroutines (`m`), and as history the calls made so far: call number `i` of `m` is `calls[i]` -/
structure State where
  m : BufmapConc.State
  calls : List Call

/-- a fresh store, as set up by demo.go:50-63 -/
def init : State := ⟨BufmapConc.init, []⟩

/-- One transition, for a store with the collator `c` on a map of `l` slots: a goroutine calls `Write` (storage.go:27-44) or `Read`
(storage.go:48-58), or a goroutine inside a call makes its next step. -/
inductive Step (lib : Lib) (c : Collator) (l : Nat) : State → State → Prop where
  | write (σ : State) (t : Nat) (r : Row) (k : U64) (fn : CFn) (hi : σ.m.pc t = .idle) (hk : keyValue r.data c.keys = some k)
      (hf : Performs lib c r fn) : Step lib c l σ ⟨call σ.m t (.upd k fn), σ.calls ++ [.write r]⟩
  | read (σ : State) (t : Nat) (q : Query) (k : U64) (hi : σ.m.pc t = .idle) (hk : keyValue q.criteria c.keys = some k) :
      Step lib c l σ ⟨call σ.m t (.get k (List.replicate c.size.toNat 0)), σ.calls ++ [.read q]⟩
  | step (σ : State) (t : Nat) (m' : BufmapConc.State) (h : BufmapConc.step l c.size.toNat σ.m t = some m') :
      Step lib c l σ ⟨m', σ.calls⟩

/-- any number of transitions -/
inductive Steps (lib : Lib) (c : Collator) (l : Nat) : State → State → Prop where
  | refl (σ : State) : Steps lib c l σ σ
  | tail {σ σ' σ'' : State} : Steps lib c l σ σ' → Step lib c l σ' σ'' → Steps lib c l σ σ''

/-- storage.go:58-62: what `Read` makes of the result of `Get` -/
def readReply (lib : Lib) (c : Collator) (q : Query) : Ret → Option (Out (List FMV × Option Err))
  | .got true buf _ => some (Collation.read lib c q.fieldMeasures buf)
  | .got false _ _ => some (.val ([], none))
  | _ => none

/-- storage.go:44: what `Write` returns -/
def writeReply : Ret → Option (Option Err)
  | .ran e => some e
  | .invalidKey => some (some .invalidKey)
  | .outOfSlots => some (some .outOfSlots)
  | .got _ _ _ => none

end Starbow.StoreConc
