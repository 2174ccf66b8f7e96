import Verif.Model.Bufmap
/-
Vocabulary for the sequential bufmap properties: histories of calls, and what a key holds.
-/
namespace Starbow.Spec
open Starbow.Bufmap

/-- a call on the map -/
inductive MapOp where
  | upd (k : U64) (fn : Fn)
  | get (k : U64) (buf : Bytes)

/-- effect of one call -/
def mapStep (m : Map) : MapOp → Map
  | .upd k fn => (update m k fn).1
  | .get _ _ => m

/-- effect of a history of calls -/
def mapRun (m : Map) (h : List MapOp) : Map := h.foldl mapStep m

/-- an update function that never panics -/
def Calm (fn : Fn) : Prop := ∀ d i, ∃ e, (fn d i).2 = .val e

/-- no update function of the history panics -/
def CalmHist (h : List MapOp) : Prop := ∀ k fn, MapOp.upd k fn ∈ h → Calm fn

/-- at this point, Update(k, fn) would call its function (a function doing nothing is called and its nil
error is returned) -/
def wouldCall (m : Map) (k : U64) : Bool := decide ((update m k fun d _ => (d, .val none)).2 = .ret none)

/-- one step of `ranFns` -/
def ranStep (k : U64) (a : Map × List Fn) : MapOp → Map × List Fn
  | .upd k' fn => ((update a.1 k' fn).1, if k' = k ∧ wouldCall a.1 k' = true then a.2 ++ [fn] else a.2)
  | .get _ _ => a

/-- the update functions that were called for key `k`, in order -/
def ranFns (m : Map) (h : List MapOp) (k : U64) : List Fn := (h.foldl (ranStep k) (m, [])).2

/-- the slot holding key `k` -/
def slotOf (m : Map) (k : U64) : Option Nat := (List.range m.l).find? fun x => m.keyAt x == k

/-- the bytes of slot `x` -/
def slotBytes (m : Map) (x : Nat) : Bytes := slice m.values (x * m.s) ((x + 1) * m.s)

/-- the bytes stored for key `k`, if the key is in the map -/
def contentOf (m : Map) (k : U64) : Option Bytes := (slotOf m k).map (slotBytes m)

/-- apply update functions in order, each being told the corresponding `init` flag -/
def applyFns (d : Bytes) (fs : List (Fn × Bool)) : Bytes :=
  fs.foldl (fun d f => overwrite d (f.1 d f.2).1) d

end Starbow.Spec
