import Verif.Model.Cell
/-
What a cell should hold: the result of running the completed writes, one after the other, on zeroes.
-/
namespace Starbow.Spec
open Starbow.Cell

/-- run one update function to completion, alone, on the bytes `d` -/
def runAlone (d : Bytes) (e : Entry) : Bytes := (e.fn d e.init).1.foldl (fun b w => b.set w.1 w.2) d

/-- run them one after the other, starting from `s` zero bytes -/
def runAll (s : Nat) (es : List Entry) : Bytes := es.foldl runAlone (List.replicate s 0)

/-- the completed writes of cell `x`, in order -/
def writesOf (log : List (Nat × Entry)) (x : Nat) : List Entry :=
  (log.filter fun p => p.1 == x).map (·.2)

end Starbow.Spec
