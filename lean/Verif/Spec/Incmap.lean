import Verif.Model.IncmapConc
/-
What a history of concurrent Inc and Get calls says the value of a key is.
-/
namespace Starbow.Spec
open Starbow.IncmapConc

/-- contribution of one returned call to key `k`: `d` if the call was `Inc(k, d)` and returned true -/
def took (invs : List Op) (k : U64) (r : Nat × Ret) : U64 :=
  match r.2, invs[r.1]? with
  | .inc true, some (.inc k' d) => if k' = k then d else 0
  | _, _ => 0

/-- sum (mod 2^64) of the increments of `k` whose Inc has returned true -/
def total (invs : List Op) (rets : List (Nat × Ret)) (k : U64) : U64 :=
  (rets.map (took invs k)).foldl (· + ·) 0

end Starbow.Spec
