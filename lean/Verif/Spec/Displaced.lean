import Verif.Spec.Collation
/-
A record that treats every row as its first.
-/
namespace Starbow.Spec
open Starbow.Collation

/-- apply rows in order, each told that the record is new, stopping at the first that fails -/
def applyFirsts (lib : Lib) (c : Collator) (buf : Bytes) : List Row → Wrote
  | [] => (buf, .val none)
  | r :: rs =>
    match update lib c r buf true with
    | (b, .val none) => applyFirsts lib c b rs
    | w => w

/-- `buf` is the record after the rows, all accepted, each of them told that the record is new -/
def FirstsOf (lib : Lib) (c : Collator) (rows : List Row) (buf : Bytes) : Prop := applyFirsts lib c (blank c) rows = (buf, .val none)

end Starbow.Spec
