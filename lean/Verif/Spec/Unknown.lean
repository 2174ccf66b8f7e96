import Verif.Spec.Server
/-
Vocabulary for the property about fields that no collation uses.
-/
namespace Starbow.Spec
open Starbow.Collation Starbow.Server

/-- some collation has this field among its keys or declares measures for it -/
def UsedBy (confs : List (Schema × Nat)) (f : Bytes) : Prop := ∃ c ∈ confs, f ∈ c.1.keys ∨ f ∈ c.1.measures.map Prod.fst

instance (confs : List (Schema × Nat)) (f : Bytes) : Decidable (UsedBy confs f) := inferInstanceAs (Decidable (∃ c ∈ confs, _))

/-- the fields some collation uses, in order, repetitions included -/
def usedFields (confs : List (Schema × Nat)) (fs : List FV) : List FV := fs.filter fun fv => UsedBy confs fv.f

/-- the same step but for the fields no collation uses, the times and the delimiters -/
inductive SameUsed (confs : List (Schema × Nat)) : Step → Step → Prop where
  | posted {ls ls' : List Line} (h : ls.map (fun l => usedFields confs l.fs) = ls'.map fun l => usedFields confs l.fs) : SameUsed confs (.posted ls) (.posted ls')
  | other (r : Request) : SameUsed confs (.other r) (.other r)

end Starbow.Spec
