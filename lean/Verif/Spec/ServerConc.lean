import Verif.Model.ServerConc
import Verif.Spec.Server
/-
Vocabulary for the concurrent server: what clients sent, and what was acknowledged.
-/
namespace Starbow.Spec
open Starbow.Collation Starbow.Server

/-- the observations (their fields) in a request -/
def Step.posts : Step → List (List FV)
  | .posted ls => ls.map Line.fs
  | .other _ => []

/-- request number `j` has been answered with status 200 and an empty body -/
def Acked (σ : ServerConc.State) (j : Nat) : Prop := (j, Reply.ok []) ∈ σ.replies

instance (σ : ServerConc.State) (j : Nat) : Decidable (Acked σ j) := by unfold Acked; infer_instance

/-- the observations of the requests that have been acknowledged: request number `j` was `steps[j]` -/
def acknowledged (steps : List Step) (σ : ServerConc.State) : List (List FV) :=
  (steps.zipIdx.filter fun x => Acked σ x.2).flatMap fun x => x.1.posts

/-- no Read was overtaken by 2^32 increments of a sequence number, i.e. 2^31 updates of the same record (see C35) -/
def Unwrapped (σ : ServerConc.State) : Prop :=
  ∀ s i buf d, (i, BufmapConc.Ret.got true buf d) ∈ (σ.stores s).m.rets → d < 2 ^ 32

/-- the observation on line `o.2` of request `o.1` -/
def obsAt (steps : List Step) (o : Nat × Nat) : Option (List FV) := steps[o.1]?.bind fun st => st.posts[o.2]?

/-- the numbers that observations carry for field `f`, in order -/
def numbersIn (lib : Lib) (f : Bytes) (os : List (List FV)) : List F64 :=
  os.flatten.filterMap fun fv => if fv.f = f then lib.parseFloat fv.v else none

/-- the line `name(field)=x` of an answer -/
def measureLine (env : Env) (name f : Bytes) (x : F64) : Bytes := name ++ asc "(" ++ f ++ asc ")=" ++ env.fmtFloat x ++ asc "\n"

/-- `order` lists posted observations (request number and line number) of one kind, none twice: all that were acknowledged at the moment
`σ₀`, and maybe others; the lines of one request in their order, none left out before another; and an observation whose request was
acknowledged at some moment `σ₁` up to `σ₀` before those whose request came later. -/
structure ServedOrder (env : Env) (confs : List ServerConc.Conf) (steps : List Step) (kind : List FV → Prop) (σ₀ : ServerConc.State)
    (order : List (Nat × Nat)) : Prop where
  once : order.Nodup
  only : ∀ o ∈ order, ∃ fs, obsAt steps o = some fs ∧ kind fs
  acked : ∀ o fs, obsAt steps o = some fs → kind fs → Acked σ₀ o.1 → o ∈ order
  lines : ∀ j p p' fs, obsAt steps (j, p) = some fs → kind fs → p < p' → (j, p') ∈ order → [(j, p), (j, p')].Sublist order
  time : ∀ σ₁, ServerConc.Steps env confs ServerConc.init σ₁ → ServerConc.Steps env confs σ₁ σ₀ →
    ∀ o ∈ order, ∀ o' ∈ order, Acked σ₁ o.1 → σ₁.reqs.length ≤ o'.1 → [o, o'].Sublist order

end Starbow.Spec
