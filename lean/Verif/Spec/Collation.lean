import Verif.Model.Collation
import Verif.Spec.Stats
/-
Vocabulary for the collation properties: what a schema declares, what a sequence of rows carries for a field, and what a record
holds after the rows.
-/
namespace Starbow.Spec
open Starbow.Collation

/-- every `Cardinality` has a precision hll.New accepts -/
def ValidSchema (s : Schema) : Prop := ∀ f ms p, (f, ms) ∈ s.measures → Measure.cardinality p ∈ ms → 4 ≤ p ∧ p ≤ 18

/-- the schema asks for `m(f)`: `count(*)` as a record measure, anything but a count as a field measure -/
def Declares (s : Schema) (f : Bytes) (m : Measure) : Prop :=
  (f = asc "*" ∧ m = .count ∧ RowMeasure.count ∈ s.recordMeasures) ∨
  (m ≠ .count ∧ ∃ ms, (f, ms) ∈ s.measures ∧ m ∈ ms)

/-- the values the rows carry for field `f`, in order -/
def valuesOf (f : Bytes) (rows : List Row) : List Bytes :=
  (rows.flatMap Row.data).filterMap fun fv => if fv.f = f then some fv.v else none

/-- the same as numbers -/
def numbersOf (lib : Lib) (f : Bytes) (rows : List Row) : List F64 := (valuesOf f rows).filterMap lib.parseFloat

/-- apply rows in order, stopping at the first that fails -/
def applyRows (lib : Lib) (c : Collator) (buf : Bytes) (init : Bool) : List Row → Wrote
  | [] => (buf, .val none)
  | r :: rs =>
    match update lib c r buf init with
    | (b, .val none) => applyRows lib c b false rs
    | w => w

/-- a zeroed record -/
def blank (c : Collator) : Bytes := List.replicate c.size.toNat 0#8

/-- `buf` is the record after the rows, all accepted, the first being told that the record is new -/
def RecordOf (lib : Lib) (c : Collator) (rows : List Row) (buf : Bytes) : Prop :=
  applyRows lib c (blank c) true rows = (buf, .val none)

/-- asking the record for one measure -/
def ask (lib : Lib) (c : Collator) (buf : Bytes) (f name : Bytes) : Out (List FMV × Option Err) := read lib c [⟨f, [name]⟩] buf

/-- `ParseFloat` returns doubles -/
def ParsesDoubles (lib : Lib) : Prop := ∀ s x, lib.parseFloat s = some x → IsDouble x

/-- where a writer sits in a collator -/
inductive Place where
  | row (i : Nat)
  | cont (f : Bytes) (i : Nat)
  | disc (f : Bytes) (i : Nat)

/-- the writer at a place -/
def writerAt (c : Collator) : Place → Option Cell
  | .row i => c.writers[i]?
  | .cont f i => ((c.contWriters f).getD [])[i]?
  | .disc f i => ((c.discWriters f).getD [])[i]?

/-- the reader for `name(f)` -/
def readerAt (c : Collator) (f name : Bytes) : Option Cell := (c.contReaders f).bind fun rs => rs name

/-- give a measure of numbers some observations, the first of which it is told to initialise with -/
def feed (m : Measure) (buf : Bytes) (init : Bool) : List F64 → Wrote
  | [] => (buf, .val none)
  | v :: vs =>
    match contWriterFn m buf init v with
    | (b, .val none) => feed m b false vs
    | w => w

/-- give a record some rows, whatever their outcome, the first of which is told that the record is new; the outcomes are kept -/
def serve (lib : Lib) (c : Collator) (buf : Bytes) (init : Bool) : List Row → Bytes × List (Out (Option Err))
  | [] => (buf, [])
  | r :: rs =>
    let w := update lib c r buf init
    let t := serve lib c w.1 false rs
    (t.1, w.2 :: t.2)

/-- the (field, measure) pairs of a request, in order -/
def pairs (fml : List FM) : List (Bytes × Bytes) := fml.flatMap fun fm => fm.m.map fun n => (fm.f, n)

/-- the schema maintains a measure of that name for the field -/
def Maintains (s : Schema) (f n : Bytes) : Prop := ∃ m, Declares s f m ∧ m.name = n

/-- single replies put together in order, up to the first error or panic -/
def together (one : Bytes × Bytes → Out (List FMV × Option Err)) : List (Bytes × Bytes) → List FMV → Out (List FMV × Option Err)
  | [], res => .val (res, none)
  | p :: ps, res =>
    match one p with
    | .panic => .panic
    | .val (r, some e) => .val (res ++ r, some e)
    | .val (r, none) => together one ps (res ++ r)

end Starbow.Spec
