import Verif.Model.Bufmap
import Verif.Model.HllEst
import Verif.Model.Stat64
/-
Model of /repo/internal/collation (measure.go, schema.go, compile.go) and /repo/internal/storage/storage.go.

Simplifications, used throughout:
* the set of measures is the closed set defined in measure.go (`Measure` is a Go interface, but nothing outside the package
  implements it); only `Count` is a `RowMeasure`;
* no measure implements `DiscreteOutput`, so the reader branches for it (compile.go:41-52, 105-116, 144-155, schema.go:219-233)
  are never entered and `discReaders` is always empty; they are left out;
* offsets are unbounded integers (they would overflow only for records of 2^63 bytes);
* slicing a buffer beyond its length panics (a Go slice may have extra capacity; the buffers here are exactly `Size()` long);
* Go maps with string keys are functions; Go strings are byte lists;
* `strconv.ParseFloat` and `math.Log` are parameters (`Lib`).
-/
namespace Starbow.Collation
open Starbow

/-- the library functions the collator calls -/
structure Lib where
  /-- `math.Log` -/
  log : F64 → F64
  /-- `strconv.ParseFloat(s, 64)`; `none` is an error -/
  parseFloat : Bytes → Option F64

/-- a Go map with string keys -/
abbrev GoMap (β : Type) := Bytes → Option β

/-- `m[k] = v` -/
def GoMap.insert {β : Type} (m : GoMap β) (k : Bytes) (v : β) : GoMap β := fun k' => if k' = k then some v else m k'

/-- the measures of measure.go:46, 71, 95, 119, 142, 171, 227 -/
inductive Measure where
  | count
  | sum
  | mean
  | variance
  | max
  | min
  | cardinality (precision : Int)
  deriving Repr, DecidableEq

/-- a measure usable at record level: only `Count` has a `RowWriter` (measure.go:17-20, 48, 54) -/
inductive RowMeasure where
  | count
  deriving Repr, DecidableEq

/-- a `RowMeasure` as a `Measure` -/
def RowMeasure.toMeasure : RowMeasure → Measure
  | .count => .count

/-- conversion `uint8(c.Precision)` -/
def precision (p : Int) : Byte := BitVec.ofInt 8 p

/-- `Size()`: measure.go:50, 75, 99, 123, 146, 175, 266-268 -/
def Measure.size : Measure → Int
  | .count => 8
  | .sum | .mean | .variance => Stat64.size
  | .max | .min => 8
  | .cardinality p => Hll.len (precision p)

/-- `Name()`: measure.go:52, 77, 101, 125, 148, 177, 270 -/
def Measure.name : Measure → Bytes
  | .count => asc "count"
  | .sum => asc "sum"
  | .mean => asc "mean"
  | .variance => asc "var"
  | .max => asc "max"
  | .min => asc "min"
  | .cardinality _ => asc "uniquecount"

/-- has a `ContWriter` method (measure.go:73, 97, 121, 144, 173; `Count` has none) -/
def Measure.continuousInput : Measure → Bool
  | .sum | .mean | .variance | .max | .min => true
  | .count | .cardinality _ => false

/-- has a `DiscWriter` method (measure.go:231) -/
def Measure.discreteInput : Measure → Bool
  | .cardinality _ => true
  | _ => false

/-- compile.go:70 `case Count, Sum, Mean, Variance` -/
def Measure.stat : Measure → Bool
  | .count | .sum | .mean | .variance => true
  | _ => false

/-- what is left in the buffer, and whether the writer returned an error or panicked -/
abbrev Wrote := Bytes × Out (Option Err)

/-- measure.go:54-61 `Count.RowWriter`; `init` is ignored -/
def countWriter (buf : Bytes) : Wrote :=
  if buf.length < 8 then (buf, .panic) else (splice buf 0 (le64 (leU64 buf + 1)), .val none)

/-- measure.go:79-85, 103-109, 127-133: the writers of `Sum`, `Mean` and `Variance`; `init` is ignored -/
def statWriter (buf : Bytes) (v : F64) : Wrote :=
  match Stat64.update buf v with
  | .panic => (buf, .panic)
  | .val b => (b, .val none)

/-- measure.go:158, 187: `PutUint64(buf, Float64bits(v))` -/
def putFloat (buf : Bytes) (v : F64) : Wrote :=
  if buf.length < 8 then (buf, .panic) else (splice buf 0 (le64 (F64.toBits v)), .val none)

/-- measure.go:150-161 `Max.ContWriter` -/
def maxWriter (buf : Bytes) (init : Bool) (v : F64) : Wrote :=
  if init then putFloat buf v
  else if buf.length < 8 then (buf, .panic)
  else if F64.ge (F64.ofBits (leU64 buf)) v then (buf, .val none)
  else putFloat buf v

/-- measure.go:179-190 `Min.ContWriter` -/
def minWriter (buf : Bytes) (init : Bool) (v : F64) : Wrote :=
  if init then putFloat buf v
  else if buf.length < 8 then (buf, .panic)
  else if F64.le (F64.ofBits (leU64 buf)) v then (buf, .val none)
  else putFloat buf v

/-- the continuous writers by measure -/
def contWriterFn (m : Measure) (buf : Bytes) (init : Bool) (v : F64) : Wrote :=
  match m with
  | .max => maxWriter buf init v
  | .min => minWriter buf init v
  | _ => statWriter buf v

/-- `copy(dst, src)` -/
def copyTo (dst src : Bytes) : Bytes := src.take dst.length ++ dst.drop src.length

/-- bytes of a counter opened by `WithBytes(buf)` are written through to `buf`, after the two header bytes of the counter
(hll.go:50) and those of its bit bucket -/
def cardStoreBack (buf : Bytes) (c : Hll.Counter) : Bytes := buf.take 2 ++ Bitbucket.storeBack (buf.drop 2) c.bits

/-- measure.go:234-254 `Cardinality.DiscWriter`. Writing to a `bytes.Buffer` does not fail. -/
def cardWriter (p : Int) (buf : Bytes) (init : Bool) (v : Bytes) : Wrote :=
  if init then
    match Hll.new (precision p) >>= fun s => Hll.add s v with
    | .panic => (buf, .panic)
    | .val s => (copyTo buf (Hll.writeTo s Writer.buffer).2.out, .val (Hll.writeTo s Writer.buffer).1.2)
  else
    match Hll.withBytes buf with
    | .panic => (buf, .panic)
    | .val (.error e) => (buf, .val (some e))
    | .val (.ok s) =>
      match Hll.add s v with
      | .panic => (buf, .panic)
      | .val s' => (cardStoreBack buf s', .val none)

/-- the discrete writers by measure -/
def discWriterFn (m : Measure) (buf : Bytes) (init : Bool) (v : Bytes) : Wrote :=
  match m with
  | .cardinality p => cardWriter p buf init v
  | _ => (buf, .val none)

/-- the readers: measure.go:63-68, 87-92, 111-116, 134-139, 163-168, 192-197, 256-264 -/
def readerFn (lib : Lib) (m : Measure) (buf : Bytes) : Out (Except Err F64) :=
  match m with
  | .count => if buf.length < 8 then .panic else .val (.ok (F64.ofU64 (leU64 buf)))
  | .sum => do return .ok (← Stat64.sum buf)
  | .mean => do return .ok (← Stat64.mean buf)
  | .variance => do return .ok (← Stat64.variance buf)
  | .max | .min => if buf.length < 8 then .panic else .val (.ok (F64.ofBits (leU64 buf)))
  | .cardinality _ => do
    match ← Hll.withBytes buf with
    | .error e => return .error e
    | .ok s => return .ok (F64.ofInt (← Hll.count lib.log s))

/-- a writer or reader: schema.go:251-254, 260-263, 269-272, 278-281; the function is determined by the measure -/
structure Cell where
  low : Int
  high : Int
  m : Measure
  deriving Repr, DecidableEq

/-- schema.go:256-276: run a writer on `buf[low:high]` -/
def Cell.write (c : Cell) (buf : Bytes) (fn : Bytes → Wrote) : Wrote :=
  if c.low < 0 ∨ c.high < c.low ∨ (buf.length : Int) < c.high then (buf, .panic)
  else (splice buf c.low.toNat (fn (slice buf c.low.toNat c.high.toNat)).1, (fn (slice buf c.low.toNat c.high.toNat)).2)

/-- schema.go:283-285: run a reader on `buf[low:high]` -/
def Cell.read (lib : Lib) (c : Cell) (buf : Bytes) : Out (Except Err F64) :=
  if c.low < 0 ∨ c.high < c.low ∨ (buf.length : Int) < c.high then .panic
  else readerFn lib c.m (slice buf c.low.toNat c.high.toNat)

/-- schema.go:145-154 -/
structure Collator where
  name : Bytes
  keys : List Bytes
  writers : List Cell
  contWriters : GoMap (List Cell)
  discWriters : GoMap (List Cell)
  contReaders : GoMap (GoMap Cell)
  size : Int

/-- schema.go:22-48 (the filter has no content) -/
structure Schema where
  name : Bytes
  keys : List Bytes
  measures : List (Bytes × List Measure)
  recordMeasures : List RowMeasure

/-- schema.go:18 -/
def rowPseudoField : Bytes := asc "*"

/-- `crs[m.Name()] = ...` in the reader map of a field, creating it if need be: compile.go:28-39, 92-103, 131-142 -/
def addReader (rs : GoMap (GoMap Cell)) (field : Bytes) (c : Cell) : GoMap (GoMap Cell) :=
  rs.insert field (((rs field).getD fun _ => none).insert c.m.name c)

/-- append a writer to the list of a field: compile.go:83-89, 123-129 -/
def addWriter (ws : GoMap (List Cell)) (field : Bytes) (c : Cell) : GoMap (List Cell) :=
  ws.insert field ((ws field).getD [] ++ [c])

/-- compile.go:4-12 and 19: the collator under construction and the position of the next measure -/
structure Building where
  coll : Collator
  pos : Int

/-- compile.go:21-56: one record measure -/
def compileRow (b : Building) (rm : RowMeasure) : Building :=
  let m := rm.toMeasure
  let cell : Cell := ⟨b.pos, b.pos + m.size, m⟩
  { coll := { b.coll with
      writers := b.coll.writers ++ [cell]
      contReaders := addReader b.coll.contReaders rowPseudoField cell
      size := b.coll.size + m.size }
    pos := b.pos + m.size }

/-- compile.go:61-62: the range of the shared stat64 summary, once there is one -/
abbrev Shared := Option (Int × Int)

/-- compile.go:69-80: the range for a continuous measure, whether it needs no writer of its own, and the shared summary from
then on -/
def place (m : Measure) (pos : Int) (shared : Shared) : (Int × Int) × Bool × Shared :=
  if m.stat then
    match shared with
    | some r => (r, true, shared)
    | none => ((pos, pos + m.size), false, some (pos, pos + m.size))
  else ((pos, pos + m.size), false, shared)

/-- compile.go:82-119: writer (unless skipped) and reader of a continuous measure at the range found -/
def addCont (field : Bytes) (b : Building) (m : Measure) (r : (Int × Int) × Bool × Shared) : Building × Shared :=
  ({ coll := { b.coll with
      contWriters := if r.2.1 then b.coll.contWriters else addWriter b.coll.contWriters field ⟨r.1.1, r.1.2, m⟩
      contReaders := addReader b.coll.contReaders field ⟨r.1.1, r.1.2, m⟩
      size := b.coll.size + m.size }
     pos := b.pos + m.size }, r.2.2)

/-- compile.go:68-120: the part for measures with continuous input -/
def compileCont (field : Bytes) (a : Building × Shared) (m : Measure) : Building × Shared :=
  if m.continuousInput then addCont field a.1 m (place m a.1.pos a.2) else a

/-- compile.go:122-159: the part for measures with discrete input -/
def compileDisc (field : Bytes) (a : Building × Shared) (m : Measure) : Building × Shared :=
  if m.discreteInput then
    let b := a.1
    let cell : Cell := ⟨b.pos, b.pos + m.size, m⟩
    ({ coll := { b.coll with
        discWriters := addWriter b.coll.discWriters field cell
        contReaders := addReader b.coll.contReaders field cell
        size := b.coll.size + m.size }
       pos := b.pos + m.size }, a.2)
  else a

/-- compile.go:64-161: one measure of a field -/
def compileMeasure (field : Bytes) (a : Building × Shared) (m : Measure) : Building × Shared :=
  compileDisc field (compileCont field a m) m

/-- compile.go:59-162: the measures of one `MeasureSpec` -/
def compileSpec (b : Building) (ms : Bytes × List Measure) : Building :=
  (ms.2.foldl (compileMeasure ms.1) (b, none)).1

/-- compile.go:4-17: an empty collator with the name and the keys (in the order given: they are not sorted) -/
def emptyCollator (s : Schema) : Collator :=
  { name := s.name, keys := s.keys, writers := [], contWriters := fun _ => none, discWriters := fun _ => none,
    contReaders := fun _ => none, size := 0 }

/-- compile.go:3-165 `Compile`; it never returns an error -/
def compile (s : Schema) : Collator :=
  (s.measures.foldl compileSpec (s.recordMeasures.foldl compileRow ⟨emptyCollator s, 0⟩)).coll

/-- schema.go:58-62 -/
structure FV where
  f : Bytes
  v : Bytes
  deriving Repr, DecidableEq

/-- schema.go:51-55 (the times are not used by any measure; `dataTime` is in nanoseconds since 1970, `ReceiveTime` is left out) -/
structure Row where
  dataTime : Int
  data : List FV
  deriving Repr, DecidableEq

/-- schema.go:164-168 and the inner loops 177-181, 186-190: writers in order, stopping at the first error or panic -/
def runWriters (buf : Bytes) : List (Bytes → Wrote) → Wrote
  | [] => (buf, .val none)
  | w :: ws =>
    match w buf with
    | (b, .val none) => runWriters b ws
    | r => r

/-- schema.go:172-182: the continuous writers of a field (if it has any) on a value -/
def contWriters (lib : Lib) (init : Bool) (v : Bytes) : Option (List Cell) → List (Bytes → Wrote)
  | none => []
  | some ws =>
    match lib.parseFloat v with
    | none => [fun buf => (buf, .val (some .parseFloat))]
    | some x => ws.map fun w buf => w.write buf fun b => contWriterFn w.m b init x

/-- schema.go:184-191: the discrete writers of a field (if it has any) on a value -/
def discWriters (init : Bool) (v : Bytes) : Option (List Cell) → List (Bytes → Wrote)
  | none => []
  | some ws => ws.map fun w buf => w.write buf fun b => discWriterFn w.m b init v

/-- schema.go:171-192: what the writers of one field do -/
def fieldWriters (lib : Lib) (c : Collator) (init : Bool) (fv : FV) : List (Bytes → Wrote) :=
  contWriters lib init fv.v (c.contWriters fv.f) ++ discWriters init fv.v (c.discWriters fv.f)

/-- schema.go:162-195 `Collator.Update` -/
def update (lib : Lib) (c : Collator) (r : Row) (buf : Bytes) (init : Bool) : Wrote :=
  runWriters buf ((c.writers.map fun w buf => w.write buf countWriter) ++ r.data.flatMap (fieldWriters lib c init))

/-- schema.go:103-106 -/
structure FM where
  f : Bytes
  m : List Bytes
  deriving Repr, DecidableEq

/-- schema.go:130-134 -/
structure FMV where
  f : Bytes
  m : Bytes
  v : F64
  deriving Repr, DecidableEq

/-- schema.go:109-112 -/
structure Query where
  fieldMeasures : List FM
  criteria : List FV
  deriving Repr, DecidableEq

/-- schema.go:204-216: the measures of one field, given its readers -/
def readField (lib : Lib) (f : Bytes) (rs : GoMap Cell) (buf : Bytes) : List Bytes → List FMV → Out (List FMV × Option Err)
  | [], res => .val (res, none)
  | m :: ms, res =>
    match rs m with
    | none => readField lib f rs buf ms res
    | some r => do
      match ← r.read lib buf with
      | .error e => return (res, some e)
      | .ok v => readField lib f rs buf ms (res ++ [⟨f, m, v⟩])

/-- schema.go:200-234: the requested fields in order -/
def readLoop (lib : Lib) (c : Collator) (buf : Bytes) : List FM → List FMV → Out (List FMV × Option Err)
  | [], res => .val (res, none)
  | fm :: fml, res =>
    match c.contReaders fm.f with
    | none => readLoop lib c buf fml res
    | some rs => do
      match ← readField lib fm.f rs buf fm.m res with
      | (res, some e) => return (res, some e)
      | (res, none) => readLoop lib c buf fml res

/-- schema.go:198-237 `Collator.Read`: the result so far and the error -/
def read (lib : Lib) (c : Collator) (fml : List FM) (buf : Bytes) : Out (List FMV × Option Err) := readLoop lib c buf fml []

/-- schema.go:74-79: the first field with the name -/
def lookupField (fvs : List FV) (k : Bytes) : Option FV := fvs.find? fun fv => k == fv.f

/-- schema.go:69-85 `KeyValue`: hash names and values of the key fields; `none` if one is missing. `h` is the hash so far. -/
def keyLoop (fvs : List FV) : List Bytes → U64 → Option U64
  | [], h => some h
  | k :: ks, h =>
    match lookupField fvs k with
    | none => none
    | some fv => keyLoop fvs ks (Fnv.write1 (Fnv.write1 h fv.f).1 fv.v).1

/-- schema.go:69-85 -/
def keyValue (fvs : List FV) (keys : List Bytes) : Option U64 := (keyLoop fvs keys Fnv.new64).map Fnv.sum64Of

end Starbow.Collation

namespace Starbow.Storage
open Starbow Starbow.Collation

/-- storage.go:21-24, with the backend the program uses (demo.go:57) -/
structure Store where
  backend : Bufmap.Map
  coll : Collator

/-- storage.go:65-72: the transaction -/
def transaction (lib : Lib) (c : Collator) (r : Row) : Bufmap.Fn := fun data init => Collation.update lib c r data init

/-- storage.go:26-45 `Write`; `canceled` tells whether the context is done -/
def write (lib : Lib) (s : Store) (canceled : Bool) (r : Row) : Store × Bufmap.Res (Option Err) :=
  match keyValue r.data s.coll.keys with
  | none => (s, .ret none)
  | some k =>
    if canceled then (s, .ret (some .canceled))
    else
      let (m, res) := Bufmap.update s.backend k (transaction lib s.coll r)
      ({ s with backend := m }, res)

/-- storage.go:47-63 `Read`. `make` panics on a negative size (it cannot be negative for valid measures). -/
def read (lib : Lib) (s : Store) (q : Query) : Bufmap.Res (List FMV × Option Err) :=
  match keyValue q.criteria s.coll.keys with
  | none => .ret ([], none)
  | some k =>
    if s.coll.size < 0 then .panic
    else
      match Bufmap.get s.backend k (List.replicate s.coll.size.toNat 0) with
      | .panic => .panic
      | .hang => .hang
      | .ret (false, _) => .ret ([], none)
      | .ret (true, buf) =>
        match Collation.read lib s.coll q.fieldMeasures buf with
        | .panic => .panic
        | .val r => .ret r

end Starbow.Storage
