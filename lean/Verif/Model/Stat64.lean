import Verif.Model.F64
/-
Model of /repo/internal/summary/stat64/stats.go: count, sum, mean and variance of a stream of doubles, kept in a
32-byte buffer.
-/
namespace Starbow.Stat64

/-- The arithmetic `Update` uses. The program runs it on doubles (`F64`); the same code is also interpreted over the
rationals to say what it would compute without rounding. -/
class Arith (α : Type) where
  zero : α
  add : α → α → α
  sub : α → α → α
  mul : α → α → α
  div : α → α → α
  /-- `float64(x)` of a `uint64` -/
  ofCount : U64 → α

instance : Arith F64 := ⟨F64.zero, F64.add, F64.sub, F64.mul, F64.div, F64.ofU64⟩

/-- the four values a summary keeps (stats.go:14-18) -/
structure Acc (α : Type) where
  count : U64
  sum : α
  mean : α
  ss : α
  deriving Repr, DecidableEq

/-- all measures zero (stats.go:20, 23-26) -/
def Acc.init (α : Type) [Arith α] : Acc α := ⟨0, Arith.zero, Arith.zero, Arith.zero⟩

/-- stats.go:89-95 (the same statements again at 113-119): one observation -/
def observe {α : Type} [Arith α] (a : Acc α) (v : α) : Acc α :=
  let count := a.count + 1
  let sum := Arith.add a.sum v
  let delta := Arith.sub v a.mean
  let mean := Arith.add a.mean (Arith.div delta (Arith.ofCount count))
  let ss := Arith.add a.ss (Arith.mul delta (Arith.sub v mean))
  ⟨count, sum, mean, ss⟩

/-- stats.go:65-73: the variance; `none` is the NaN returned for fewer than two observations -/
def Acc.variance {α : Type} [Arith α] (a : Acc α) : Option α :=
  if a.count.toNat < 2 then none else some (Arith.div a.ss (Arith.ofCount (a.count - 1)))

/-- stats.go:12 -/
def size : Nat := 32

/-- stats.go:33-36, 40-42: a new zeroed buffer -/
def new : Bytes := List.replicate size 0#8

/-- stats.go:23-26, 129-132: `copy(buf, zeroStats64)` clears the first 32 bytes (or all, if there are fewer) -/
def reset (b : Bytes) : Bytes := List.replicate (min size b.length) 0#8 ++ b.drop size

/-- stats.go:82-87, 105-110: the four values in the buffer -/
def load (b : Bytes) : Acc F64 :=
  ⟨leU64 (slice b 0 8), F64.ofBits (leU64 (slice b 8 16)), F64.ofBits (leU64 (slice b 16 24)),
    F64.ofBits (leU64 (slice b 24 32))⟩

/-- stats.go:97-100, 122-125: write the four values back -/
def store (b : Bytes) (a : Acc F64) : Bytes :=
  splice (splice (splice (splice b 0 (le64 a.count)) 8 (le64 (F64.toBits a.sum))) 16 (le64 (F64.toBits a.mean))) 24
    (le64 (F64.toBits a.ss))

/-- stats.go:81-101. Slicing a buffer of fewer than 32 bytes panics (simplification: the extra capacity a Go slice may
have is not modelled). -/
def update (b : Bytes) (v : F64) : Out Bytes :=
  if b.length < size then .panic else .val (store b (observe (load b) v))

/-- stats.go:104-126 -/
def updateMulti (b : Bytes) (vs : List F64) : Out Bytes :=
  if b.length < size then .panic else .val (store b (vs.foldl observe (load b)))

/-- stats.go:55-57 -/
def count (b : Bytes) : Out U64 := if b.length < 8 then .panic else .val (leU64 (slice b 0 8))

/-- stats.go:76-78 -/
def sum (b : Bytes) : Out F64 := if b.length < 16 then .panic else .val (F64.ofBits (leU64 (slice b 8 16)))

/-- stats.go:60-62 -/
def mean (b : Bytes) : Out F64 := if b.length < 24 then .panic else .val (F64.ofBits (leU64 (slice b 16 24)))

/-- stats.go:65-73 -/
def variance (b : Bytes) : Out F64 :=
  if b.length < 8 then .panic
  else if (leU64 (slice b 0 8)).toNat < 2 then .val .nan
  else if b.length < size then .panic
  else .val (F64.div (F64.ofBits (leU64 (slice b 24 32))) (F64.ofU64 (leU64 (slice b 0 8) - 1)))

end Starbow.Stat64
