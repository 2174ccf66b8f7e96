import Verif.Model.F64
/-
Model of /repo/internal/testutil/float.go and rand.go: comparing doubles, random bytes, shuffling.
-/
namespace Starbow.TestUtil

/-! ### float.go -/

/-- `math.Nextafter(x, math.MaxFloat64)`: the next double after `x` towards the largest one, as documented: infinity is followed by
`MaxFloat64` here, `MaxFloat64` by itself, a zero by the smallest positive double -/
def nextUp : F64 → F64
  | .nan => .nan
  | .inf s => .fin s (F64.limit - 2 ^ (F64.expLimit - 53))
  | .fin s m =>
    if m = 0 then .fin false 1
    else if s then .fin true (m - 2 ^ F64.shiftOf (m - 1))
    else if m + 2 ^ F64.shiftOf m < F64.limit then .fin false (m + 2 ^ F64.shiftOf m)
    else .fin false m

/-- float.go:37-39 `AdjacentEqual64` -/
def adjacentEqual (a b : F64) : Bool := F64.eq a b || F64.eq a (nextUp b) || F64.eq b (nextUp a)

/-- `math.Abs` -/
def abs : F64 → F64
  | .nan => .nan
  | .inf _ => .inf false
  | .fin _ m => .fin false m

/-- float.go:8-10 `Close64` -/
def close (a b tol : F64) : Bool := adjacentEqual a b || F64.le (F64.div (abs (F64.sub a b)) a) tol

/-- `math.IsInf(x, 0)` -/
def isInf : F64 → Bool
  | .inf _ => true
  | _ => false

/-- `math.IsNaN` -/
def isNaN : F64 → Bool
  | .nan => true
  | _ => false

/-- float.go:14-22 `Equiv64` -/
def equiv (a b : F64) : Bool :=
  if isInf a && isInf b then true else if isNaN a && isNaN b then true else F64.eq a b

/-- float.go:26-34 `EquivOrCloseFloat64` -/
def equivOrClose (a b tol : F64) : Bool :=
  if isInf a && isInf b then true else if isNaN a && isNaN b then true else close a b tol

/-! ### rand.go -/

/-- rand.go:3-6: a source of randomness with its own state; `intn s n` is what `Intn(n)` returns, and the state afterwards -/
structure Rand (σ : Type) where
  intn : σ → Nat → Nat × σ

variable {σ : Type}

/-- `rng.Intn(n)`: the implementations in math/rand panic for n = 0 -/
def intn (r : Rand σ) (s : σ) (n : Nat) : Out (Nat × σ) := if n = 0 then .panic else .val (r.intn s n)

/-- rand.go:16-20 `FillRandomByteSlice`: the bytes put into a slice of length `n` -/
def fill (r : Rand σ) : Nat → σ → Out (Bytes × σ)
  | 0, s => .val ([], s)
  | n + 1, s => do
    let (b, s) ← intn r s 256
    let (rest, s) ← fill r n s
    return (BitVec.ofNat 8 b :: rest, s)

/-- rand.go:9-13 `RandomByteSlice`; `make` panics for a negative length -/
def randomByteSlice (r : Rand σ) (n : Int) (s : σ) : Out (Bytes × σ) := if n < 0 then .panic else fill r n.toNat s

/-- rand.go:23-25 `Printable` -/
def printable (r : Rand σ) (s : σ) : Out (Byte × σ) := do
  let (b, s) ← intn r s 95
  return (0x20 + BitVec.ofNat 8 b, s)

/-- rand.go:30-33: `m` slices of `n` bytes -/
def fillMany (r : Rand σ) (n : Nat) : Nat → σ → Out (List Bytes × σ)
  | 0, s => .val ([], s)
  | m + 1, s => do
    let (b, s) ← fill r n s
    let (rest, s) ← fillMany r n m s
    return (b :: rest, s)

/-- rand.go:28-35 `RandomByteSlices` -/
def randomByteSlices (r : Rand σ) (m n : Int) (s : σ) : Out (List Bytes × σ) :=
  if m < 0 then .panic else if m = 0 then .val ([], s) else if n < 0 then .panic else fillMany r n.toNat m.toNat s

/-- `buf[i], buf[j] = buf[j], buf[i]`, which panics if an index is out of range -/
def exchange (buf : List Bytes) (i j : Nat) : Out (List Bytes) :=
  match buf[i]?, buf[j]? with
  | some x, some y => .val ((buf.set i y).set j x)
  | _, _ => .panic

/-- rand.go:54-59: the loop of `Shuffle` for the indices below `i` -/
def shuffleLoop (r : Rand σ) : Nat → List Bytes → σ → Out (List Bytes × σ)
  | 0, buf, s => .val (buf, s)
  | i + 1, buf, s => do
    let (j, s) ← intn r s (i + 1)
    let buf ← exchange buf i j
    shuffleLoop r i buf s

/-- rand.go:54-59 `Shuffle` -/
def shuffle (r : Rand σ) (buf : List Bytes) (s : σ) : Out (List Bytes × σ) := shuffleLoop r buf.length buf s

/-- rand.go:45-47: entries drawn from `src` -/
def draw (r : Rand σ) (src : List Bytes) : Nat → σ → Out (List Bytes × σ)
  | 0, s => .val ([], s)
  | k + 1, s => do
    let (j, s) ← intn r s src.length
    match src[j]? with
    | none => .panic
    | some x => do
      let (rest, s) ← draw r src k s
      return (x :: rest, s)

/-- rand.go:40-52 `ShuffleRepeated` -/
def shuffleRepeated (r : Rand σ) (n : Int) (src : List Bytes) (s : σ) : Out (List Bytes × σ) :=
  if n < 0 then .panic
  else do
    -- `copy(dest, src)` copies the first min(n, len(src)) entries
    let (rest, s) ← draw r src (n.toNat - src.length) s
    shuffle r (src.take n.toNat ++ rest) s

end Starbow.TestUtil
