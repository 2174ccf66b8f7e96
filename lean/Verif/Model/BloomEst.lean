import Verif.Model.Bloom
import Verif.Model.F64
/-
Model of the functions of /repo/internal/summary/bloom/bloom.go that use package math: choosing the size of a filter (`New`, `mk`,
`Len(n, p)`) and the two estimates (`Count`, `ErrorRate`). `math.Log`, `math.Exp` and `math.Pow` are parameters.
-/
namespace Starbow.Bloom
open Starbow

/-- the functions of package math that are called -/
structure MathLib where
  /-- `math.Log` -/
  log : F64 → F64
  /-- `math.Exp` -/
  exp : F64 → F64
  /-- `math.Pow` -/
  pow : F64 → F64 → F64

/-- `math.Ln2` is the untyped constant `ln2Num / 10^63` (Go's math/const.go) -/
def ln2Num : Nat := 693147180559945309417232121458176568075500134360255254120680009
/-- `math.Ln2` as a float64 (bloom.go:63) -/
def ln2 : F64 := F64.dec ln2Num (10 ^ 63)
/-- `math.Ln2 * math.Ln2` (bloom.go:62), a constant expression: multiplied exactly, then rounded to a float64 -/
def ln2Sq : F64 := F64.dec (ln2Num * ln2Num) (10 ^ 126)

/-- bloom.go:61-70 `mk`: number of bits and number of hash functions. `uint8(kraw)` of a number that does not fit is left open by the Go
specification; the model truncates to an integer and takes its low 8 bits (amd64). -/
def mk (lib : MathLib) (n : Int) (p : F64) : Int × Byte :=
  let m := F64.toInt64 (F64.ceil (F64.div (F64.mul (F64.neg (F64.ofInt n)) (lib.log p)) ln2Sq))
  let kraw := F64.ceil (F64.div (F64.mul ln2 (F64.ofInt m)) (F64.ofInt n))
  (m, if F64.lt kraw (F64.ofNat 255) then BitVec.ofInt 8 (F64.toInt64 kraw) else 255#8)

/-- bloom.go:33-36 `New` -/
def new (lib : MathLib) (n : Int) (p : F64) : Out Filter :=
  let (m, k) := mk lib n p
  newBits m k

/-- bloom.go:109-112 `Len` -/
def lenFor (lib : MathLib) (n : Int) (p : F64) : Int :=
  let (m, _) := mk lib n p
  wrap64 (2 + Bitbucket.len m 1#8)

/-- bloom.go:115-118 `Count` -/
def count (lib : MathLib) (b : Filter) : Out Int := do
  let x ← Bitbucket.countN b.bits 1#8
  return F64.toInt64 (F64.ceil (F64.div (F64.mul
    (F64.neg (lib.log (F64.sub (F64.ofNat 1) (F64.div (F64.ofInt x) (F64.ofInt b.m))))) (F64.ofInt b.m)) (F64.ofNat b.k.toNat)))

/-- bloom.go:121-124 `ErrorRate` -/
def errorRate (lib : MathLib) (b : Filter) : Out F64 := do
  let x ← Bitbucket.countN b.bits 1#8
  return lib.pow (F64.sub (F64.ofNat 1) (lib.exp (F64.div (F64.mul (F64.neg (F64.ofNat b.k.toNat)) (F64.ofInt x)) (F64.ofInt b.m))))
    (F64.ofNat b.k.toNat)

end Starbow.Bloom
