import Verif.Model.Basic
/-
IEEE-754 binary64 (Go `float64`), round to nearest, ties to even. A finite value is a sign and a magnitude in units of
2^-1074, the smallest positive double; every finite double is a natural number of such units.

Simplifications: one NaN (payload and sign of NaNs are not modelled); every operation is rounded on its own, as on amd64 (the Go
specification allows a compiler to fuse `x*y + z` on some other architectures). `math.Log` and `strconv.ParseFloat` are
parameters where they are used.
-/
namespace Starbow

inductive F64 where
  | nan
  | inf (neg : Bool)
  | fin (neg : Bool) (mag : Nat)
  deriving Repr, DecidableEq

namespace F64

/-- `a/b` rounded to the nearest integer, ties to even -/
def rhe (a b : Nat) : Nat :=
  if 2 * (a % b) < b then a / b
  else if b < 2 * (a % b) then a / b + 1
  else a / b + a / b % 2

/-- number of low bits that do not fit into a 53-bit significand -/
def shiftOf (q : Nat) : Nat := Nat.log2 q - 52

/-- `a/b` (units) rounded to a 53-bit significand, with no upper limit on the exponent -/
def rnd (a b : Nat) : Nat := rhe a (b * 2 ^ shiftOf (a / b)) * 2 ^ shiftOf (a / b)

/-- 1 is `2^1074` units -/
@[irreducible] def expOne : Nat := 1074
/-- `2^1024` is `2^2098` units -/
@[irreducible] def expLimit : Nat := 2098
/-- magnitudes from here on are infinite -/
@[irreducible] def limit : Nat := 2 ^ expLimit
/-- one, in units -/
@[irreducible] def one : Nat := 2 ^ expOne

/-- the double nearest to `±a/b` units -/
def mk (neg : Bool) (a b : Nat) : F64 := if rnd a b < limit then .fin neg (rnd a b) else .inf neg

/-- a finite value in units -/
def signed (neg : Bool) (m : Nat) : Int := if neg then -(m : Int) else m

/-- unary minus -/
def neg : F64 → F64
  | .nan => .nan
  | .inf s => .inf (!s)
  | .fin s m => .fin (!s) m

/-- `x + y`; an exact zero sum is `+0` unless both are `-0` -/
def add : F64 → F64 → F64
  | .nan, _ => .nan
  | _, .nan => .nan
  | .inf a, .inf b => if a = b then .inf a else .nan
  | .inf a, .fin _ _ => .inf a
  | .fin _ _, .inf b => .inf b
  | .fin a m, .fin b n =>
    if signed a m + signed b n = 0 then .fin (a && b) 0
    else mk (decide (signed a m + signed b n < 0)) (signed a m + signed b n).natAbs 1

/-- `x - y` -/
def sub (x y : F64) : F64 := add x (neg y)

/-- `x * y` -/
def mul : F64 → F64 → F64
  | .nan, _ => .nan
  | _, .nan => .nan
  | .inf a, .inf b => .inf (a != b)
  | .inf a, .fin b n => if n = 0 then .nan else .inf (a != b)
  | .fin a m, .inf b => if m = 0 then .nan else .inf (a != b)
  | .fin a m, .fin b n => mk (a != b) (m * n) one

/-- `x / y` -/
def div : F64 → F64 → F64
  | .nan, _ => .nan
  | _, .nan => .nan
  | .inf _, .inf _ => .nan
  | .inf a, .fin b _ => .inf (a != b)
  | .fin a _, .inf b => .fin (a != b) 0
  | .fin a m, .fin b n =>
    if n = 0 then if m = 0 then .nan else .inf (a != b)
    else mk (a != b) (m * one) n

/-- conversion of a non-negative integer -/
def ofNat (n : Nat) : F64 := mk false (n * one) 1
/-- `float64(x)` for a `uint64` -/
def ofU64 (x : U64) : F64 := ofNat x.toNat
/-- `float64(x)` for an `int` or `int64` -/
def ofInt (x : Int) : F64 := mk (decide (x < 0)) (x.natAbs * one) 1

/-- order of two numbers; `none` if one is NaN -/
def cmp : F64 → F64 → Option Ordering
  | .nan, _ => none
  | _, .nan => none
  | .inf a, .inf b => some (if a = b then .eq else if a then .lt else .gt)
  | .inf a, .fin _ _ => some (if a then .lt else .gt)
  | .fin _ _, .inf b => some (if b then .gt else .lt)
  | .fin a m, .fin b n => some (compare (signed a m) (signed b n))

/-- `x <= y` -/
def le (x y : F64) : Bool := match cmp x y with | some .lt => true | some .eq => true | _ => false
/-- `x < y` -/
def lt (x y : F64) : Bool := match cmp x y with | some .lt => true | _ => false
/-- `x >= y` -/
def ge (x y : F64) : Bool := le y x
/-- `x == y` -/
def eq (x y : F64) : Bool := match cmp x y with | some .eq => true | _ => false

/-- `math.Sqrt` of a finite non-negative magnitude: the square root of `m` units is the square root of `m*one` in units; it
is never half-way between two doubles -/
def sqrtMag (m : Nat) : Nat :=
  let s := shiftOf (Nat.sqrt (m * one))
  let q := Nat.sqrt (m * one / 4 ^ s)
  (if (2 * q + 1) ^ 2 * 4 ^ s < 4 * (m * one) then q + 1 else q) * 2 ^ s

/-- `math.Sqrt` -/
def sqrt : F64 → F64
  | .nan => .nan
  | .inf s => if s then .nan else .inf false
  | .fin s m => if m = 0 then .fin s 0 else if s then .nan else .fin false (sqrtMag m)

/-- `math.Ceil` -/
def ceil : F64 → F64
  | .fin s m =>
    if m % one = 0 then .fin s m
    else if s then .fin true (m / one * one) else .fin false ((m / one + 1) * one)
  | x => x

/-- `int64(x)`: truncation; NaN and values out of range give the smallest integer (what amd64 does; the Go specification
leaves it open) -/
def toInt64 : F64 → Int
  | .fin s m => if (signed s (m / one)) < -2 ^ 63 ∨ 2 ^ 63 ≤ signed s (m / one) then -2 ^ 63 else signed s (m / one)
  | _ => -2 ^ 63

/-- a decimal constant `n/d` -/
def dec (n d : Nat) : F64 := mk false (n * one) d

/-- `+0` -/
def zero : F64 := .fin false 0

/-- `math.Float64frombits` -/
def ofBits (b : U64) : F64 :=
  let s := decide (b.toNat / 2 ^ 63 = 1)
  let e := b.toNat / 2 ^ 52 % 2 ^ 11
  let f := b.toNat % 2 ^ 52
  if e = 2047 then (if f = 0 then .inf s else .nan)
  else if e = 0 then .fin s f
  else .fin s ((2 ^ 52 + f) * 2 ^ (e - 1))

/-- exponent and fraction bits of a finite magnitude -/
def magBits (m : Nat) : Nat := shiftOf m * 2 ^ 52 + m / 2 ^ shiftOf m

/-- `math.Float64bits`; NaN gives the bits of `math.NaN()` -/
def toBits : F64 → U64
  | .nan => 0x7FF8000000000001#64
  | .inf s => BitVec.ofNat 64 ((if s then 2 ^ 63 else 0) + 2047 * 2 ^ 52)
  | .fin s m => BitVec.ofNat 64 ((if s then 2 ^ 63 else 0) + magBits m)

end F64
end Starbow
