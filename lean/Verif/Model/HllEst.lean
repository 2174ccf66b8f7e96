import Verif.Model.Hll
import Verif.Model.F64
/-
Model of the estimators of /repo/internal/summary/hll/hll.go. `math.Log` is a parameter (`log`). The loops of `sigma` and
`tau` run until the sum no longer changes; the model gives them a number of rounds and reports running out of rounds as a
panic, so a proof that there is no panic is also a proof that they end.
-/
namespace Starbow.Hll
open Starbow

/-- hll.go:333-349 (a Go map: absent keys give 0) -/
def threshold (p : Byte) : F64 :=
  match p.toNat with
  | 4 => F64.ofNat 10
  | 5 => F64.ofNat 20
  | 6 => F64.ofNat 40
  | 7 => F64.ofNat 80
  | 8 => F64.ofNat 220
  | 9 => F64.ofNat 400
  | 10 => F64.ofNat 900
  | 11 => F64.ofNat 1800
  | 12 => F64.ofNat 3100
  | 13 => F64.ofNat 6500
  | 14 => F64.ofNat 11500
  | 15 => F64.ofNat 20000
  | 16 => F64.ofNat 50000
  | 17 => F64.ofNat 120000
  | 18 => F64.ofNat 350000
  | _ => F64.zero

/-- hll.go:69-79 -/
def alpha (p : Byte) : F64 :=
  let m := mInt p
  if m ≤ 16 then F64.dec 673 1000
  else if m ≤ 32 then F64.dec 697 1000
  else if m ≤ 64 then F64.dec 709 1000
  else if m > 256 then F64.dec 7213475 10000000
  else F64.div (F64.dec 7213 10000) (F64.add (F64.ofNat 1) (F64.div (F64.dec 1079 1000) (F64.ofInt m)))

/-- hll.go:215-223, with `k` rounds left -/
def sigmaLoop : Nat → F64 → F64 → F64 → Out F64
  | 0, _, _, _ => .panic
  | k + 1, x, y, z =>
    let x := F64.mul x x
    let z1 := z
    let z := F64.add z (F64.mul x y)
    let y := F64.mul (F64.ofNat 2) y
    if F64.eq z z1 then .val z else sigmaLoop k x y z

/-- hll.go:207-226 -/
def sigma (c m : Int) : Out F64 :=
  let x := F64.div (F64.ofInt c) (F64.ofInt m)
  if F64.eq x (F64.ofNat 1) then .val (.inf false) else sigmaLoop 128 x (F64.ofNat 1) x

/-- hll.go:233-241, with `k` rounds left -/
def tauLoop : Nat → F64 → F64 → F64 → Out F64
  | 0, _, _, _ => .panic
  | k + 1, x, y, z =>
    let x := F64.sqrt x
    let z1 := z
    let y := F64.mul (F64.dec 1 2) y
    let z := F64.add z (F64.mul (F64.mul (F64.sub (F64.ofNat 1) x) x) y)
    if F64.eq z z1 then .val z else tauLoop k x y z

/-- hll.go:229-244 -/
def tau (c m : Int) : Out F64 :=
  tauLoop 1200 (F64.sub (F64.ofNat 1) (F64.div (F64.ofInt c) (F64.ofInt m))) (F64.ofNat 1) F64.zero

/-- hll.go:152-161: from register `i` with `k` left -/
def harmonicLoop (b : Bitbucket.BB) : Nat → Nat → F64 → Out F64
  | 0, _, z => .val z
  | k + 1, i, z => do
    let reg ← Bitbucket.get b i
    if reg = 0#8 then harmonicLoop b k (i + 1) (F64.add z (F64.dec 1 2))
    else harmonicLoop b k (i + 1) (F64.add z (F64.div (F64.ofNat 1) (F64.ofU64 (1#64 <<< reg.toNat))))

/-- hll.go:150-164 -/
def harmonic (c : Counter) : Out F64 := harmonicLoop c.bits (mInt c.p).toNat 0 F64.zero

/-- hll.go:183-186: count the registers by value; indexing beyond 63 panics -/
def tallyLoop (b : Bitbucket.BB) : Nat → Nat → List Nat → Out (List Nat)
  | 0, _, cn => .val cn
  | k + 1, i, cn => do
    let reg ← Bitbucket.get b i
    if 64 ≤ reg.toNat then .panic
    else tallyLoop b k (i + 1) (cn.set reg.toNat (cn.getD reg.toNat 0 + 1))

/-- hll.go:190-192: `for k := q; k >= 1; k--` -/
def foldLoop (cn : List Nat) : Nat → F64 → F64
  | 0, z => z
  | k + 1, z => foldLoop cn k (F64.mul (F64.dec 1 2) (F64.add z (F64.ofNat (cn.getD (k + 1) 0))))

/-- hll.go:178-197; `cn[q+1]` with `q = 64 - p` panics outside the array -/
def poisson (c : Counter) : Out F64 := do
  let m := mInt c.p
  let cn ← tallyLoop c.bits m.toNat 0 (List.replicate 64 0)
  let q : Int := 64 - c.p.toNat
  if q + 1 < 0 ∨ 64 ≤ q + 1 then .panic
  else do
    let t ← tau (cn.getD (q + 1).toNat 0) m
    let z := foldLoop cn q.toNat (F64.mul (F64.ofInt m) t)
    let s ← sigma (cn.getD 0 0) m
    return F64.add z (F64.mul (F64.ofInt m) s)

/-- hll.go:134, 169, 202: `c.alpha * float64(m) * float64(m) / z` -/
def normalize (c : Counter) (z : F64) : F64 :=
  F64.div (F64.mul (F64.mul (alpha c.p) (F64.ofInt (mInt c.p))) (F64.ofInt (mInt c.p))) z

/-- hll.go:118-119, 141: `float64(m) * math.Log(float64(m)/float64(v))` -/
def linear (log : F64 → F64) (c : Counter) (v : Nat) : F64 :=
  F64.mul (F64.ofInt (mInt c.p)) (log (F64.div (F64.ofInt (mInt c.p)) (F64.ofNat v)))

/-- hll.go:125-135: the part of `Count` after linear counting has been ruled out -/
def countLarge (c : Counter) : Out Int := do
  let z ← harmonic c
  let z ← if F64.ge z (F64.div (F64.mul (alpha c.p) (F64.ofInt (mInt c.p))) (F64.ofNat 7)) then poisson c else .val z
  return F64.toInt64 (F64.ceil (normalize c z))

/-- hll.go:111-136 `Count` -/
def count (log : F64 → F64) (c : Counter) : Out Int := do
  let v ← Bitbucket.countN c.bits 0#8
  if 0 < v ∧ F64.le (F64.ceil (linear log c v)) (threshold c.p) = true then
    return F64.toInt64 (F64.ceil (linear log c v))
  else countLarge c

/-- hll.go:138-143 `LinearCount` -/
def linearCount (log : F64 → F64) (c : Counter) : Out Int := do
  let v ← Bitbucket.countN c.bits 0#8
  return F64.toInt64 (F64.ceil (linear log c v))

/-- hll.go:166-171 `HarmonicCount` -/
def harmonicCount (c : Counter) : Out Int := do
  let z ← harmonic c
  return F64.toInt64 (F64.ceil (normalize c z))

/-- hll.go:199-204 `PoissonCount` -/
def poissonCount (c : Counter) : Out Int := do
  let z ← poisson c
  return F64.toInt64 (F64.ceil (normalize c z))

end Starbow.Hll
