import Verif.Model.Bitbucket
import Verif.Model.Fnv
/-
Model of /repo/internal/summary/hll/hll.go: construction, Add, serialisation (the estimators are in
Model/HllEst). Simplification: the fields `mask`, `alpha` and `threshold` of `Counter` (lines 82-89) are
functions of `p` set by `initParams` whenever `p` is set, so the model keeps only `p` and `bits`; the
zero value `Counter{}` on which no constructor was called is not modelled.
-/
namespace Starbow.Hll
open Starbow

/-- hll.go:17 -/
def version : Byte := 1#8
/-- hll.go:19 -/
def hdrLen : Nat := 2

/-- hll.go:82-89 -/
structure Counter where
  p : Byte
  bits : Bitbucket.BB
  deriving Repr, DecidableEq

/-- `int(1 << uint(p))` (lines 29, 64, 324) and `int(uint(1) << uint(c.p))` (113 etc.): 64-bit shift,
zero for `p ≥ 64`, read as a signed int. -/
def mInt (p : Byte) : Int := (1#64 <<< p.toNat).toInt

/-- hll.go:25-37 `New`; panics outside [4,18] -/
def new (p : Byte) : Out Counter :=
  if p < 4#8 ∨ p > 18#8 then .panic
  else do
    let bits ← Bitbucket.new (mInt p) 6#8
    return { p := p, bits := bits }

/-- hll.go:66 `c.mask = ((1 << c.p) - 1) << (64 - c.p)`; `64 - c.p` is computed in uint8. -/
def mask (p : Byte) : U64 := ((1#64 <<< p.toNat) - 1#64) <<< (64#8 - p).toNat

/-- hll.go:98-104: the loop counting leading zeros (`k` = iterations left). -/
def rhoLoop (h : U64) : Nat → U64 → Byte → Byte
  | 0, _, rho => rho
  | k + 1, t, rho => if h &&& t ≠ 0#64 then rho else rhoLoop h k (t >>> 1) (rho + 1#8)

/-- hll.go:92-93: the register index -/
def idx (p : Byte) (h : U64) : U64 := (h &&& mask p) >>> (64#8 - p).toNat

/-- hll.go:96-104: the rank; the loop runs while `i < 64-int(c.p)` -/
def rho (p : Byte) (h : U64) : Byte := rhoLoop h (64 - (p.toNat : Int)).toNat (1#64 <<< (63#8 - p).toNat) 1#8

/-- hll.go:91-108 `Add` -/
def add (c : Counter) (v : Bytes) : Out Counter := do
  let h := Fnv.sum64 v
  let i := (idx c.p h).toInt
  let r := rho c.p h
  let g ← Bitbucket.get c.bits i
  if r > g then
    let bits ← Bitbucket.set c.bits i r
    return { c with bits := bits }
  else return c

/-- hll.go:43-61 `WithBytes`: indexing panics on short buffers. -/
def withBytes (buf : Bytes) : Out (Except Err Counter) :=
  if buf.length < 1 then .panic
  else if buf.getD 0 0 ≠ version then .val (.error .incompatibleVersion)
  else if buf.length < 2 then .panic
  else do
    match ← Bitbucket.withBytes (buf.drop 2) with
    | .error e => return .error e
    | .ok bits => return .ok { p := buf.getD 1 0, bits := bits }

/-- hll.go:249-266 `WriteTo` -/
def writeTo (c : Counter) (w : Writer) : (Nat × Option Err) × Writer :=
  match w.write [version, c.p] with
  | ((n, some e), w1) => ((n, some e), w1)
  | ((n, none), w1) =>
    match Bitbucket.writeTo c.bits w1 with
    | ((n0, e), w2) => ((n + n0, e), w2)

/-- hll.go:273-309 `ReadFrom`. Unlike the bloom filter the receiver's bucket is passed on as it is. -/
def readFrom (c : Counter) (r : Reader) : Out (Counter × Nat × Option Err × Reader) :=
  match readFull r hdrLen [] with
  | ((hd, some e), r1) =>
    .val (c, hd.length, some (if e = .eof then .unexpectedEOF else e), r1)
  | ((hd, none), r1) =>
    if hd.getD 0 0 ≠ version then .val (c, hd.length, some .incompatibleVersion, r1)
    else do
      let p := hd.getD 1 0
      match ← Bitbucket.readFrom c.bits r1 with
      | (bits, n0, some e, r2) =>
        return ({ p := p, bits := bits }, hd.length + n0,
          some (if e = .eof then .unexpectedEOF else e), r2)
      | (bits, n0, none, r2) =>
        let ((t, e), r3) := r2.read hdrLen
        return ({ p := p, bits := bits }, hd.length + n0 + t.length,
          if e ≠ some .eof then some .shortBuffer else none, r3)

/-- hll.go:312-314 `(*Counter).Len` -/
def lenOf (c : Counter) : Nat := hdrLen + Bitbucket.lenOf c.bits

/-- hll.go:317-319 `Reset` -/
def reset (c : Counter) : Counter := { c with bits := Bitbucket.reset c.bits }

/-- hll.go:323-326 `Len` -/
def len (p : Byte) : Int := wrap64 ((hdrLen : Int) + Bitbucket.len (mInt p) 6#8)

end Starbow.Hll
