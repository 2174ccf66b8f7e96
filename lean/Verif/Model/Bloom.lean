import Verif.Model.Bitbucket
import Verif.Model.Fnv
/-
Model of /repo/internal/summary/bloom/bloom.go. Not modelled here: `New`, `mk`, `Len(n, p)`, `Count`,
`ErrorRate` (they use math.Log/Exp/Pow, see Model/BloomEst).
-/
namespace Starbow.Bloom
open Starbow

/-- bloom.go:17 -/
def version : Byte := 1#8
/-- bloom.go:18 -/
def hdrLen : Nat := 2

/-- bloom.go:26-30 -/
structure Filter where
  bits : Bitbucket.BB
  m : Int
  k : Byte
  deriving Repr, DecidableEq

/-- bloom.go:73-79 `NewBits` -/
def newBits (m : Int) (k : Byte) : Out Filter := do
  let bits ← Bitbucket.new m 1#8
  return { m := m, k := k, bits := bits }

/-- bloom.go:202-206 `hasher` (the field `n` is never used) -/
structure Hasher where
  a : U64
  b : U64
  m : Int
  deriving Repr, DecidableEq

/-- bloom.go:211-242 `newHasher`. `m&1 == 0` on Go's two's complement int is evenness. -/
def newHasher (data : Bytes) (m : Int) : Hasher :=
  let a := Fnv.sum64Of (Fnv.write1 Fnv.new64 data).1
  let b := Fnv.sum64aOf (Fnv.write1a Fnv.new64a data).1
  if m % 2 = 0 then
    let b := if b &&& 1#64 = 0#64 then b + 1#64 else b
    { a := a, b := b, m := m }
  else
    let m := if m > 2 then m - 1 else m
    let b := if b &&& 1#64 = 0#64 then b + 1#64 else b
    { a := a, b := b, m := m }

/-- bloom.go:245-249 `next`: the next value and the new state; the `%` panics when `uint64(h.m)` is 0. -/
def next (h : Hasher) : Out (U64 × Hasher) :=
  let um : U64 := BitVec.ofInt 64 h.m
  if um = 0#64 then .panic
  else .val (h.a % um, { h with a := (h.a + h.b) % um })

/-- bloom.go:84-87, the loop of `Add` (`c` = iterations left) -/
def addLoop (bits : Bitbucket.BB) (h : Hasher) : Nat → Out Bitbucket.BB
  | 0 => .val bits
  | c + 1 => do
    let (x, h') ← next h
    let bits' ← Bitbucket.set bits x.toInt 1#8
    addLoop bits' h' c

/-- bloom.go:82-88 `Add` -/
def add (b : Filter) (v : Bytes) : Out Filter := do
  let bits ← addLoop b.bits (newHasher v b.m) b.k.toNat
  return { b with bits := bits }

/-- bloom.go:94-98, the loop of `Has` -/
def hasLoop (bits : Bitbucket.BB) (h : Hasher) : Nat → Out Bool
  | 0 => .val true
  | c + 1 => do
    let (x, h') ← next h
    let g ← Bitbucket.get bits x.toInt
    if g ≠ 1#8 then return false
    else hasLoop bits h' c

/-- bloom.go:92-100 `Has` -/
def has (b : Filter) (v : Bytes) : Out Bool := hasLoop b.bits (newHasher v b.m) b.k.toNat

/-- bloom.go:103-105 `(*Bloom).Len` -/
def lenOf (b : Filter) : Nat := hdrLen + Bitbucket.lenOf b.bits

/-- bloom.go:42-59 `WithBytes`: indexing `buf[0]`, `buf[1]` panics on short buffers. -/
def withBytes (buf : Bytes) : Out (Except Err Filter) :=
  if buf.length < 1 then .panic
  else if buf.getD 0 0 ≠ version then .val (.error .incompatibleVersion)
  else if buf.length < 2 then .panic
  else do
    match ← Bitbucket.withBytes (buf.drop 2) with
    | .error e => return .error e
    | .ok bits => return .ok { m := Bitbucket.count bits, k := buf.getD 1 0, bits := bits }

/-- bloom.go:129-146 `WriteTo` -/
def writeTo (b : Filter) (w : Writer) : (Nat × Option Err) × Writer :=
  match w.write [version, b.k] with
  | ((n, some e), w1) => ((n, some e), w1)
  | ((n, none), w1) =>
    match Bitbucket.writeTo b.bits w1 with
    | ((n0, e), w2) => ((n + n0, e), w2)

/-- bloom.go:153-190 `ReadFrom` -/
def readFrom (b : Filter) (r : Reader) : Out (Filter × Nat × Option Err × Reader) :=
  match readFull r hdrLen [] with
  | ((hd, some e), r1) =>
    .val (b, hd.length, some (if e = .eof then .unexpectedEOF else e), r1)
  | ((hd, none), r1) =>
    if hd.getD 0 0 ≠ version then .val (b, hd.length, some .incompatibleVersion, r1)
    else do
      let k := hd.getD 1 0
      match ← Bitbucket.readFrom ⟨[], 0, 0#8⟩ r1 with
      | (bits, n0, some e, r2) =>
        return ({ b with k := k, bits := bits }, hd.length + n0,
          some (if e = .eof then .unexpectedEOF else e), r2)
      | (bits, n0, none, r2) =>
        let ((t, e), r3) := r2.read hdrLen
        return ({ m := Bitbucket.count bits, k := k, bits := bits }, hd.length + n0 + t.length,
          if e ≠ some .eof then some .shortBuffer else none, r3)

/-- bloom.go:193-195 `Reset` -/
def reset (b : Filter) : Filter := { b with bits := Bitbucket.reset b.bits }

end Starbow.Bloom
