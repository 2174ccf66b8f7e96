import Verif.Model.Io
/-
Model of /repo/internal/bitbucket/bitbucket.go (whole file).
-/
namespace Starbow.Bitbucket

/-- bitbucket.go:14 -/
def version : Byte := 1#8
/-- bitbucket.go:15 -/
def hdrLen : Nat := 10

/-- bitbucket.go:23-27 `BitBucket`. `n` is Go's signed 64-bit `int`. -/
structure BB where
  data : Bytes
  n : Int
  w : Byte
  deriving Repr, DecidableEq

/-- bitbucket.go:76-78 `length`: `(n*int(w) + 7) / 8` on 64-bit `int` (wrapping product and sum,
division truncating toward zero). -/
def length (n : Int) (w : Byte) : Int := (wrap64 (wrap64 (n * (w.toNat : Int)) + 7)).tdiv 8

/-- `make([]byte, k)`: panics on a negative length. (Go also panics or dies on lengths beyond the
available memory; the model has unlimited memory.) -/
def makeBytes (k : Int) : Out Bytes := if k < 0 then .panic else .val (List.replicate k.toNat 0#8)

/-- bitbucket.go:31-40 `New`; panics if `w > 8` (or if `make` does). -/
def new (n : Int) (w : Byte) : Out BB :=
  if w > 8#8 then .panic
  else do
    let data ← makeBytes (length n w)
    return { n := n, w := w, data := data }

/-- bitbucket.go:46-73 `WithBytes`. The slice expression on line 71 panics when the computed length is
negative. -/
def withBytes (buf : Bytes) : Out (Except Err BB) :=
  if buf.length < hdrLen then .val (.error .shortBuffer)
  else if buf.getD 0 0 ≠ version then .val (.error .incompatibleVersion)
  else
    let w := buf.getD 1 0
    if w > 8#8 then .val (.error .unsupportedWidth)
    else
      let n : Int := (leU64 (slice buf 2 hdrLen)).toInt
      let buflen := length n w
      -- line 64: `len(buf) < hdrLen+buflen` on wrapping ints
      if (buf.length : Int) < wrap64 ((hdrLen : Int) + buflen) then .val (.error .shortBuffer)
      -- line 71: `buf[hdrLen : hdrLen+buflen]` panics unless hdrLen <= hdrLen+buflen (<= cap(buf))
      else if wrap64 ((hdrLen : Int) + buflen) < (hdrLen : Int) then .panic
      else .val (.ok { n := n, w := w, data := slice buf hdrLen (hdrLen + buflen.toNat) })

/-- bitbucket.go:140-153 `extract`: the 16-bit window, shift, mask and byte index of the `l` bits at
bit offset `o`. Indexing `b.data[index]` (line 144) panics when out of range; the arithmetic on line
149 is in `uint8` and wraps. -/
def extract (b : BB) (o : Int) (l : Byte) : Out (BitVec 16 × BitVec 16 × BitVec 16 × Nat) :=
  let index := o.tdiv 8
  let offset : Byte := BitVec.ofInt 8 (o.tmod 8)
  if index < 0 ∨ (b.data.length : Int) ≤ index then .panic
  else
    let ix := index.toNat
    let data : BitVec 16 := (b.data.getD ix 0).setWidth 16 <<< 8
    let data := if ix + 1 < b.data.length then data ||| (b.data.getD (ix + 1) 0).setWidth 16 else data
    let shift : BitVec 16 := (16#8 - offset - l).setWidth 16
    let mask : BitVec 16 := ((1#16 <<< l.toNat) - 1#16) <<< shift.toNat
    .val (data, shift, mask, ix)

/-- bitbucket.go:102-105 `get` -/
def get0 (b : BB) (o : Int) (l : Byte) : Out Byte := do
  let (data, shift, mask, _) ← extract b o l
  return ((data &&& mask) >>> shift.toNat).setWidth 8

/-- The write-back of lines 116-119 and 134-137. -/
def putWindow (b : BB) (ix : Nat) (data : BitVec 16) : BB :=
  let d := b.data.set ix ((data &&& 0xff00#16) >>> 8 |>.setWidth 8)
  if ix + 1 < b.data.length then { b with data := d.set (ix + 1) ((data &&& 0x00ff#16).setWidth 8) }
  else { b with data := d }

/-- `uint8(1<<b.w - 1)`, lines 94, 108, 231 (8-bit arithmetic: 255 for w = 8). -/
def max8 (w : Byte) : Byte := (1#8 <<< w.toNat) - 1#8

/-- bitbucket.go:107-120 `set` -/
def set0 (b : BB) (o : Int) (l : Byte) (v : Byte) : Out BB := do
  let max := max8 b.w
  let v := if v > max then max else v
  let (data, shift, mask, ix) ← extract b o l
  let data := (data &&& ~~~mask) ||| (v.setWidth 16 <<< shift.toNat)
  return putWindow b ix data

/-- bitbucket.go:122-138 `incn` -/
def incn0 (b : BB) (o : Int) (l : Byte) (v : Byte) : Out BB := do
  let (data, shift, mask, ix) ← extract b o l
  let value : BitVec 16 := (data &&& mask) >>> shift.toNat
  let max : BitVec 16 := (1#16 <<< b.w.toNat) - 1#16
  let value := value + v.setWidth 16
  let value := if value > max then max else value
  let data := (data &&& ~~~mask) ||| (value <<< shift.toNat)
  return putWindow b ix data

/-- bitbucket.go:81-83 `Get` -/
def get (b : BB) (i : Int) : Out Byte := get0 b (wrap64 (i * (b.w.toNat : Int))) b.w
/-- bitbucket.go:87-89 `Set` -/
def set (b : BB) (i : Int) (v : Byte) : Out BB := set0 b (wrap64 (i * (b.w.toNat : Int))) b.w v
/-- bitbucket.go:93-99 `IncN` -/
def incN (b : BB) (i : Int) (v : Byte) : Out BB :=
  let max := max8 b.w
  let v := if v > max then max else v
  incn0 b (wrap64 (i * (b.w.toNat : Int))) b.w v

/-- bitbucket.go:158-176 `WriteTo`: header then data; returns the count, the error and the writer. -/
def writeTo (b : BB) (w : Writer) : (Nat × Option Err) × Writer :=
  let hdr : Bytes := version :: b.w :: le64 (BitVec.ofInt 64 b.n)
  match w.write hdr with
  | ((n, some e), w1) => ((n, some e), w1)
  | ((n, none), w1) =>
    match w1.write b.data with
    | ((n0, some e), w2) => ((n + n0, some e), w2)
    | ((n0, none), w2) => ((n + n0, none), w2)

/-- bitbucket.go:183-220 `ReadFrom`: returns the (over)written bit bucket, the count, the error and
the rest of the reader. The receiver is modified field by field, so it is returned on errors too.
Line 201 `make` panics when the computed length is negative. No check of the width is made. -/
def readFrom (b : BB) (r : Reader) : Out (BB × Nat × Option Err × Reader) :=
  match readFull r hdrLen [] with
  | ((hd, some e), r1) =>
    .val (b, hd.length, some (if e = .eof then .unexpectedEOF else e), r1)
  | ((hd, none), r1) =>
    if hd.getD 0 0 ≠ version then .val (b, hd.length, some .incompatibleVersion, r1)
    else
      let w := hd.getD 1 0
      let n : Int := (leU64 (slice hd 2 hdrLen)).toInt
      if length n w < 0 then .panic
      else
        let k := (length n w).toNat
        match readFull r1 k [] with
        | ((d, some e), r2) =>
          -- data is the zeroed slice overwritten by the bytes that did arrive
          .val ({ w := w, n := n, data := d ++ List.replicate (k - d.length) 0#8 }, hd.length + d.length,
            some (if e = .eof then .unexpectedEOF else e), r2)
        | ((d, none), r2) =>
          let ((t, e), r3) := r2.read hdrLen
          .val ({ w := w, n := n, data := d }, hd.length + d.length + t.length,
            if e ≠ some .eof then some .shortBuffer else none, r3)

/-- bitbucket.go:223-227 `Reset` -/
def reset (b : BB) : BB := { b with data := b.data.map fun _ => 0#8 }
/-- bitbucket.go:230-232 `Max` -/
def max (b : BB) : Byte := max8 b.w
/-- bitbucket.go:235-237 `(*BitBucket).Len` -/
def lenOf (b : BB) : Nat := 1 + 1 + 8 + b.data.length
/-- bitbucket.go:240-242 `Count` -/
def count (b : BB) : Int := b.n
/-- bitbucket.go:246-254 `CountN`: the loop over `i = 0 .. n-1` (`k` = iterations left, `i` = index). -/
def countNLoop (b : BB) (v : Byte) : Nat → Nat → Nat → Out Nat
  | 0, _, acc => .val acc
  | k + 1, i, acc => do
    let x ← get b (i : Int)
    countNLoop b v k (i + 1) (if x = v then acc + 1 else acc)
/-- bitbucket.go:246-254 `CountN` -/
def countN (b : BB) (v : Byte) : Out Nat := countNLoop b v b.n.toNat 0 0
/-- bitbucket.go:257-259 `Width` -/
def width (b : BB) : Byte := b.w
/-- bitbucket.go:262-264 `Len` -/
def len (n : Int) (w : Byte) : Int := wrap64 (10 + length n w)

end Starbow.Bitbucket

namespace Starbow.Bitbucket

/-- What the caller's buffer holds after `b'` (opened from it by `WithBytes` and then written through):
lines 70-72 keep `buf[hdrLen : hdrLen+buflen]` as the data, so writes land there. -/
def storeBack (buf : Bytes) (b : BB) : Bytes := splice buf hdrLen b.data

end Starbow.Bitbucket
