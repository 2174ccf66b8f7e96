import Verif.Model.Basic
/-
Model of /repo/internal/hash/fnv/fnv.go (whole file).
-/
namespace Starbow.Fnv

/-- fnv.go:14 -/
def offset64 : U64 := 14695981039346656037#64
/-- fnv.go:15 -/
def prime64 : U64 := 1099511628211#64

/-- The FNV-1 loop body, fnv.go:53-54 (also 62-63, 72-73, 210-211, 230-231):
`hash *= prime64; hash ^= c`. -/
def step1 (h : U64) (c : Byte) : U64 := (h * prime64) ^^^ c.setWidth 64

/-- The FNV-1a loop body, fnv.go:145-146 (also 154-155, 164-165, 220-221, 240-241):
`hash ^= c; hash *= prime64`. -/
def step1a (h : U64) (c : Byte) : U64 := (h ^^^ c.setWidth 64) * prime64

/-- fnv.go:19-22 `New64` -/
def new64 : U64 := offset64
/-- fnv.go:25-27 `(*Fnv64).Reset` -/
def reset64 (_s : U64) : U64 := offset64
/-- fnv.go:35-37 `(*Fnv64).Sum64` -/
def sum64Of (s : U64) : U64 := s
/-- fnv.go:50-58 `(*Fnv64).Write`; returns the new state and the byte count. -/
def write1 (s : U64) (data : Bytes) : U64 × Nat := (data.foldl step1 s, data.length)
/-- fnv.go:61-65 `(*Fnv64).WriteByte` -/
def writeByte1 (s : U64) (b : Byte) : U64 := step1 s b
/-- fnv.go:69-77 `(*Fnv64).WriteString`; Go indexes the string byte by byte: an explicit index loop. -/
def writeString1Loop (str : Bytes) (i : Nat) (hash : U64) : U64 :=
  if h : i < str.length then writeString1Loop str (i + 1) (step1 hash str[i]) else hash
termination_by str.length - i
/-- fnv.go:69-77 -/
def writeString1 (s : U64) (str : Bytes) : U64 × Nat := (writeString1Loop str 0 s, str.length)
/-- fnv.go:80-108 `(*Fnv64).WriteUint64`, unrolled as in the source. The first xor (line 84) uses
`n >> 56` without a mask. -/
def writeUint64_1 (s : U64) (n : U64) : U64 :=
  let hash := s
  let hash := hash * prime64
  let hash := hash ^^^ (n >>> 56)
  let hash := hash * prime64
  let hash := hash ^^^ ((n >>> 48) &&& 0xff#64)
  let hash := hash * prime64
  let hash := hash ^^^ ((n >>> 40) &&& 0xff#64)
  let hash := hash * prime64
  let hash := hash ^^^ ((n >>> 32) &&& 0xff#64)
  let hash := hash * prime64
  let hash := hash ^^^ ((n >>> 24) &&& 0xff#64)
  let hash := hash * prime64
  let hash := hash ^^^ ((n >>> 16) &&& 0xff#64)
  let hash := hash * prime64
  let hash := hash ^^^ ((n >>> 8) &&& 0xff#64)
  let hash := hash * prime64
  let hash := hash ^^^ (n &&& 0xff#64)
  hash

/-- fnv.go:111-114 `New64a` -/
def new64a : U64 := offset64
/-- fnv.go:117-119 `(*Fnv64a).Reset` -/
def reset64a (_s : U64) : U64 := offset64
/-- fnv.go:127-129 `(*Fnv64a).Sum64` -/
def sum64aOf (s : U64) : U64 := s
/-- fnv.go:142-150 `(*Fnv64a).Write` -/
def write1a (s : U64) (data : Bytes) : U64 × Nat := (data.foldl step1a s, data.length)
/-- fnv.go:153-157 `(*Fnv64a).WriteByte` -/
def writeByte1a (s : U64) (b : Byte) : U64 := step1a s b
/-- fnv.go:161-169 `(*Fnv64a).WriteString` index loop -/
def writeString1aLoop (str : Bytes) (i : Nat) (hash : U64) : U64 :=
  if h : i < str.length then writeString1aLoop str (i + 1) (step1a hash str[i]) else hash
termination_by str.length - i
/-- fnv.go:161-169 -/
def writeString1a (s : U64) (str : Bytes) : U64 × Nat := (writeString1aLoop str 0 s, str.length)
/-- fnv.go:172-200 `(*Fnv64a).WriteUint64`, unrolled as in the source. -/
def writeUint64_1a (s : U64) (n : U64) : U64 :=
  let hash := s
  let hash := hash ^^^ (n >>> 56)
  let hash := hash * prime64
  let hash := hash ^^^ ((n >>> 48) &&& 0xff#64)
  let hash := hash * prime64
  let hash := hash ^^^ ((n >>> 40) &&& 0xff#64)
  let hash := hash * prime64
  let hash := hash ^^^ ((n >>> 32) &&& 0xff#64)
  let hash := hash * prime64
  let hash := hash ^^^ ((n >>> 24) &&& 0xff#64)
  let hash := hash * prime64
  let hash := hash ^^^ ((n >>> 16) &&& 0xff#64)
  let hash := hash * prime64
  let hash := hash ^^^ ((n >>> 8) &&& 0xff#64)
  let hash := hash * prime64
  let hash := hash ^^^ (n &&& 0xff#64)
  let hash := hash * prime64
  hash

/-- fnv.go:30-32, 122-124 `Size` -/
def size : Nat := 8
/-- fnv.go:40-42, 132-134 `BlockSize` -/
def blockSize : Nat := 1

/-- fnv.go:202-204 `sum`: append the big-endian bytes of `n`; used by `(*Fnv64).Sum` (45-47) and
`(*Fnv64a).Sum` (137-139). -/
def sum (n : U64) (buf : Bytes) : Bytes :=
  buf ++ [(n >>> 56).setWidth 8, (n >>> 48).setWidth 8, (n >>> 40).setWidth 8, (n >>> 32).setWidth 8,
    (n >>> 24).setWidth 8, (n >>> 16).setWidth 8, (n >>> 8).setWidth 8, n.setWidth 8]

/-- fnv.go:207-214 `String64`, index loop -/
def string64 (str : Bytes) : U64 := writeString1Loop str 0 offset64
/-- fnv.go:217-224 `String64a`, index loop -/
def string64a (str : Bytes) : U64 := writeString1aLoop str 0 offset64
/-- fnv.go:227-234 `Sum64` -/
def sum64 (buf : Bytes) : U64 := buf.foldl step1 offset64
/-- fnv.go:237-244 `Sum64a` -/
def sum64a (buf : Bytes) : U64 := buf.foldl step1a offset64

/-- One call of a mutating method of `*Fnv64` or `*Fnv64a`. -/
inductive Call where
  | write (d : Bytes)
  | writeByte (b : Byte)
  | writeString (s : Bytes)
  | writeUint64 (n : U64)
  | reset
  deriving Repr, DecidableEq

/-- Effect of one call on a `*Fnv64` (dispatch to the methods above). -/
def call1 (s : U64) : Call → U64
  | .write d => (write1 s d).1
  | .writeByte b => writeByte1 s b
  | .writeString d => (writeString1 s d).1
  | .writeUint64 n => writeUint64_1 s n
  | .reset => reset64 s

/-- Effect of one call on a `*Fnv64a`. -/
def call1a (s : U64) : Call → U64
  | .write d => (write1a s d).1
  | .writeByte b => writeByte1a s b
  | .writeString d => (writeString1a s d).1
  | .writeUint64 n => writeUint64_1a s n
  | .reset => reset64a s

end Starbow.Fnv
