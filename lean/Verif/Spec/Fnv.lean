import Verif.Model.Basic
/-
Independent specification of the 64-bit FNV hashes, on unbounded natural numbers
(http://www.isthe.com/chongo/tech/comp/fnv/): FNV-1 multiplies then xors, FNV-1a xors then multiplies,
both modulo 2^64, with offset basis 14695981039346656037 and prime 2^40 + 2^8 + 0xb3.
-/
namespace Starbow.Spec

/-- FNV-1, 64 bit. -/
def fnv1 (data : List Nat) : Nat :=
  data.foldl (fun h c => (h * (2 ^ 40 + 2 ^ 8 + 0xb3) % 2 ^ 64) ^^^ c) 0xcbf29ce484222325
/-- FNV-1a, 64 bit. -/
def fnv1a (data : List Nat) : Nat :=
  data.foldl (fun h c => (h ^^^ c) * (2 ^ 40 + 2 ^ 8 + 0xb3) % 2 ^ 64) 0xcbf29ce484222325

/-- The 8 bytes of a 64-bit number, most significant first. -/
def be64 (n : Nat) : List Nat := [n / 2 ^ 56 % 256, n / 2 ^ 48 % 256, n / 2 ^ 40 % 256, n / 2 ^ 32 % 256,
  n / 2 ^ 24 % 256, n / 2 ^ 16 % 256, n / 2 ^ 8 % 256, n % 256]

/-- byte values as numbers -/
def nats (b : Bytes) : List Nat := b.map (·.toNat)

end Starbow.Spec
