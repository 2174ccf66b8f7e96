import Verif.Model.Fnv
import Verif.Spec.Fnv
/- Helper lemmas about the FNV model. -/
namespace Starbow.Fnv
open Starbow.Spec

theorem hp : prime64.toNat = 2 ^ 40 + 2 ^ 8 + 0xb3 := by decide

theorem step1_toNat (h : U64) (c : Byte) :
    (step1 h c).toNat = (h.toNat * (2 ^ 40 + 2 ^ 8 + 0xb3) % 2 ^ 64) ^^^ c.toNat := by
  have hc : c.toNat % 2 ^ 64 = c.toNat := Nat.mod_eq_of_lt (by have := c.isLt; omega)
  rw [← hp]
  unfold step1
  rw [BitVec.toNat_xor, BitVec.toNat_mul, BitVec.toNat_setWidth, hc]

theorem step1a_toNat (h : U64) (c : Byte) :
    (step1a h c).toNat = (h.toNat ^^^ c.toNat) * (2 ^ 40 + 2 ^ 8 + 0xb3) % 2 ^ 64 := by
  have hc : c.toNat % 2 ^ 64 = c.toNat := Nat.mod_eq_of_lt (by have := c.isLt; omega)
  rw [← hp]
  unfold step1a
  rw [BitVec.toNat_mul, BitVec.toNat_xor, BitVec.toNat_setWidth, hc]

theorem foldl_step1_toNat (d : Bytes) (h : U64) :
    (d.foldl step1 h).toNat =
      (nats d).foldl (fun h c => (h * (2 ^ 40 + 2 ^ 8 + 0xb3) % 2 ^ 64) ^^^ c) h.toNat := by
  induction d generalizing h with
  | nil => rfl
  | cons c d ih => simp only [List.foldl_cons, ih, step1_toNat, nats, List.map_cons]

theorem foldl_step1a_toNat (d : Bytes) (h : U64) :
    (d.foldl step1a h).toNat =
      (nats d).foldl (fun h c => (h ^^^ c) * (2 ^ 40 + 2 ^ 8 + 0xb3) % 2 ^ 64) h.toNat := by
  induction d generalizing h with
  | nil => rfl
  | cons c d ih => simp only [List.foldl_cons, ih, step1a_toNat, nats, List.map_cons]

theorem sum64_toNat (d : Bytes) : (sum64 d).toNat = fnv1 (nats d) := foldl_step1_toNat d _
theorem sum64a_toNat (d : Bytes) : (sum64a d).toNat = fnv1a (nats d) := foldl_step1a_toNat d _

theorem writeString1Loop_eq (str : Bytes) (i : Nat) (h : U64) :
    writeString1Loop str i h = (str.drop i).foldl step1 h := by
  fun_induction writeString1Loop str i h with
  | case1 i h hi ih => rw [ih, List.drop_eq_getElem_cons hi]; rfl
  | case2 i h hi => rw [List.drop_eq_nil_of_le (by omega)]; rfl

theorem writeString1aLoop_eq (str : Bytes) (i : Nat) (h : U64) :
    writeString1aLoop str i h = (str.drop i).foldl step1a h := by
  fun_induction writeString1aLoop str i h with
  | case1 i h hi ih => rw [ih, List.drop_eq_getElem_cons hi]; rfl
  | case2 i h hi => rw [List.drop_eq_nil_of_le (by omega)]; rfl

/-- big-endian bytes as bit vectors -/
def beBytes (n : U64) : Bytes := sum n []

theorem beBytes_nats (n : U64) : nats (beBytes n) = be64 n.toNat := by
  have h : n.toNat < 2 ^ 64 := n.isLt
  simp only [beBytes, sum, nats, be64, List.nil_append, List.map_cons, List.map_nil,
    BitVec.toNat_setWidth, BitVec.toNat_ushiftRight, Nat.shiftRight_eq_div_pow]

theorem mask_ff (n : U64) : n &&& 0xff#64 = (n.setWidth 8).setWidth 64 := by
  ext i hi
  simp only [BitVec.getElem_and, BitVec.getElem_setWidth, BitVec.getLsbD_setWidth]
  have : (0xff#64)[i] = decide (i < 8) := by
    revert i; decide
  rw [this, ← BitVec.getLsbD_eq_getElem]
  cases decide (i < 8) <;> simp

theorem top_byte (n : U64) : n >>> 56 = ((n >>> 56).setWidth 8).setWidth 64 := by
  apply BitVec.eq_of_toNat_eq
  have h : n.toNat < 2 ^ 64 := n.isLt
  simp only [BitVec.toNat_setWidth, BitVec.toNat_ushiftRight, Nat.shiftRight_eq_div_pow]
  omega

theorem writeUint64_1_eq (s n : U64) : writeUint64_1 s n = (beBytes n).foldl step1 s := by
  simp only [writeUint64_1, beBytes, sum, List.nil_append, List.foldl_cons, List.foldl_nil, step1,
    mask_ff, ← top_byte]

theorem writeUint64_1a_eq (s n : U64) : writeUint64_1a s n = (beBytes n).foldl step1a s := by
  simp only [writeUint64_1a, beBytes, sum, List.nil_append, List.foldl_cons, List.foldl_nil, step1a,
    mask_ff, ← top_byte]

/-- multiplicative inverse of the FNV prime modulo 2^64 -/
def primeInv : U64 := 0xce965057aff6957b#64

theorem prime_inv : prime64 * primeInv = 1#64 := by decide

theorem mul_prime_inj {a b : U64} (h : a * prime64 = b * prime64) : a = b := by
  have := congrArg (· * primeInv) h
  simpa only [BitVec.mul_assoc, prime_inv, BitVec.mul_one] using this

theorem xor_left_inj {w : Nat} {a b c : BitVec w} (h : a ^^^ c = b ^^^ c) : a = b := by
  have := congrArg (· ^^^ c) h
  simpa only [BitVec.xor_assoc, BitVec.xor_self, BitVec.xor_zero] using this

theorem setWidth_byte_inj {a b : Byte} (h : a.setWidth 64 = b.setWidth 64) : a = b := by
  have := congrArg (BitVec.setWidth 8) h
  simpa using this

theorem step1_inj_state {a b : U64} {c : Byte} (h : step1 a c = step1 b c) : a = b :=
  mul_prime_inj (xor_left_inj h)

theorem step1_inj_byte {a : U64} {c d : Byte} (h : step1 a c = step1 a d) : c = d := by
  unfold step1 at h
  rw [BitVec.xor_comm, BitVec.xor_comm _ (d.setWidth 64)] at h
  exact setWidth_byte_inj (xor_left_inj h)

theorem step1a_inj_state {a b : U64} {c : Byte} (h : step1a a c = step1a b c) : a = b :=
  xor_left_inj (mul_prime_inj h)

theorem step1a_inj_byte {a : U64} {c d : Byte} (h : step1a a c = step1a a d) : c = d := by
  unfold step1a at h
  have h := mul_prime_inj h
  rw [BitVec.xor_comm, BitVec.xor_comm _ (d.setWidth 64)] at h
  exact setWidth_byte_inj (xor_left_inj h)

theorem foldl_step1_inj (d : Bytes) {a b : U64} (h : d.foldl step1 a = d.foldl step1 b) : a = b := by
  induction d generalizing a b with
  | nil => exact h
  | cons c d ih => exact step1_inj_state (ih h)

theorem foldl_step1a_inj (d : Bytes) {a b : U64} (h : d.foldl step1a a = d.foldl step1a b) :
    a = b := by
  induction d generalizing a b with
  | nil => exact h
  | cons c d ih => exact step1a_inj_state (ih h)

end Starbow.Fnv
