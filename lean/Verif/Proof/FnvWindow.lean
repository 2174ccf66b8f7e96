import Verif.Proof.Fnv
import Mathlib.Tactic.Linarith
import Mathlib.Tactic.NormNum
import Mathlib.Tactic.Ring
/-
Inputs differing only within four consecutive bytes have different FNV hashes: the low 40 bits of the prime are small.
-/
namespace Starbow.Fnv

theorem window_core (d e f g q : Int) (hd : -255 ≤ d ∧ d ≤ 255) (he : -510 ≤ e ∧ e ≤ 510) (hf : -510 ≤ f ∧ f ≤ 510)
    (hg : -255 ≤ g ∧ g ≤ 255)
    (h : (((d * 1099511628211 + e) * 1099511628211) + f) * 1099511628211 + g = 18446744073709551616 * q) :
    d = 0 ∧ e = 0 ∧ f = 0 ∧ g = 0 := by
  have h1 : ∃ j, 82312875 * d + 189225 * e + 435 * f + g = 1099511627776 * j := by
    exact ⟨16777216 * q - (d * (1099511627776 * 1099511627776 + 3*435*1099511627776 + 3 * 189225) + e * (1099511627776 + 870) + f), by linarith⟩
  obtain ⟨j, hj⟩ := h1
  have hj0 : j = 0 := by clear h; omega
  subst hj0
  have hg0 : g = 0 := by clear h; omega
  have h2 : 189225 * d + 435 * e + f = 0 := by clear h; omega
  have hd1 : d = -1 ∨ d = 0 ∨ d = 1 := by clear h hj; omega
  have hk : 435 * d + e = -1 ∨ 435 * d + e = 0 ∨ 435 * d + e = 1 := by clear h hj; omega
  have hf' : f = - (435 * (435 * d + e)) := by clear h hj; omega
  have he' : e = (435 * d + e) - 435 * d := by clear h hj; omega
  generalize 435 * d + e = k at hk hf' he'
  clear hj hd he hf hg h2
  subst he' hf' hg0
  rcases hd1 with rfl | rfl | rfl <;> rcases hk with rfl | rfl | rfl <;> norm_num at h ⊢ <;> omega

/-- a state as an integer -/
def z (a : U64) : Int := (a.toNat : Int)

theorem z_xor (a : U64) (c : Byte) : ∃ t : Int, 0 ≤ t ∧ t ≤ 255 ∧ z (a ^^^ c.setWidth 64) = z a - z a % 256 + t := by
  have h : (a ^^^ c.setWidth 64).toNat = a.toNat / 256 * 256 + (a.toNat % 256 ^^^ c.toNat) := by
    rw [BitVec.toNat_xor, BitVec.toNat_setWidth, Nat.mod_eq_of_lt (by have := c.isLt; omega)]
    have e1 : (a.toNat ^^^ c.toNat) / 2 ^ 8 = a.toNat / 2 ^ 8 := by
      rw [Nat.xor_div_two_pow, Nat.div_eq_of_lt c.isLt, Nat.xor_zero]
    have e2 : (a.toNat ^^^ c.toNat) % 2 ^ 8 = a.toNat % 2 ^ 8 ^^^ c.toNat := by
      rw [Nat.xor_mod_two_pow, Nat.mod_eq_of_lt c.isLt]
    have := Nat.div_add_mod (a.toNat ^^^ c.toNat) (2 ^ 8)
    rw [e1, e2] at this
    simp only [show (2:Nat) ^ 8 = 256 from rfl] at this
    omega
  have hlt : (a.toNat % 256 ^^^ c.toNat) < 2 ^ 8 := Nat.xor_lt_two_pow (by omega) c.isLt
  refine ⟨((a.toNat % 256 ^^^ c.toNat : Nat) : Int), by omega, by omega, ?_⟩
  unfold z
  rw [h]
  omega

theorem z_mul (a : U64) : ∃ q : Int, z (a * prime64) = z a * 1099511628211 - 18446744073709551616 * q := by
  refine ⟨((a.toNat * prime64.toNat / 2 ^ 64 : Nat) : Int), ?_⟩
  unfold z
  have hp : prime64.toNat = 1099511628211 := by decide
  rw [BitVec.toNat_mul, hp]
  have := Nat.div_add_mod (a.toNat * 1099511628211) (2 ^ 64)
  push_cast
  omega

/-- one step of FNV-1 of two runs: the difference of the states -/
theorem step_diff (a b : U64) (c d : Byte) : ∃ e q : Int, -510 ≤ e ∧ e ≤ 510 ∧ (a = b → -255 ≤ e ∧ e ≤ 255) ∧
    z (step1 a c) - z (step1 b d) = (z a - z b) * 1099511628211 + e + 18446744073709551616 * q := by
  obtain ⟨q, hq⟩ := z_mul a
  obtain ⟨q', hq'⟩ := z_mul b
  obtain ⟨t, t0, t1, ht⟩ := z_xor (a * prime64) c
  obtain ⟨t', t0', t1', ht'⟩ := z_xor (b * prime64) d
  refine ⟨t - t' - (z (a * prime64) % 256 - z (b * prime64) % 256), q' - q, by omega, by omega, ?_, ?_⟩
  · rintro rfl; omega
  · unfold step1
    rw [ht, ht', hq, hq']
    ring

theorem step_diff_last (a b : U64) (c d : Byte) (h : step1 a c = step1 b d) : ∃ e q : Int, -255 ≤ e ∧ e ≤ 255 ∧
    0 = (z a - z b) * 1099511628211 + e + 18446744073709551616 * q := by
  obtain ⟨q, hq⟩ := z_mul a
  obtain ⟨q', hq'⟩ := z_mul b
  obtain ⟨t, t0, t1, ht⟩ := z_xor (a * prime64) c
  obtain ⟨t', t0', t1', ht'⟩ := z_xor (b * prime64) d
  have hz : z (step1 a c) = z (step1 b d) := by rw [h]
  unfold step1 at hz
  rw [ht, ht'] at hz
  refine ⟨- (z (a * prime64) % 256 - z (b * prime64) % 256), q' - q, by omega, by omega, ?_⟩
  have h1 : z (a * prime64) - z (a * prime64) % 256 = z (b * prime64) - z (b * prime64) % 256 := by omega
  rw [hq, hq'] at h1 ⊢
  linarith

theorem z_inj {a b : U64} (h : z a = z b) : a = b := by
  unfold z at h; exact BitVec.eq_of_toNat_eq (by omega)

theorem z_near {a b : U64} {q : Int} (h : z a - z b = 18446744073709551616 * q) : a = b := by
  apply z_inj
  have h1 : 0 ≤ z a ∧ z a < 18446744073709551616 := by unfold z; have := a.isLt; omega
  have h2 : 0 ≤ z b ∧ z b < 18446744073709551616 := by unfold z; have := b.isLt; omega
  omega

/-- FNV-1: four bytes from the same state -/
theorem window1 (s : U64) (a b c d a' b' c' d' : Byte)
    (h : step1 (step1 (step1 (step1 s a) b) c) d = step1 (step1 (step1 (step1 s a') b') c') d') :
    [a, b, c, d] = [a', b', c', d'] := by
  obtain ⟨e1, q1, -, -, h1, k1⟩ := step_diff s s a a'
  obtain ⟨e2, q2, l2, u2, -, k2⟩ := step_diff (step1 s a) (step1 s a') b b'
  obtain ⟨e3, q3, l3, u3, -, k3⟩ := step_diff (step1 (step1 s a) b) (step1 (step1 s a') b') c c'
  obtain ⟨e4, q4, l4, u4, k4⟩ := step_diff_last _ _ _ _ h
  have h1 := h1 rfl
  rw [Int.sub_self, Int.zero_mul, Int.zero_add] at k1
  rw [k1] at k2
  rw [k2] at k3
  rw [k3] at k4
  obtain ⟨rfl, rfl, rfl, rfl⟩ := window_core e1 e2 e3 e4
    (-(q1 * 1099511628211 * 1099511628211 * 1099511628211 + q2 * 1099511628211 * 1099511628211 + q3 * 1099511628211 + q4))
    h1 ⟨l2, u2⟩ ⟨l3, u3⟩ ⟨l4, u4⟩ (by linarith)
  have e1 := z_near (q := q1) (k1.trans (by ring))
  have e2 := z_near (q := q1 * 1099511628211 + q2) (k2.trans (by ring))
  have e3 := z_near (q := q1 * 1099511628211 * 1099511628211 + q2 * 1099511628211 + q3) (k3.trans (by ring))
  obtain rfl := step1_inj_byte e1
  obtain rfl := step1_inj_byte e2
  obtain rfl := step1_inj_byte e3
  obtain rfl := step1_inj_byte h
  rfl

theorem step1a_step1 (s : U64) (c : Byte) : step1a (s * prime64) c = step1 s c * prime64 := rfl

/-- FNV-1a: four bytes from the same state -/
theorem window1a (s : U64) (a b c d a' b' c' d' : Byte)
    (h : step1a (step1a (step1a (step1a s a) b) c) d = step1a (step1a (step1a (step1a s a') b') c') d') :
    [a, b, c, d] = [a', b', c', d'] := by
  have hs : s = s * primeInv * prime64 := by
    rw [BitVec.mul_assoc, BitVec.mul_comm primeInv, prime_inv, BitVec.mul_one]
  rw [hs] at h
  simp only [step1a_step1] at h
  exact window1 _ _ _ _ _ _ _ _ _ (mul_prime_inj h)

/-- up to four bytes from the same state -/
theorem window (f : U64 → Byte → U64)
    (h4 : ∀ (s : U64) (a b c d a' b' c' d' : Byte), f (f (f (f s a) b) c) d = f (f (f (f s a') b') c') d' →
      [a, b, c, d] = [a', b', c', d'])
    (u v : Bytes) (hl : u.length = v.length) (hu : u.length ≤ 4) (s : U64) (h : u.foldl f s = v.foldl f s) : u = v := by
  -- pad on the right with equal bytes
  obtain ⟨w, hw⟩ : ∃ w : Bytes, u.length + w.length = 4 := ⟨List.replicate (4 - u.length) 0#8, by simp; omega⟩
  have hu4 : (u ++ w).length = 4 := by simp; omega
  have hv4 : (v ++ w).length = 4 := by simp; omega
  have e : (u ++ w).foldl f s = (v ++ w).foldl f s := by rw [List.foldl_append, List.foldl_append, h]
  obtain ⟨a, b, c, d, e1⟩ : ∃ a b c d, u ++ w = [a, b, c, d] := by
    match u ++ w, hu4 with
    | [a, b, c, d], _ => exact ⟨a, b, c, d, rfl⟩
  obtain ⟨a', b', c', d', e2⟩ : ∃ a b c d, v ++ w = [a, b, c, d] := by
    match v ++ w, hv4 with
    | [a, b, c, d], _ => exact ⟨a, b, c, d, rfl⟩
  have : u ++ w = v ++ w := by
    rw [e1, e2] at e
    rw [e1, e2]
    exact h4 s a b c d a' b' c' d' e
  exact List.append_cancel_right this

end Starbow.Fnv
