import Verif.Props.Readme
/-
Facts about the 1315 airports of README.md's example, by evaluation in the kernel (a closed, finite list of data).
-/
namespace Starbow.Props
open Starbow.Collation Starbow.Spec Starbow.Storage Starbow.Server Starbow.Bufmap

/-! ### the data -/

theorem baseBytes_mem (n x : Nat) : (baseBytes n x).length ≤ n ∧ ∀ b ∈ baseBytes n x, ∃ i, i < n ∧ b = BitVec.ofNat 8 (x / 256 ^ i % 256) := by
  induction n generalizing x with
  | zero => simp [baseBytes]
  | succ n ih =>
    rw [baseBytes]
    split
    · simp
    · obtain ⟨h1, h2⟩ := ih (x / 256)
      refine ⟨by rw [List.length_append, List.length_singleton]; omega, ?_⟩
      intro b hb
      rcases List.mem_append.1 hb with hb | hb
      · obtain ⟨i, hi, rfl⟩ := h2 b hb
        exact ⟨i + 1, by omega, by rw [Nat.div_div_eq_div_mul, Nat.pow_succ, Nat.mul_comm]⟩
      · exact ⟨0, by omega, by rw [List.mem_singleton.1 hb, Nat.pow_zero, Nat.div_one]⟩

theorem byte_plain {x : Nat} (hx : x % 256 ≠ 10 ∧ x % 256 ≠ 124) : BitVec.ofNat 8 (x % 256) ≠ (0x0a : Byte) ∧ BitVec.ofNat 8 (x % 256) ≠ (0x7c : Byte) := by
  have h : (BitVec.ofNat 8 (x % 256)).toNat = x % 256 := by rw [BitVec.toNat_ofNat]; omega
  constructor
  · intro e
    rw [e] at h
    exact hx.1 h.symm
  · intro e
    rw [e] at h
    exact hx.2 h.symm

theorem us_bytes : (usAirports.all fun a => Nat.blt a.tz 8 && [1, 256, 65536, 16777216].all fun q => !Nat.beq (a.iata / q % 256) 10 && !Nat.beq (a.iata / q % 256) 124) = true := by decide +kernel

theorem us_heights : (∀ a ∈ usAirports, -54 ≤ a.height ∧ a.height ≤ 9078) ∧ (usAirports.any fun a => a.height == -54) ∧ usAirports.any fun a => a.height == 9078 := by decide +kernel

theorem us_ok : ∀ a ∈ usAirports, a.Ok := by
  intro a ha
  have h := List.all_eq_true.1 us_bytes a ha
  rw [Bool.and_eq_true, List.all_eq_true] at h
  refine ⟨by have := us_heights.1 a ha; omega, Nat.le_of_ble_eq_true h.1, (baseBytes_mem 4 a.iata).1, ?_⟩
  intro b hb
  obtain ⟨i, hi, rfl⟩ := (baseBytes_mem 4 a.iata).2 b hb
  have hq : 256 ^ i ∈ [1, 256, 65536, 16777216] := by
    have : i = 0 ∨ i = 1 ∨ i = 2 ∨ i = 3 := by omega
    rcases this with rfl | rfl | rfl | rfl <;> decide
  have := h.2 _ hq
  rw [Bool.and_eq_true, Bool.not_eq_true', Bool.not_eq_true'] at this
  exact byte_plain ⟨Nat.ne_of_beq_eq_false this.1, Nat.ne_of_beq_eq_false this.2⟩

theorem us_length : usAirports.length = 1315 := by decide +kernel

/-- the registers of the counter of codes that are used -/
def usRegisters : List Nat := [38, 66, 100, 101, 329, 368, 369, 397, 431, 472, 501, 502, 604, 605, 624, 647, 654, 674, 675, 715, 745, 777, 778, 779, 791, 796, 824, 827, 863, 864, 865, 869, 889, 917, 950, 951, 1021]

theorem us_registers : (∀ a ∈ usAirports, hllIndex 10 (fnv1 (nats a.code)) ∈ usRegisters) ∧
    (∀ i ∈ usRegisters, usAirports.any fun a => hllIndex 10 (fnv1 (nats a.code)) == i) := by decide +kernel

/-- marks the remainders modulo `m` in a set of bits; false if one is marked already -/
def freshBits (m : Nat) : List Nat → Nat → Bool
  | [], _ => true
  | x :: xs, acc => !acc.testBit (x % m) && freshBits m xs (acc ||| 2 ^ (x % m))

theorem freshBits_nodup (m : Nat) (xs : List Nat) (acc : Nat) (h : freshBits m xs acc = true) : xs.Nodup ∧ ∀ x ∈ xs, acc.testBit (x % m) = false := by
  induction xs generalizing acc with
  | nil => simp
  | cons x xs ih =>
    rw [freshBits, Bool.and_eq_true, Bool.not_eq_true'] at h
    obtain ⟨h1, h2⟩ := ih _ h.2
    have h3 : ∀ y ∈ xs, acc.testBit (y % m) = false ∧ x % m ≠ y % m := by
      intro y hy
      have := h2 y hy
      rw [Nat.testBit_or, Bool.or_eq_false_iff, Nat.testBit_two_pow] at this
      exact ⟨this.1, of_decide_eq_false this.2⟩
    refine ⟨List.nodup_cons.2 ⟨fun hm => (h3 x hm).2 rfl, h1⟩, ?_⟩
    intro y hy
    rcases List.mem_cons.1 hy with rfl | hy
    · exact h.1
    · exact (h3 y hy).1

theorem us_codes : (usAirports.map Airport.code).Nodup := by
  have h : freshBits 60005 ((usAirports.map Airport.code).map fun c => c.foldl (fun n b => 256 * n + b.toNat) 0) 0 = true := by decide +kernel
  exact List.Nodup.of_map _ (freshBits_nodup _ _ _ h).1

end Starbow.Props
