import Verif.Proof.FnvWindow
/-
Property theorems C01, C02 (hashing part).
-/
namespace Starbow.Props
open Starbow.Spec Starbow.Fnv

/-- The bytes a sequence of calls has fed into the hasher since it was created or last reset. -/
def fed (calls : List Call) : List Nat :=
  calls.foldl (fun acc c => match c with
    | .write d => acc ++ nats d
    | .writeByte b => acc ++ [b.toNat]
    | .writeString s => acc ++ nats s
    | .writeUint64 n => acc ++ be64 n.toNat
    | .reset => []) []

theorem c01_aux1 (calls : List Call) (pre : Bytes) :
    ∃ suf : Bytes, (calls.foldl call1 (sum64 pre)) = sum64 suf ∧
      nats suf = calls.foldl (fun acc c => match c with
        | .write d => acc ++ nats d
        | .writeByte b => acc ++ [b.toNat]
        | .writeString s => acc ++ nats s
        | .writeUint64 n => acc ++ be64 n.toNat
        | .reset => []) (nats pre) := by
  induction calls generalizing pre with
  | nil => exact ⟨pre, rfl, rfl⟩
  | cons c calls ih =>
    have key : ∃ p : Bytes, call1 (sum64 pre) c = sum64 p ∧ nats p = (match c with
        | .write d => nats pre ++ nats d
        | .writeByte b => nats pre ++ [b.toNat]
        | .writeString s => nats pre ++ nats s
        | .writeUint64 n => nats pre ++ be64 n.toNat
        | .reset => []) := by
      cases c with
      | write d => exact ⟨pre ++ d, by simp [call1, write1, sum64], by simp [nats]⟩
      | writeByte b => exact ⟨pre ++ [b], by simp [call1, writeByte1, sum64], by simp [nats]⟩
      | writeString d =>
        exact ⟨pre ++ d, by simp [call1, writeString1, writeString1Loop_eq, sum64], by simp [nats]⟩
      | writeUint64 n =>
        refine ⟨pre ++ beBytes n, by simp [call1, writeUint64_1_eq, sum64], ?_⟩
        simp only [← beBytes_nats, nats, List.map_append]
      | reset => exact ⟨[], rfl, rfl⟩
    obtain ⟨p, h1, h2⟩ := key
    obtain ⟨s, h3, h4⟩ := ih p
    refine ⟨s, by rw [List.foldl_cons, h1, h3], ?_⟩
    rw [h4, List.foldl_cons, h2]

theorem c01_aux1a (calls : List Call) (pre : Bytes) :
    ∃ suf : Bytes, (calls.foldl call1a (sum64a pre)) = sum64a suf ∧
      nats suf = calls.foldl (fun acc c => match c with
        | .write d => acc ++ nats d
        | .writeByte b => acc ++ [b.toNat]
        | .writeString s => acc ++ nats s
        | .writeUint64 n => acc ++ be64 n.toNat
        | .reset => []) (nats pre) := by
  induction calls generalizing pre with
  | nil => exact ⟨pre, rfl, rfl⟩
  | cons c calls ih =>
    have key : ∃ p : Bytes, call1a (sum64a pre) c = sum64a p ∧ nats p = (match c with
        | .write d => nats pre ++ nats d
        | .writeByte b => nats pre ++ [b.toNat]
        | .writeString s => nats pre ++ nats s
        | .writeUint64 n => nats pre ++ be64 n.toNat
        | .reset => []) := by
      cases c with
      | write d => exact ⟨pre ++ d, by simp [call1a, write1a, sum64a], by simp [nats]⟩
      | writeByte b => exact ⟨pre ++ [b], by simp [call1a, writeByte1a, sum64a], by simp [nats]⟩
      | writeString d =>
        exact ⟨pre ++ d, by simp [call1a, writeString1a, writeString1aLoop_eq, sum64a],
          by simp [nats]⟩
      | writeUint64 n =>
        refine ⟨pre ++ beBytes n, by simp [call1a, writeUint64_1a_eq, sum64a], ?_⟩
        simp only [← beBytes_nats, nats, List.map_append]
      | reset => exact ⟨[], rfl, rfl⟩
    obtain ⟨p, h1, h2⟩ := key
    obtain ⟨s, h3, h4⟩ := ih p
    refine ⟨s, by rw [List.foldl_cons, h1, h3], ?_⟩
    rw [h4, List.foldl_cons, h2]

/-- C01 (one-shot functions): they are the FNV-1 / FNV-1a hash of the bytes. -/
theorem C01_oneshot (d : Bytes) :
    (sum64 d).toNat = fnv1 (nats d) ∧ (string64 d).toNat = fnv1 (nats d) ∧
    (sum64a d).toNat = fnv1a (nats d) ∧ (string64a d).toNat = fnv1a (nats d) := by
  refine ⟨sum64_toNat d, ?_, sum64a_toNat d, ?_⟩
  · rw [string64, writeString1Loop_eq]; exact sum64_toNat d
  · rw [string64a, writeString1aLoop_eq]; exact sum64a_toNat d

/-- C01 (streaming): any sequence of method calls on a fresh hasher gives the hash of the bytes fed
since the last reset. -/
theorem C01_streaming (calls : List Call) :
    (sum64Of (calls.foldl call1 new64)).toNat = fnv1 (fed calls) ∧
    (sum64aOf (calls.foldl call1a new64a)).toNat = fnv1a (fed calls) := by
  constructor
  · obtain ⟨s, h1, h2⟩ := c01_aux1 calls []
    have e : new64 = sum64 [] := rfl
    rw [sum64Of, e, h1, sum64_toNat, h2]; rfl
  · obtain ⟨s, h1, h2⟩ := c01_aux1a calls []
    have e : new64a = sum64a [] := rfl
    rw [sum64aOf, e, h1, sum64a_toNat, h2]; rfl

/-- C01 (Write / WriteString report the number of bytes taken). -/
theorem C01_counts (s : U64) (d : Bytes) :
    (write1 s d).2 = d.length ∧ (writeString1 s d).2 = d.length ∧
    (write1a s d).2 = d.length ∧ (writeString1a s d).2 = d.length := ⟨rfl, rfl, rfl, rfl⟩

/-- C01 (`Sum`): appends the 8 big-endian bytes of the current hash, keeping the given prefix. -/
theorem C01_sum (n : U64) (buf : Bytes) :
    nats (sum n buf) = nats buf ++ be64 n.toNat ∧ (sum n buf).length = buf.length + size := by
  constructor
  · have := beBytes_nats n
    simp only [beBytes, sum, List.nil_append] at this
    rw [← this]; simp [sum, nats]
  · simp [sum, size]

/-- C02: replacing one byte of the input always changes the FNV-1 hash and the FNV-1a hash. -/
theorem C02_one_byte (pre suf : Bytes) (c d : Byte) (h : c ≠ d) :
    sum64 (pre ++ c :: suf) ≠ sum64 (pre ++ d :: suf) ∧
    sum64a (pre ++ c :: suf) ≠ sum64a (pre ++ d :: suf) := by
  constructor
  · intro e
    simp only [sum64, List.foldl_append, List.foldl_cons] at e
    exact h (step1_inj_byte (foldl_step1_inj suf e))
  · intro e
    simp only [sum64a, List.foldl_append, List.foldl_cons] at e
    exact h (step1a_inj_byte (foldl_step1a_inj suf e))

/-- C02, windows: inputs of the same length that differ only within four consecutive bytes never have the same FNV-1 hash, nor
the same FNV-1a hash. In particular different inputs of the same length of at most four bytes never collide. -/
theorem C02_four_bytes (pre suf u v : Bytes) (hl : u.length = v.length) (h4 : u.length ≤ 4) (h : u ≠ v) :
    sum64 (pre ++ u ++ suf) ≠ sum64 (pre ++ v ++ suf) ∧ sum64a (pre ++ u ++ suf) ≠ sum64a (pre ++ v ++ suf) := by
  constructor
  · intro e
    simp only [sum64, List.foldl_append] at e
    exact h (window step1 window1 u v hl h4 _ (foldl_step1_inj suf e))
  · intro e
    simp only [sum64a, List.foldl_append] at e
    exact h (window step1a window1a u v hl h4 _ (foldl_step1a_inj suf e))

example : sum64 (asc "EGLL") ≠ sum64 (asc "KJFK") := (C02_four_bytes [] [] (asc "EGLL") (asc "KJFK") (by decide) (by decide) (by decide)).1

-- concrete checks that the statements are not vacuous
example : fed [.write (asc "ab"), .reset, .writeByte 0x61#8, .writeUint64 0x0102030405060708#64]
    = [0x61, 1, 2, 3, 4, 5, 6, 7, 8] := by decide
-- published FNV test vectors: FNV-1("foobar"), FNV-1a("foobar")
example : sum64 (asc "foobar") = 0x340d8765a4dda9c2#64 := by decide
example : sum64a (asc "foobar") = 0x85944171f73967e8#64 := by decide
example : sum64 (asc "KABR") ≠ sum64 (asc "KABS") :=
  (C02_one_byte (asc "KAB") [] 0x52#8 0x53#8 (by decide)).1

end Starbow.Props
