import Verif.Proof.TestUtil
import Verif.Props.Stat64
import Mathlib.Data.List.Perm.Basic
import Mathlib.Data.List.Perm.Subperm
/-
Property theorems C51 and C52: shuffling, random bytes and comparing doubles (internal/testutil).
-/
namespace Starbow.Props
open Starbow.Spec Starbow.TestUtil

variable {σ : Type}

/-- The contract of the `Rand` interface (rand.go:4-5): "Intn returns a number in [0,n)". -/
def Obeys (r : Rand σ) : Prop := ∀ s n, 0 < n → (r.intn s n).1 < n

/-! ### C51: shuffling -/

/-- one round: the entry drawn goes to the end, the entry at the end takes its place -/
def round (init : List Bytes) (z : Bytes) (j : Nat) : List Bytes := if j < init.length then init.set j z else init
def drawn (init : List Bytes) (z : Bytes) (j : Nat) : Bytes := (init[j]?).getD z

theorem round_length (init : List Bytes) (z : Bytes) (j : Nat) : (round init z j).length = init.length := by
  unfold round; split <;> simp

theorem round_perm (init : List Bytes) (z : Bytes) (j : Nat) :
    (round init z j ++ [drawn init z j]).Perm (init ++ [z]) := by
  unfold round drawn
  split
  · rename_i h
    rw [List.getElem?_eq_getElem h, Option.getD_some]
    have h1 := List.set_perm_cons_eraseIdx h z
    have h2 : (init[j] :: init.eraseIdx j).Perm init := List.getElem_cons_eraseIdx_perm h
    refine (h1.append_right _).trans ?_
    refine (List.perm_append_comm).trans ?_
    show (init[j] :: z :: init.eraseIdx j).Perm _
    refine (List.Perm.swap _ _ _).trans ?_
    refine (h2.cons z).trans ?_
    exact (List.perm_append_comm (l₁ := init) (l₂ := [z])).symm
  · rename_i h
    rw [List.getElem?_eq_none (by omega), Option.getD_none]

theorem exchange_eq (init : List Bytes) (z : Bytes) (suf : List Bytes) (j : Nat) (hj : j < init.length + 1) :
    exchange (init ++ z :: suf) init.length j = .val (round init z j ++ drawn init z j :: suf) := by
  have e1 : (init ++ z :: suf)[init.length]? = some z := by
    rw [List.getElem?_append_right (le_refl _), Nat.sub_self]; rfl
  unfold exchange round drawn
  rw [e1]
  by_cases h : j < init.length
  · have e2 : (init ++ z :: suf)[j]? = some init[j] := by
      rw [List.getElem?_append_left h, List.getElem?_eq_getElem h]
    rw [e2, if_pos h, List.getElem?_eq_getElem h, Option.getD_some]
    show Out.val _ = _
    congr 1
    rw [List.set_append_right _ _ (le_refl _), Nat.sub_self, List.set_cons_zero, List.set_append_left _ _ h]
  · have hj' : j = init.length := by omega
    subst hj'
    rw [e1, if_neg h, List.getElem?_eq_none (le_refl _), Option.getD_none]
    show Out.val _ = _
    congr 1
    rw [List.set_append_right _ _ (le_refl _), Nat.sub_self, List.set_cons_zero, List.set_append_right _ _ (le_refl _),
      Nat.sub_self, List.set_cons_zero]

theorem loop_succ (r : Rand σ) (hr : Obeys r) (init : List Bytes) (z : Bytes) (suf : List Bytes) (s : σ) :
    shuffleLoop r (init.length + 1) (init ++ z :: suf) s =
      shuffleLoop r init.length (round init z (r.intn s (init.length + 1)).1
        ++ drawn init z (r.intn s (init.length + 1)).1 :: suf) (r.intn s (init.length + 1)).2 := by
  rw [shuffleLoop, intn, if_neg (by omega), Out.bind_val]
  show (exchange _ _ _ >>= fun buf => _) = _
  rw [exchange_eq _ _ _ _ (hr s _ (by omega)), Out.bind_val]

theorem loop_perm (r : Rand σ) (hr : Obeys r) : ∀ (n : Nat) (l suf : List Bytes) (s : σ), l.length = n →
    ∃ p s', shuffleLoop r n (l ++ suf) s = .val (p ++ suf, s') ∧ p.Perm l := by
  intro n
  induction n with
  | zero =>
    intro l suf s h
    exact ⟨l, s, rfl, List.Perm.refl _⟩
  | succ n ih =>
    intro l suf s h
    obtain ⟨init, z, rfl⟩ : ∃ init z, l = init ++ [z] := by
      refine ⟨l.dropLast, l.getLast (by intro h0; subst h0; simp at h), (List.dropLast_append_getLast _).symm⟩
    have hn : init.length = n := by simpa using h
    subst hn
    have e : init ++ [z] ++ suf = init ++ z :: suf := by rw [List.append_assoc]; rfl
    rw [e, loop_succ r hr]
    generalize (r.intn s (init.length + 1)).1 = j
    obtain ⟨p, s', h1, h2⟩ := ih (round init z j) (drawn init z j :: suf) (r.intn s (init.length + 1)).2 (round_length _ _ _)
    refine ⟨p ++ [drawn init z j], s', ?_, ?_⟩
    · rw [h1, List.append_assoc]; rfl
    · exact (h2.append_right _).trans (round_perm init z j)

/-- **C51**, `Shuffle` permutes: with any source of randomness that obeys its contract `Shuffle` never panics, and leaves in the slice
the entries that were in it, each as often as before. -/
theorem C51_shuffle (r : Rand σ) (hr : Obeys r) (buf : List Bytes) (s : σ) :
    ∃ p s', shuffle r buf s = .val (p, s') ∧ p.Perm buf := by
  obtain ⟨p, s', h1, h2⟩ := loop_perm r hr buf.length buf [] s rfl
  rw [List.append_nil, List.append_nil] at h1
  exact ⟨p, s', h1, h2⟩

/-- a source of randomness that hands out prescribed numbers (reduced to the range asked for) -/
def scripted : Rand (List Nat) := ⟨fun ds n => (ds.headD 0 % n, ds.tail)⟩

theorem scripted_obeys : Obeys scripted := fun _ _ h => Nat.mod_lt _ h

/-- The draws `Shuffle` makes for `n` entries: a number below `n`, then one below `n-1`, and so on, last one below 1. There are `n!` of
them, and a fair source produces each with the same probability. -/
def Draws : Nat → List Nat → Prop
  | 0, ds => ds = []
  | _ + 1, [] => False
  | n + 1, d :: ds => d < n + 1 ∧ Draws n ds

theorem scripted_intn (d : Nat) (ds : List Nat) (n : Nat) (h : d < n) : scripted.intn (d :: ds) n = (d, ds) := by
  show (d % n, ds) = _
  rw [Nat.mod_eq_of_lt h]

theorem drawn_inj {init : List Bytes} {z : Bytes} (hn : (init ++ [z]).Nodup) {i j : Nat} (hi : i < init.length + 1)
    (hj : j < init.length + 1) (h : drawn init z i = drawn init z j) : i = j := by
  have key : ∀ k, k < init.length + 1 → (init ++ [z])[k]? = some (drawn init z k) := by
    intro k hk
    unfold drawn
    by_cases h : k < init.length
    · rw [List.getElem?_append_left h, List.getElem?_eq_getElem h, Option.getD_some]
    · rw [List.getElem?_append_right (by omega), List.getElem?_eq_none (l := init) (by omega), Option.getD_none,
        show k - init.length = 0 by omega]; rfl
  refine (List.getElem?_inj (by simpa using hi) hn).1 ?_
  rw [key i hi, key j hj, h]

theorem drawn_surj {init : List Bytes} {z x : Bytes} (h : x ∈ init ++ [z]) : ∃ j, j < init.length + 1 ∧ drawn init z j = x := by
  rcases List.mem_append.1 h with h | h
  · obtain ⟨j, hj, e⟩ := List.getElem_of_mem h
    exact ⟨j, by omega, by unfold drawn; rw [List.getElem?_eq_getElem hj, Option.getD_some, e]⟩
  · rw [List.mem_singleton] at h
    exact ⟨init.length, by omega, by unfold drawn; rw [List.getElem?_eq_none (le_refl _), Option.getD_none, h]⟩

theorem loop_script : ∀ (n : Nat) (l : List Bytes), l.length = n → ∀ p : List Bytes, p.Perm l →
    ∃ ds, Draws n ds ∧ ∀ suf, shuffleLoop scripted n (l ++ suf) ds = .val (p ++ suf, []) := by
  intro n
  induction n with
  | zero =>
    intro l h p hp
    have h0 := List.length_eq_zero_iff.1 h
    subst h0
    rw [List.perm_nil.1 hp]
    exact ⟨[], rfl, fun _ => rfl⟩
  | succ n ih =>
    intro l h p hp
    obtain ⟨init, z, rfl⟩ : ∃ init z, l = init ++ [z] := by
      refine ⟨l.dropLast, l.getLast (by intro h0; subst h0; simp at h), (List.dropLast_append_getLast _).symm⟩
    have hn : init.length = n := by simpa using h
    subst hn
    obtain ⟨q, x, rfl⟩ : ∃ q x, p = q ++ [x] := by
      have hl := hp.length_eq
      refine ⟨p.dropLast, p.getLast (by intro h0; subst h0; simp at hl), (List.dropLast_append_getLast _).symm⟩
    obtain ⟨j, hj, rfl⟩ := drawn_surj (hp.subset (List.mem_append_right _ (List.mem_singleton_self _)))
    have hq : q.Perm (round init z j) := (List.perm_append_right_iff _).1 (hp.trans (round_perm init z j).symm)
    obtain ⟨ds, h1, h2⟩ := ih (round init z j) (round_length _ _ _) q hq
    refine ⟨j :: ds, ⟨hj, h1⟩, ?_⟩
    intro suf
    have e : init ++ [z] ++ suf = init ++ z :: suf := by rw [List.append_assoc]; rfl
    rw [e, loop_succ _ scripted_obeys, scripted_intn j ds _ hj]
    dsimp only
    rw [h2, List.append_assoc]; rfl

theorem loop_unique : ∀ (n : Nat) (l : List Bytes), l.length = n → l.Nodup → ∀ (p suf : List Bytes) (ds ds' rs rs' : List Nat),
    Draws n ds → Draws n ds' → shuffleLoop scripted n (l ++ suf) ds = .val (p, rs) →
    shuffleLoop scripted n (l ++ suf) ds' = .val (p, rs') → ds = ds' := by
  intro n
  induction n with
  | zero => intro l _ _ p suf ds ds' rs rs' h1 h2 _ _; rw [h1, h2]
  | succ n ih =>
    intro l h hnd p suf ds ds' rs rs' h1 h2 h3 h4
    obtain ⟨init, z, rfl⟩ : ∃ init z, l = init ++ [z] := by
      refine ⟨l.dropLast, l.getLast (by intro h0; subst h0; simp at h), (List.dropLast_append_getLast _).symm⟩
    have hn : init.length = n := by simpa using h
    subst hn
    match ds, ds', h1, h2 with
    | d :: ds, d' :: ds', ⟨h1, h1'⟩, ⟨h2, h2'⟩ =>
      have e : init ++ [z] ++ suf = init ++ z :: suf := by rw [List.append_assoc]; rfl
      rw [e, loop_succ _ scripted_obeys, scripted_intn _ _ _ h1] at h3
      rw [e, loop_succ _ scripted_obeys, scripted_intn _ _ _ h2] at h4
      dsimp only at h3 h4
      obtain ⟨q, t, g1, g1'⟩ := loop_perm scripted scripted_obeys _ (round init z d) (drawn init z d :: suf) ds
        (round_length _ _ _)
      obtain ⟨q', t', g2, g2'⟩ := loop_perm scripted scripted_obeys _ (round init z d') (drawn init z d' :: suf) ds'
        (round_length _ _ _)
      have e1 : q ++ drawn init z d :: suf = p := by rw [h3] at g1; cases g1; rfl
      have e2 : q' ++ drawn init z d' :: suf = p := by rw [h4] at g2; cases g2; rfl
      have hl : q.length = q'.length := by
        rw [g1'.length_eq, g2'.length_eq, round_length, round_length]
      have hx := (List.append_inj (e1.trans e2.symm) hl).2
      have hd := drawn_inj hnd h1 h2 (List.cons.inj hx).1
      subst hd
      have hnd' : (round init z d).Nodup :=
        ((round_perm init z d).nodup_iff.2 hnd).sublist (List.sublist_append_left _ _)
      rw [ih (round init z d) (round_length _ _ _) hnd' p (drawn init z d :: suf) ds ds' rs rs' h1' h2' h3 h4]

/-- **C51**, `Shuffle` is unbiased and reaches every order: if the entries are distinct, then for every rearrangement of them there is
exactly one sequence of draws (one number below n, one below n-1, ...) that makes `Shuffle` produce it. -/
theorem C51_unbiased (buf : List Bytes) (hd : buf.Nodup) (p : List Bytes) (hp : p.Perm buf) :
    ∃! ds, Draws buf.length ds ∧ shuffle scripted buf ds = .val (p, []) := by
  obtain ⟨ds, h1, h2⟩ := loop_script _ buf rfl p hp
  have h2 := h2 []
  rw [List.append_nil, List.append_nil] at h2
  refine ⟨ds, ⟨h1, h2⟩, ?_⟩
  rintro ds' ⟨g1, g2⟩
  exact loop_unique _ buf rfl hd p [] ds' ds [] [] g1 h1 (by rw [List.append_nil]; exact g2) (by rw [List.append_nil]; exact h2)

/-- Repeated entries or not, every rearrangement can come out. -/
theorem C51_reaches (buf p : List Bytes) (hp : p.Perm buf) :
    ∃ ds, Draws buf.length ds ∧ shuffle scripted buf ds = .val (p, []) := by
  obtain ⟨ds, h1, h2⟩ := loop_script _ buf rfl p hp
  have h2 := h2 []
  rw [List.append_nil, List.append_nil] at h2
  exact ⟨ds, h1, h2⟩

example : shuffle scripted [[1#8], [2#8], [3#8]] [0, 0, 0] = .val ([[2#8], [3#8], [1#8]], []) := by decide
example : Draws 3 [0, 0, 0] := ⟨by decide, by decide, by decide, rfl⟩

/-! ### C51: drawing with repetition -/

theorem draw_spec (r : Rand σ) (hr : Obeys r) (src : List Bytes) (hs : src ≠ []) : ∀ (k : Nat) (s : σ),
    ∃ l s', draw r src k s = .val (l, s') ∧ l.length = k ∧ ∀ x ∈ l, x ∈ src := by
  intro k
  induction k with
  | zero => intro s; exact ⟨[], s, rfl, rfl, by simp⟩
  | succ k ih =>
    intro s
    have hl := List.length_pos_of_ne_nil hs
    have hj := hr s _ hl
    obtain ⟨l, s', h1, h2, h3⟩ := ih (r.intn s src.length).2
    refine ⟨src[(r.intn s src.length).1] :: l, s', ?_, by rw [List.length_cons, h2], ?_⟩
    · rw [draw, intn, if_neg (by omega), Out.bind_val]
      dsimp only
      rw [List.getElem?_eq_getElem hj]
      dsimp only
      rw [h1]; rfl
    · intro x hx
      rcases List.mem_cons.1 hx with hx | hx
      · subst hx; exact List.getElem_mem hj
      · exact h3 x hx

/-- **C51**, `ShuffleRepeated(n, src)` for `n` at least the number of entries: it returns `n` entries, all of them from `src`, and
every entry of `src` at least as often as `src` has it. -/
theorem C51_repeated (r : Rand σ) (hr : Obeys r) (n : Nat) (src : List Bytes) (hs : src ≠ [] ∨ n = 0) (hn : src.length ≤ n) (s : σ) :
    ∃ p s', shuffleRepeated r n src s = .val (p, s') ∧ p.length = n ∧ (∀ x ∈ p, x ∈ src) ∧
      ∀ x, src.count x ≤ p.count x := by
  have hd : ∃ l s', draw r src (n - src.length) s = .val (l, s') ∧ l.length = n - src.length ∧ ∀ x ∈ l, x ∈ src := by
    rcases hs with hs | hs
    · exact draw_spec r hr src hs _ s
    · subst hs
      have : 0 - src.length = 0 := by omega
      rw [this]; exact ⟨[], s, rfl, rfl, by simp⟩
  obtain ⟨l, s1, h1, h2, h3⟩ := hd
  obtain ⟨p, s2, h4, h5⟩ := C51_shuffle r hr (src ++ l) s1
  refine ⟨p, s2, ?_, ?_, ?_, ?_⟩
  · rw [shuffleRepeated, if_neg (by omega), Int.toNat_natCast, h1, Out.bind_val, List.take_of_length_le hn]
    exact h4
  · rw [h5.length_eq, List.length_append, h2]; omega
  · intro x hx
    rcases List.mem_append.1 (h5.subset hx) with h | h
    · exact h
    · exact h3 x h
  · intro x
    rw [h5.count_eq, List.count_append]; omega

/-- `ShuffleRepeated(n, src)` for `n` below the number of entries, contrary to its documentation ("n byte slices drawn randomly from
src"): whatever the source of randomness, the result is a rearrangement of the first `n` entries; the others are never drawn. -/
theorem C51_repeated_short (r : Rand σ) (hr : Obeys r) (n : Nat) (src : List Bytes) (hn : n < src.length) (s : σ) :
    ∃ p s', shuffleRepeated r n src s = .val (p, s') ∧ p.Perm (src.take n) := by
  obtain ⟨p, s2, h4, h5⟩ := C51_shuffle r hr (src.take n) s
  refine ⟨p, s2, ?_, h5⟩
  rw [shuffleRepeated, if_neg (by omega), Int.toNat_natCast, show n - src.length = 0 by omega, draw, Out.bind_val]
  dsimp only
  rw [List.append_nil]
  exact h4

/-- `ShuffleRepeated` panics exactly for a negative length, or when entries are asked for and there are none. -/
theorem C51_repeated_panics (r : Rand σ) (hr : Obeys r) (n : Int) (src : List Bytes) (s : σ) :
    shuffleRepeated r n src s = .panic ↔ n < 0 ∨ (src = [] ∧ 0 < n) := by
  constructor
  · intro h
    by_contra hc
    push Not at hc
    obtain ⟨h0, h1⟩ := hc
    obtain ⟨m, rfl⟩ := Int.eq_ofNat_of_zero_le h0
    by_cases hl : src.length ≤ m
    · have hs : src ≠ [] ∨ m = 0 := by
        by_cases hs : src = []
        · right; have := h1 hs; omega
        · exact Or.inl hs
      obtain ⟨p, s', e, _⟩ := C51_repeated r hr m src hs hl s
      rw [e] at h; cases h
    · obtain ⟨p, s', e, _⟩ := C51_repeated_short r hr m src (by omega) s
      rw [e] at h; cases h
  · rintro (h | ⟨rfl, h⟩)
    · rw [shuffleRepeated, if_pos h]
    · rw [shuffleRepeated, if_neg (by omega)]
      obtain ⟨k, hk⟩ : ∃ k, n.toNat - ([] : List Bytes).length = k + 1 := ⟨n.toNat - 1, by simp; omega⟩
      rw [hk, draw, intn, if_pos List.length_nil]; rfl

/-! ### C51: random bytes -/

theorem fill_spec (r : Rand σ) : ∀ (n : Nat) (s : σ), ∃ b s', fill r n s = .val (b, s') ∧ b.length = n := by
  intro n
  induction n with
  | zero => intro s; exact ⟨[], s, rfl, rfl⟩
  | succ n ih =>
    intro s
    obtain ⟨b, s', h1, h2⟩ := ih (r.intn s 256).2
    refine ⟨BitVec.ofNat 8 (r.intn s 256).1 :: b, s', ?_, by rw [List.length_cons, h2]⟩
    rw [fill, intn, if_neg (by omega), Out.bind_val]
    dsimp only
    rw [h1]; rfl

/-- **C51**, `Printable` returns a printable ASCII character, and can return every one of them. -/
theorem C51_printable (r : Rand σ) (hr : Obeys r) (s : σ) :
    ∃ b s', printable r s = .val (b, s') ∧ 0x20 ≤ b.toNat ∧ b.toNat ≤ 0x7E := by
  have h := hr s 95 (by omega)
  refine ⟨_, _, by rw [printable, intn, if_neg (by omega), Out.bind_val]; rfl, ?_⟩
  generalize (r.intn s 95).1 = k at *
  rw [BitVec.toNat_add, BitVec.toNat_ofNat]
  show 0x20 ≤ (32 + k % 256) % 256 ∧ (32 + k % 256) % 256 ≤ 0x7E
  omega

theorem C51_printable_all (b : Byte) (h : 0x20 ≤ b.toNat ∧ b.toNat ≤ 0x7E) :
    printable scripted [b.toNat - 0x20] = .val (b, []) := by
  rw [printable, intn, if_neg (by omega), Out.bind_val, scripted_intn _ _ _ (by omega)]
  dsimp only
  rw [Out.pure_eq]
  congr 2
  apply BitVec.eq_of_toNat_eq
  rw [BitVec.toNat_add, BitVec.toNat_ofNat]
  show (32 + (b.toNat - 32) % 256) % 256 = b.toNat
  omega

/-- **C51**, `RandomByteSlices(m, n)` returns `m` slices of `n` bytes. -/
theorem C51_slices (r : Rand σ) (m n : Nat) (s : σ) :
    ∃ l s', randomByteSlices r m n s = .val (l, s') ∧ l.length = m ∧ ∀ b ∈ l, b.length = n := by
  have key : ∀ (m : Nat) (s : σ), ∃ l s', fillMany r n m s = .val (l, s') ∧ l.length = m ∧ ∀ b ∈ l, b.length = n := by
    intro m
    induction m with
    | zero => intro s; exact ⟨[], s, rfl, rfl, by simp⟩
    | succ m ih =>
      intro s
      obtain ⟨b, s1, h1, h1'⟩ := fill_spec r n s
      obtain ⟨l, s2, h2, h3, h4⟩ := ih s1
      refine ⟨b :: l, s2, by rw [fillMany, h1, Out.bind_val]; dsimp only; rw [h2]; rfl, by rw [List.length_cons, h3], ?_⟩
      intro x hx
      rcases List.mem_cons.1 hx with hx | hx
      · rw [hx, h1']
      · exact h4 x hx
  obtain ⟨l, s', h1, h2⟩ := key m s
  refine ⟨l, s', ?_, h2⟩
  rw [randomByteSlices, if_neg (by omega)]
  split
  · rename_i h
    have h0 : m = 0 := by omega
    subst h0
    exact h1
  · rw [if_neg (by omega), Int.toNat_natCast, Int.toNat_natCast, h1]

/-- A slice of `n` bytes can come out with any contents. -/
theorem C51_bytes_all (b : Bytes) : randomByteSlice scripted b.length (b.map BitVec.toNat) = .val (b, []) := by
  rw [randomByteSlice, if_neg (by omega), Int.toNat_natCast]
  induction b with
  | nil => rfl
  | cons x b ih =>
    rw [List.length_cons, fill, intn, if_neg (by omega), Out.bind_val, List.map_cons, scripted_intn _ _ _ x.isLt]
    dsimp only
    rw [ih, Out.bind_val, Out.pure_eq]
    congr 2
    rw [BitVec.ofNat_toNat, BitVec.setWidth_eq]

/-! ### C52: adjacency -/

theorem wf_of_fin64 {x : F64} {z : Int} (h : Stat64.Fin64 x z) : F64.Wf x := by
  obtain ⟨⟨s, m, rfl, rfl⟩, h1, h2⟩ := h
  rw [F64.signed_natAbs] at h1 h2
  exact ⟨h1, h2⟩

theorem fin64_of_is {x : F64} {z : Int} (hd : IsDouble x) (h : F64.Is x z) : Stat64.Fin64 x z := by
  obtain ⟨s, m, rfl, rfl⟩ := h
  exact Stat64.Fin64.of_wf (isDouble_iff.1 hd)

/-- no double lies strictly between `a` and `b` -/
def Neighbours (a b : F64) : Prop :=
  ∀ c, IsDouble c → ¬ (F64.lt a c = true ∧ F64.lt c b = true) ∧ ¬ (F64.lt b c = true ∧ F64.lt c a = true)

theorem neighbours_int {a b : F64} {z w : Int} (ha : Stat64.Fin64 a z) (hb : Stat64.Fin64 b w) :
    Neighbours a b ↔ ∀ v : Int, F64.Rep v.natAbs → v.natAbs < F64.limit → ¬ (z < v ∧ v < w) ∧ ¬ (w < v ∧ v < z) := by
  constructor
  · intro h v hv hl
    have hw : F64.Wf (.fin (decide (v < 0)) v.natAbs) := ⟨hv, hl⟩
    have hi : F64.Is (.fin (decide (v < 0)) v.natAbs) v := by
      refine ⟨_, _, rfl, ?_⟩
      unfold F64.signed
      by_cases h0 : v < 0
      · simp only [h0, decide_true, if_true]; omega
      · simp only [h0, decide_false]
        rw [if_neg (by decide)]; omega
    have := h _ (isDouble_iff.2 hw)
    rwa [ha.is.lt_iff hi, hi.lt_iff hb.is, hb.is.lt_iff hi, hi.lt_iff ha.is] at this
  · intro h c hc
    by_cases hf : ∃ v, F64.Is c v
    · obtain ⟨v, hv⟩ := hf
      rw [ha.is.lt_iff hv, hv.lt_iff hb.is, hb.is.lt_iff hv, hv.lt_iff ha.is]
      have := fin64_of_is hc hv
      exact h v this.rep this.lt
    · obtain ⟨⟨s, m, rfl, _⟩, _, _⟩ := ha
      obtain ⟨⟨t, n, rfl, _⟩, _, _⟩ := hb
      cases c with
      | nan => constructor <;> (rintro ⟨h, _⟩; exact absurd h (by simp [F64.lt, F64.cmp]))
      | inf u => cases u <;> constructor <;> simp [F64.lt, F64.cmp]
      | fin u k => exact absurd ⟨_, u, k, rfl, rfl⟩ hf

/-- **C52**, what `AdjacentEqual64` decides: for finite doubles it holds exactly if no double lies strictly between the two. -/
theorem C52_adjacent (a b : F64) (ha : IsDouble a ∧ IsFinite a) (hb : IsDouble b ∧ IsFinite b) :
    adjacentEqual a b = true ↔ Neighbours a b := by
  obtain ⟨z, ha⟩ := fin64_of ha.1 ha.2
  obtain ⟨w, hb⟩ := fin64_of hb.1 hb.2
  rw [neighbours_int ha hb]
  -- one direction of the comparison
  have step : ∀ {x y : F64} {z w : Int}, Stat64.Fin64 x z → Stat64.Fin64 y w →
      (F64.eq y (nextUp x) = true ↔ (z = w ∧ ∀ v : Int, F64.Rep v.natAbs → v.natAbs < F64.limit → v ≤ z) ∨
        (z < w ∧ ∀ v : Int, F64.Rep v.natAbs → v.natAbs < F64.limit → z < v → w ≤ v)) := by
    intro x y z w hx hy
    rcases nextUp_spec hx with ⟨z', h1, h2, h3⟩ | ⟨h1, h2⟩
    · rw [hy.is.eq_iff h1.is]
      constructor
      · intro e; subst e; exact Or.inr ⟨h2, h3⟩
      · rintro (⟨_, h⟩ | ⟨h, h'⟩)
        · have := h z' h1.rep h1.lt; omega
        · have := h' z' h1.rep h1.lt h2
          have := h3 w hy.rep hy.lt h
          omega
    · rw [hy.is.eq_iff h1]
      constructor
      · intro e; exact Or.inl ⟨e.symm, h2⟩
      · rintro (⟨h, _⟩ | ⟨h, _⟩)
        · exact h.symm
        · have := h2 w hy.rep hy.lt; omega
  rw [adjacentEqual, Bool.or_eq_true, Bool.or_eq_true, ha.is.eq_iff hb.is, step ha hb, step hb ha]
  constructor
  · rintro ((h | h | ⟨h, h'⟩) | h | ⟨h, h'⟩) v hv hl
    · omega
    · omega
    · have := h' v hv hl; omega
    · omega
    · have := h' v hv hl; omega
  · intro h
    rcases lt_trichotomy z w with hlt | heq | hlt
    · right; right
      refine ⟨hlt, fun v hv hl hz => ?_⟩
      have := h v hv hl; omega
    · exact Or.inl (Or.inl heq)
    · left; right; right
      refine ⟨hlt, fun v hv hl hz => ?_⟩
      have := h v hv hl; omega

/-- 1 and the double after it are neighbours, 1 and the next but one are not -/
example : adjacentEqual (F64.ofBits 0x3FF0000000000000#64) (F64.ofBits 0x3FF0000000000001#64) = true ∧
    adjacentEqual (F64.ofBits 0x3FF0000000000000#64) (F64.ofBits 0x3FF0000000000002#64) = false := by
  constructor <;> decide +kernel

/-! ### C52: closeness -/

theorem rat_of_value {x : F64} {q : ℚ} (h : value x = some q) : ∃ z, F64.Is x z ∧ q = (z : ℚ) / 2 ^ 1074 := by
  cases x with
  | nan => simp [value] at h
  | inf s => simp [value] at h
  | fin s m =>
    have hi : F64.Is (.fin s m) (F64.signed s m) := ⟨s, m, rfl, rfl⟩
    refine ⟨_, hi, ?_⟩
    rw [value_iff.1 hi] at h
    exact (Option.some.inj h).symm

/-- what the second half of `Close64` computes, for a positive `a` -/
theorem close_quot {a b tol : F64} {A : Nat} {w t : Int} (ha : a = .fin false A) (hA : 0 < A) (hb : F64.Is b w) (ht : F64.Is tol t)
    (htl : t.natAbs < F64.limit) :
    F64.le (F64.div (abs (F64.sub a b)) a) tol = true ↔
      F64.rnd ((A : Int) - w).natAbs 1 < F64.limit ∧ (F64.rnd (F64.rnd ((A : Int) - w).natAbs 1 * F64.one) A : Int) ≤ t := by
  have hai : F64.Is a A := ⟨false, A, ha, rfl⟩
  have hsub := F64.sub_res hai hb
  unfold F64.Res at hsub
  rw [F64.rq_natAbs] at hsub
  split at hsub
  · rename_i hl
    obtain ⟨h1, h2⟩ := abs_is hsub
    rw [F64.rq_natAbs] at h1
    have hdiv := F64.div_res h1 hai hA ha
    unfold F64.Res at hdiv
    rw [F64.rq_natAbs, Int.natAbs_mul, Int.natAbs_natCast, Int.natAbs_natCast] at hdiv
    split at hdiv
    · have hz : 0 ≤ ((F64.rnd ((A : Int) - w).natAbs 1 : Nat) : Int) * (F64.one : Int) :=
        mul_nonneg (Int.natCast_nonneg _) (Int.natCast_nonneg _)
      rw [hdiv.le_iff ht, F64.rq_nonneg _ hz, Int.natAbs_mul, Int.natAbs_natCast, Int.natAbs_natCast]
      exact ⟨fun h => ⟨hl, h⟩, fun h => h.2⟩
    · rename_i hc
      have hz : ¬ ((F64.rnd ((A : Int) - w).natAbs 1 : Nat) : Int) * (F64.one : Int) < 0 :=
        not_lt.2 (mul_nonneg (Int.natCast_nonneg _) (Int.natCast_nonneg _))
      rw [hdiv, decide_eq_false hz]
      constructor
      · intro h
        obtain ⟨s, m, rfl, _⟩ := ht
        simp [F64.le, F64.cmp] at h
      · rintro ⟨_, h⟩
        omega
  · rename_i hl
    rw [hsub, ha]
    constructor
    · intro h
      obtain ⟨s, m, rfl, _⟩ := ht
      simp [F64.le, F64.cmp, TestUtil.abs, F64.div] at h
    · intro h; exact absurd h.1 hl

/-- **C52** for a positive first argument: if `Close64(a, b, tol)` holds, then the two are adjacent doubles or differ by at most the
given fraction of `a`, up to the rounding of the test itself (a factor of 1 + 2^-51). (False for negative `a`, see `C52_refuted`.) -/
theorem C52_sound_partial (a b tol : F64) (qa qb qt : ℚ) (hda : IsDouble a) (hdb : IsDouble b) (hdt : IsDouble tol)
    (ha : value a = some qa) (hb : value b = some qb) (ht : value tol = some qt) (hpos : 0 < qa) (h : close a b tol = true) :
    Neighbours a b ∨ |qa - qb| ≤ qt * qa * (1 + 1 / 2 ^ 51) := by
  have adj := C52_adjacent a b ⟨hda, _, ha⟩ ⟨hdb, _, hb⟩
  rw [close, Bool.or_eq_true, adj] at h
  rcases h with h | h
  · exact Or.inl h
  right
  obtain ⟨z, hz, rfl⟩ := rat_of_value ha
  obtain ⟨w, hw, rfl⟩ := rat_of_value hb
  obtain ⟨t, ht', rfl⟩ := rat_of_value ht
  have fa := fin64_of_is hda hz
  have fb := fin64_of_is hdb hw
  have ft := fin64_of_is hdt ht'
  have hP : (0 : ℚ) < 2 ^ 1074 := by positivity
  have hone := one_rat
  generalize (2 : ℚ) ^ 1074 = P at *
  have hz0 : 0 < z := by
    have := (div_pos_iff_of_pos_right hP).1 hpos
    exact_mod_cast this
  obtain ⟨A, rfl⟩ := Int.eq_ofNat_of_zero_le (le_of_lt hz0)
  have hA : 0 < A := by omega
  have ha' : a = .fin false A := by
    obtain ⟨s, m, rfl, e⟩ := hz
    cases s with
    | false => unfold F64.signed at e; rw [if_neg (by decide)] at e; rw [Int.ofNat.inj e]
    | true => unfold F64.signed at e; rw [if_pos rfl] at e; omega
  rw [close_quot ha' hA hw ht' ft.lt] at h
  obtain ⟨_, h⟩ := h
  have ht0 : 0 ≤ t := le_trans (Int.natCast_nonneg _) h
  obtain ⟨T, rfl⟩ := Int.eq_ofNat_of_zero_le ht0
  have h : F64.rnd (F64.rnd ((A : Int) - w).natAbs 1 * F64.one) A ≤ T := by exact_mod_cast h
  have hrA : F64.Rep A := fa.rep
  have key := close_bound hA (T := T) ft.rep (D := ((A : Int) - w).natAbs) ?_ h
  · have hD : |((A : Int) : ℚ) / P - (w : ℚ) / P| = ((((A : Int) - w).natAbs : Nat) : ℚ) / P := by
      rw [← sub_div, abs_div, abs_of_pos hP, Nat.cast_natAbs]
      push_cast; rfl
    rw [hD]
    generalize ((A : Int) - w).natAbs = D at *
    have key' : (D : ℚ) * P * 2 ^ 51 ≤ T * (2 ^ 51 + 1) * A := by
      rw [← hone]
      exact_mod_cast key
    have e1 : ((T : Int) : ℚ) / P * (((A : Int) : ℚ) / P) * (1 + 1 / 2 ^ 51) = T * (2 ^ 51 + 1) * A / (P * P * 2 ^ 51) := by
      push_cast
      field_simp
    rw [e1, div_le_div_iff₀ hP (by positivity)]
    calc (D : ℚ) * (P * P * 2 ^ 51) = D * P * 2 ^ 51 * P := by ring
      _ ≤ _ := mul_le_mul_of_nonneg_right key' (le_of_lt hP)
  · intro hne
    rcases lt_or_ge w 0 with hc | hc
    · generalize hD : ((A : Int) - w).natAbs = D at *
      omega
    · obtain ⟨B, rfl⟩ := Int.eq_ofNat_of_zero_le hc
      exact rep_diff hrA fb.rep (by omega)

/-- and conversely the test does accept: a positive `a` and a `b` within the tolerance, less the rounding of the test itself, and whose
difference does not overflow, are close. -/
theorem C52_complete_partial (a b tol : F64) (qa qb qt : ℚ) (hda : IsDouble a) (hdb : IsDouble b) (hdt : IsDouble tol)
    (ha : value a = some qa) (hb : value b = some qb) (ht : value tol = some qt) (hpos : 0 < qa)
    (hs : IsFinite (F64.sub a b)) (h : |qa - qb| ≤ qt * qa * (1 - 1 / 2 ^ 51)) : close a b tol = true := by
  rw [close, Bool.or_eq_true]
  right
  obtain ⟨z, hz, rfl⟩ := rat_of_value ha
  obtain ⟨w, hw, rfl⟩ := rat_of_value hb
  obtain ⟨t, ht', rfl⟩ := rat_of_value ht
  have fa := fin64_of_is hda hz
  have ft := fin64_of_is hdt ht'
  have hP : (0 : ℚ) < 2 ^ 1074 := by positivity
  have hone := one_rat
  generalize (2 : ℚ) ^ 1074 = P at *
  have hz0 : 0 < z := by
    have := (div_pos_iff_of_pos_right hP).1 hpos
    exact_mod_cast this
  obtain ⟨A, rfl⟩ := Int.eq_ofNat_of_zero_le (le_of_lt hz0)
  have hA : 0 < A := by omega
  have ha' : a = .fin false A := by
    obtain ⟨s, m, rfl, e⟩ := hz
    cases s with
    | false => unfold F64.signed at e; rw [if_neg (by decide)] at e; rw [Int.ofNat.inj e]
    | true => unfold F64.signed at e; rw [if_pos rfl] at e; omega
  rw [close_quot ha' hA hw ht' ft.lt]
  have hsl : F64.rnd ((A : Int) - w).natAbs 1 < F64.limit := by
    by_contra hc
    have hr := F64.sub_res (⟨false, A, ha', rfl⟩ : F64.Is a A) hw
    unfold F64.Res at hr
    rw [F64.rq_natAbs, if_neg hc] at hr
    obtain ⟨q, hq⟩ := hs
    rw [hr] at hq
    simp [value] at hq
  refine ⟨hsl, ?_⟩
  have hD : |((A : Int) : ℚ) / P - (w : ℚ) / P| = ((((A : Int) - w).natAbs : Nat) : ℚ) / P := by
    rw [← sub_div, abs_div, abs_of_pos hP, Nat.cast_natAbs]
    push_cast; rfl
  rw [hD] at h
  clear hD hsl
  have ht0 : 0 ≤ t := by
    have h0 : (0 : ℚ) ≤ ((((A : Int) - w).natAbs : Nat) : ℚ) / P := div_nonneg (Nat.cast_nonneg _) (le_of_lt hP)
    have h1 := le_trans h0 h
    have h2 : (0 : ℚ) ≤ (t : ℚ) / P := by
      by_contra hc
      have hc := not_le.1 hc
      have : (t : ℚ) / P * (((A : Int) : ℚ) / P) * (1 - 1 / 2 ^ 51) < 0 :=
        mul_neg_of_neg_of_pos (mul_neg_of_neg_of_pos hc hpos) (by norm_num)
      linarith
    have h3 := (div_nonneg_iff.1 h2)
    rcases h3 with h3 | h3
    · exact_mod_cast h3.1
    · linarith [h3.2]
  obtain ⟨T, rfl⟩ := Int.eq_ofNat_of_zero_le ht0
  have key : F64.rnd (F64.rnd ((A : Int) - w).natAbs 1 * F64.one) A ≤ T := by
    refine close_of_bound hA ft.rep ?_
    generalize ((A : Int) - w).natAbs = D at *
    have e1 : ((T : Int) : ℚ) / P * (((A : Int) : ℚ) / P) * (1 - 1 / 2 ^ 51) = T * (2 ^ 51 - 1) * A / (P * P * 2 ^ 51) := by
      push_cast
      field_simp
    rw [e1, div_le_div_iff₀ hP (by positivity)] at h
    have h' : (D : ℚ) * P * 2 ^ 51 * P ≤ T * (2 ^ 51 - 1) * A * P := by
      calc (D : ℚ) * P * 2 ^ 51 * P = D * (P * P * 2 ^ 51) := by ring
        _ ≤ _ := h
    have h' := le_of_mul_le_mul_right h' hP
    rw [← hone] at h'
    have e2 : ((2 ^ 51 - 1 : Nat) : ℚ) = 2 ^ 51 - 1 := by norm_num
    rw [← e2] at h'
    exact_mod_cast h'
  exact_mod_cast key

/-- 1 and 1.0625 are within 1/8 but not within 1/32 of each other -/
example : close (F64.ofNat 1) (F64.dec 17 16) (F64.dec 1 8) = true ∧ close (F64.ofNat 1) (F64.dec 17 16) (F64.dec 1 32) = false := by
  constructor <;> decide +kernel

/-- **C52 is false**: the difference is divided by `a`, not by its size, so for every negative `a`, every finite `b` however far away,
and every tolerance from zero upwards, `Close64(a, b, tol)` holds. -/
theorem C52_refuted (a b tol : F64) (ha : IsFinite a) (hb : IsFinite b) (hneg : F64.lt a F64.zero = true)
    (ht : F64.le F64.zero tol = true) : close a b tol = true := by
  rw [close, Bool.or_eq_true]
  right
  obtain ⟨qa, hqa⟩ := ha
  obtain ⟨qb, hqb⟩ := hb
  obtain ⟨z, hz, _⟩ := rat_of_value hqa
  obtain ⟨w, hw, _⟩ := rat_of_value hqb
  have h0 : F64.Is F64.zero 0 := ⟨false, 0, rfl, rfl⟩
  rw [hz.lt_iff h0] at hneg
  obtain ⟨A, hA, rfl⟩ : ∃ A, 0 < A ∧ a = .fin true A := by
    obtain ⟨s, m, rfl, e⟩ := hz
    cases s with
    | false => unfold F64.signed at e; rw [if_neg (by decide)] at e; omega
    | true => unfold F64.signed at e; rw [if_pos rfl] at e; exact ⟨m, by omega, rfl⟩
  -- the quotient is zero or below, or minus infinity
  have hq : F64.div (abs (F64.sub (.fin true A) b)) (.fin true A) = .inf true ∨
      ∃ q, F64.Is (F64.div (abs (F64.sub (.fin true A) b)) (.fin true A)) q ∧ q ≤ 0 := by
    have hsub := F64.sub_res hz hw
    unfold F64.Res at hsub
    split at hsub
    · obtain ⟨_, h2⟩ := abs_is hsub
      rw [h2, F64.div, if_neg (by omega)]
      unfold F64.mk
      split
      · right
        refine ⟨_, ⟨_, _, rfl, rfl⟩, ?_⟩
        unfold F64.signed
        rw [if_pos (by decide)]
        omega
      · exact Or.inl rfl
    · rw [hsub]; exact Or.inl rfl
  rcases hq with hq | ⟨q, hq, hq0⟩
  · rw [hq]
    cases tol with
    | nan => simp [F64.le, F64.cmp, F64.zero] at ht
    | inf s => cases s <;> rfl
    | fin s m => rfl
  · cases tol with
    | nan => simp [F64.le, F64.cmp, F64.zero] at ht
    | inf s =>
      cases s with
      | true => simp [F64.le, F64.cmp, F64.zero] at ht
      | false => obtain ⟨s, m, e, _⟩ := hq; rw [e]; rfl
    | fin s m =>
      have hi : F64.Is (.fin s m) (F64.signed s m) := ⟨s, m, rfl, rfl⟩
      rw [h0.le_iff hi] at ht
      rw [hq.le_iff hi]
      omega

/-- -1 and 1000000 are "close" within 0 -/
example : close (F64.ofInt (-1)) (F64.ofNat 1000000) F64.zero = true := by decide +kernel

/-- What `Equiv64` decides: both infinite (whatever their signs), both NaN, or the same number. -/
theorem C52_equiv (a b : F64) : equiv a b = true ↔
    ((∃ s t, a = .inf s ∧ b = .inf t) ∨ (a = .nan ∧ b = .nan) ∨ ∃ q, value a = some q ∧ value b = some q) := by
  cases a with
  | nan => cases b <;> simp [equiv, isInf, isNaN, F64.eq, F64.cmp, value]
  | inf s =>
    cases b with
    | nan => simp [equiv, isInf, isNaN, F64.eq, F64.cmp, value]
    | inf t => simp [equiv, isInf]
    | fin t n => cases s <;> simp [equiv, isInf, isNaN, F64.eq, F64.cmp, value]
  | fin s m =>
    cases b with
    | nan => simp [equiv, isInf, isNaN, F64.eq, F64.cmp, value]
    | inf t => cases t <;> simp [equiv, isInf, isNaN, F64.eq, F64.cmp, value]
    | fin t n =>
      have ha : F64.Is (.fin s m) (F64.signed s m) := ⟨s, m, rfl, rfl⟩
      have hb : F64.Is (.fin t n) (F64.signed t n) := ⟨t, n, rfl, rfl⟩
      have e : equiv (.fin s m) (.fin t n) = F64.eq (.fin s m) (.fin t n) := rfl
      rw [e, ha.eq_iff hb, value_iff.1 ha, value_iff.1 hb]
      have hP : (2 : ℚ) ^ 1074 ≠ 0 := by positivity
      generalize (2 : ℚ) ^ 1074 = P at *
      constructor
      · intro h
        exact Or.inr (Or.inr ⟨_, rfl, by rw [h]⟩)
      · rintro (⟨_, _, h, _⟩ | ⟨h, _⟩ | ⟨q, h1, h2⟩)
        · cases h
        · cases h
        · have := Option.some.inj (h1.trans h2.symm)
          rw [div_left_inj' hP] at this
          exact_mod_cast this

/-- What `EquivOrCloseFloat64` decides: both infinite (whatever their signs), both NaN, or `Close64` (see C52_sound_partial, C52_complete_partial,
C52_refuted). -/
theorem C52_equivOrClose (a b tol : F64) : equivOrClose a b tol = true ↔
    ((∃ s t, a = .inf s ∧ b = .inf t) ∨ (a = .nan ∧ b = .nan) ∨ close a b tol = true) := by
  unfold equivOrClose
  cases a <;> cases b <;> simp [isInf, isNaN]

/-- **C52 is false** also of infinite second arguments: a negative number is "close" to both infinities, within any tolerance. -/
theorem C52_infinite_refuted (m : Nat) (hm : 0 < m) (s : Bool) (tol : F64) (ht : tol ≠ .nan) :
    close (.fin true m) (.inf s) tol = true ∧ equivOrClose (.fin true m) (.inf s) tol = true := by
  have h : close (.fin true m) (.inf s) tol = true := by
    rw [close, Bool.or_eq_true]
    right
    have : F64.div (TestUtil.abs (F64.sub (.fin true m) (.inf s))) (.fin true m) = .inf true := by
      cases s <;> simp [F64.sub, F64.neg, F64.add, TestUtil.abs, F64.div]
    rw [this]
    cases tol with
    | nan => exact absurd rfl ht
    | inf t => cases t <;> rfl
    | fin t n => rfl
  exact ⟨h, (C52_equivOrClose _ _ _).2 (.inr (.inr h))⟩

end Starbow.Props
