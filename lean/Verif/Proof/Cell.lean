import Verif.Spec.Cell
import Verif.Proof.ProbeConc
namespace Starbow.Cell
open Starbow.Probe Starbow.Spec

theorem upd_same {α : Type} (f : Nat → α) (i : Nat) (v : α) : upd f i v i = v := by simp [upd]
theorem upd_other {α : Type} (f : Nat → α) {i j : Nat} (v : α) (h : j ≠ i) : upd f i v j = f j := by simp [upd, h]

theorem bytesOf_length (s : Nat) (c : Cells) (x : Nat) : (bytesOf s c x).length = s := by simp [bytesOf]

theorem bytesOf_getElem? (s : Nat) (c : Cells) (x i : Nat) (h : i < s) :
    (bytesOf s c x)[i]? = some (c.vals (x * s + i)) := by
  unfold bytesOf
  rw [List.getElem?_map, List.getElem?_range h]; rfl

/-- different cells do not share bytes -/
theorem cells_disjoint {s x y i j : Nat} (hi : i < s) (hj : j < s) (h : x * s + i = y * s + j) : x = y := by
  have h1 : (x * s + i) / s = x := by
    rw [Nat.mul_comm, Nat.mul_add_div (by omega), Nat.div_eq_of_lt hi, Nat.add_zero]
  have h2 : (y * s + j) / s = y := by
    rw [Nat.mul_comm, Nat.mul_add_div (by omega), Nat.div_eq_of_lt hj, Nat.add_zero]
  rw [← h1, h, h2]

theorem bytesOf_write_same (s : Nat) (c : Cells) (x o : Nat) (v : Byte) (ho : o < s) :
    bytesOf s { c with vals := upd c.vals (x * s + o) v } x = (bytesOf s c x).set o v := by
  apply List.ext_getElem?
  intro i
  rw [List.getElem?_set]
  by_cases hi : i < s
  · rw [bytesOf_getElem? _ _ _ _ hi, bytesOf_getElem? _ _ _ _ hi]
    simp only [upd]
    by_cases he : o = i
    · subst he; simp [bytesOf_length, ho]
    · rw [if_neg (by omega), if_neg he]
  · rw [List.getElem?_eq_none (by rw [bytesOf_length]; omega), List.getElem?_eq_none (by rw [bytesOf_length]; omega)]
    rw [if_neg (by omega)]

theorem bytesOf_write_other (s : Nat) (c : Cells) {x y : Nat} (o : Nat) (v : Byte) (ho : o < s) (hy : y ≠ x) :
    bytesOf s { c with vals := upd c.vals (x * s + o) v } y = bytesOf s c y := by
  unfold bytesOf
  apply List.map_congr_left
  intro j hj
  have hj : j < s := by simpa using hj
  simp only
  rw [upd_other]
  intro e
  exact hy (cells_disjoint hj ho e)

/-- the cell holds the result of its completed writes -/
def Quiet (s : Nat) (c : Cells) (x : Nat) : Prop :=
  c.cnt x = 2 * (writesOf c.log x).length ∧ bytesOf s c x = runAll s (writesOf c.log x)

/-- local assertion of a writer -/
def WOk (s : Nat) (c : Cells) (t x : Nat) (e : Entry) : WPC → Prop
  | .lock => True
  | .add1 => c.lock x = some t ∧ Quiet s c x
  | .run ws r => c.lock x = some t ∧ c.cnt x = 2 * (writesOf c.log x).length + 1 ∧
      ws.foldl (fun b w => b.set w.1 w.2) (bytesOf s c x) = runAlone (runAll s (writesOf c.log x)) e ∧
      r = (e.fn (runAll s (writesOf c.log x)) e.init).2
  | .add2 err => c.lock x = some t ∧ c.cnt x = 2 * (writesOf c.log x).length + 1 ∧
      bytesOf s c x = runAlone (runAll s (writesOf c.log x)) e ∧
      (e.fn (runAll s (writesOf c.log x)) e.init).2 = .ret err
  | .unlock err => c.lock x = some t ∧ Quiet s c x ∧
      ∃ es, writesOf c.log x = es ++ [e] ∧ (e.fn (runAll s es) e.init).2 = .ret err
  | .dead => c.lock x = some t ∧ c.cnt x = 2 * (writesOf c.log x).length + 1

/-- a writer past the lock -/
def WPC.inside : WPC → Bool
  | .lock => false
  | _ => true

/-- The invariant of `L` cells of `s` bytes, where `W t` is what goroutine `t` is writing, if anything. -/
structure CInv (L s : Nat) (c : Cells) (W : Nat → Option (Nat × Entry × WPC)) : Prop where
  wok : ∀ t x e p, W t = some (x, e, p) → WOk s c t x e p
  holder : ∀ x t, c.lock x = some t → ∃ e p, W t = some (x, e, p) ∧ p.inside = true
  free : ∀ x, c.lock x = none → Quiet s c x
  seq : ∀ x, c.seq x = BitVec.ofNat 32 (c.cnt x)

theorem writesOf_nil (x : Nat) : writesOf [] x = [] := rfl

theorem writesOf_snoc_same (log : List (Nat × Entry)) (x : Nat) (e : Entry) :
    writesOf (log ++ [(x, e)]) x = writesOf log x ++ [e] := by
  unfold writesOf
  rw [List.filter_append, List.map_append]
  simp

theorem writesOf_snoc_other (log : List (Nat × Entry)) {x y : Nat} (h : y ≠ x) (e : Entry) :
    writesOf (log ++ [(x, e)]) y = writesOf log y := by
  unfold writesOf
  rw [List.filter_append, List.map_append]
  simp only [List.filter_cons, List.filter_nil]
  rw [if_neg (by simp; exact fun e => h e.symm)]
  simp

theorem runAll_snoc (s : Nat) (es : List Entry) (e : Entry) : runAll s (es ++ [e]) = runAlone (runAll s es) e := by
  unfold runAll; rw [List.foldl_append]; rfl

theorem cinv_init (L s : Nat) (W : Nat → Option (Nat × Entry × WPC)) (hW : ∀ t, W t = none) : CInv L s init W where
  wok := by intro t x e p h; rw [hW] at h; simp at h
  holder := by intro x t h; simp [init] at h
  free := by
    intro x _
    refine ⟨rfl, ?_⟩
    unfold bytesOf runAll
    simp only [init, writesOf_nil, List.foldl_nil]
    rw [List.map_const', List.length_range]
  seq := fun x => rfl

/-- the assertion of a writer only speaks about its own cell -/
theorem WOk.congr {s : Nat} {c c' : Cells} {t x : Nat} {e : Entry} {p : WPC} (h : WOk s c t x e p)
    (h1 : c'.lock x = c.lock x) (h2 : c'.cnt x = c.cnt x) (h3 : writesOf c'.log x = writesOf c.log x)
    (h4 : bytesOf s c' x = bytesOf s c x) : WOk s c' t x e p := by
  cases p <;> simp only [WOk, Quiet, h1, h2, h3, h4] at h ⊢ <;> exact h

/-- what a writer step does to the cells other than its own, and to the readers of any cell -/
structure Guar (s t x : Nat) (c c' : Cells) : Prop where
  other : ∀ y, y ≠ x → c'.lock y = c.lock y ∧ c'.cnt y = c.cnt y ∧ c'.seq y = c.seq y ∧
    writesOf c'.log y = writesOf c.log y ∧ bytesOf s c' y = bytesOf s c y
  mono : c.cnt x ≤ c'.cnt x
  calm : c'.cnt x = c.cnt x → c.cnt x % 2 = 0 → bytesOf s c' x = bytesOf s c x
  log : ∃ more, c'.log = c.log ++ more

theorem wstep_guar {s t x : Nat} {e : Entry} {c c' : Cells} {p : WPC} {r : WRes} (hp : WOk s c t x e p)
    (h : wstep s t x e c p = some (c', r)) : Guar s t x c c' := by
  have nolog : ∀ (d : Cells), d.log = c.log → ∃ more, d.log = c.log ++ more := fun d e => ⟨[], by rw [e]; simp⟩
  have key : ∀ d : Cells, (∀ y, y ≠ x → d.lock y = c.lock y) → (∀ y, y ≠ x → d.cnt y = c.cnt y) →
      (∀ y, y ≠ x → d.seq y = c.seq y) → d.log = c.log → d.vals = c.vals → c.cnt x ≤ d.cnt x → Guar s t x c d := by
    intro d h1 h2 h3 h4 h5 h6
    have hb : ∀ y, bytesOf s d y = bytesOf s c y := fun y => by unfold bytesOf; rw [h5]
    exact ⟨fun y hy => ⟨h1 y hy, h2 y hy, h3 y hy, by rw [h4], hb y⟩, h6, fun _ _ => hb x, nolog d h4⟩
  cases p with
  | lock =>
    rw [wstep] at h
    split at h
    · have h := Option.some.inj h
      have hc : _ = c' := congrArg Prod.fst h
      rw [← hc]
      exact key _ (fun y hy => upd_other _ _ hy) (fun _ _ => rfl) (fun _ _ => rfl) rfl rfl (Nat.le_refl _)
    · simp at h
  | add1 =>
    rw [wstep] at h
    have h := Option.some.inj h
    have hc : _ = c' := congrArg Prod.fst h
    rw [← hc]
    exact key _ (fun _ _ => rfl) (fun y hy => upd_other _ _ hy) (fun y hy => upd_other _ _ hy) rfl rfl
      (by simp only [upd_same]; omega)
  | run ws rr =>
    cases ws with
    | nil =>
      cases rr with
      | ret err =>
        rw [wstep] at h
        have h := Option.some.inj h
        have hc : _ = c' := congrArg Prod.fst h
        rw [← hc]
        exact key _ (fun _ _ => rfl) (fun _ _ => rfl) (fun _ _ => rfl) rfl rfl (Nat.le_refl _)
      | panic =>
        rw [wstep] at h
        have h := Option.some.inj h
        have hc : _ = c' := congrArg Prod.fst h
        rw [← hc]
        exact key _ (fun _ _ => rfl) (fun _ _ => rfl) (fun _ _ => rfl) rfl rfl (Nat.le_refl _)
    | cons w ws =>
      obtain ⟨o, v⟩ := w
      rw [wstep] at h
      split at h
      · rename_i ho
        have h := Option.some.inj h
        have hc : _ = c' := congrArg Prod.fst h
        rw [← hc]
        refine ⟨fun y hy => ⟨rfl, rfl, rfl, rfl, bytesOf_write_other s c o v ho hy⟩, Nat.le_refl _, ?_, nolog _ rfl⟩
        intro _ hev
        have := hp.2.1
        omega
      · have h := Option.some.inj h
        have hc : _ = c' := congrArg Prod.fst h
        rw [← hc]
        exact key _ (fun _ _ => rfl) (fun _ _ => rfl) (fun _ _ => rfl) rfl rfl (Nat.le_refl _)
  | add2 err =>
    rw [wstep] at h
    have h := Option.some.inj h
    have hc : _ = c' := congrArg Prod.fst h
    rw [← hc]
    refine ⟨fun y hy => ⟨rfl, upd_other _ _ hy, upd_other _ _ hy, writesOf_snoc_other _ hy _, rfl⟩, ?_, ?_, ⟨_, rfl⟩⟩
    · simp only [upd_same]; omega
    · simp only [upd_same]; intro h; omega
  | unlock err =>
    rw [wstep] at h
    have h := Option.some.inj h
    have hc : _ = c' := congrArg Prod.fst h
    rw [← hc]
    exact key _ (fun y hy => upd_other _ _ hy) (fun _ _ => rfl) (fun _ _ => rfl) rfl rfl (Nat.le_refl _)
  | dead => rw [wstep] at h; simp at h

/-- what the goroutine is writing after a step -/
def wnext (x : Nat) (e : Entry) : WRes → Option (Nat × Entry × WPC)
  | .go p => some (x, e, p)
  | .ret _ => none

/-- the assertion after a step -/
def WResOk (s : Nat) (c : Cells) (t x : Nat) (e : Entry) : WRes → Prop
  | .go p => WOk s c t x e p
  | .ret _ => True

/-- a writer step keeps the invariant -/
theorem cinv_wstep {L s t x : Nat} {e : Entry} {c c' : Cells} {p : WPC} {r : WRes}
    {W W' : Nat → Option (Nat × Entry × WPC)} (hI : CInv L s c W) (hW : W t = some (x, e, p))
    (h : wstep s t x e c p = some (c', r))
    (hW't : W' t = wnext x e r)
    (hW'o : ∀ t', t' ≠ t → W' t' = W t') : CInv L s c' W' := by
  have hp := hI.wok t x e p hW
  have hg := wstep_guar hp h
  -- what happens to the cell itself
  have hself : WResOk s c' t x e r ∧
      (c'.lock x = some t ∧ (∃ p', r = .go p' ∧ p'.inside = true) ∨ (c'.lock x = none ∧ Quiet s c' x)) ∧
      c'.seq x = BitVec.ofNat 32 (c'.cnt x) ∧
      (p.inside = false → c.lock x = none) ∧ (p.inside = true → c.lock x = some t) := by
    have hseq1 : ∀ n, BitVec.ofNat 32 n + 1 = BitVec.ofNat 32 (n + 1) := by
      intro n; rw [BitVec.ofNat_add]; rfl
    cases p with
    | lock =>
      rw [wstep] at h
      split at h
      · rename_i hlk
        have h := Option.some.inj h
        have hc : _ = c' := congrArg Prod.fst h
        have hr : _ = r := congrArg Prod.snd h
        rw [← hc, ← hr]
        have hq := hI.free x hlk
        refine ⟨⟨by simp only [upd_same], hq⟩, Or.inl ⟨by simp only [upd_same], _, rfl, rfl⟩, hI.seq x, fun _ => hlk, ?_⟩
        intro e; simp [WPC.inside] at e
      · simp at h
    | add1 =>
      rw [wstep] at h
      have h := Option.some.inj h
      have hc : _ = c' := congrArg Prod.fst h
      have hr : _ = r := congrArg Prod.snd h
      rw [← hc, ← hr]
      obtain ⟨hlk, hq1, hq2⟩ := hp
      refine ⟨⟨hlk, ?_, ?_, ?_⟩, Or.inl ⟨hlk, _, rfl, rfl⟩, ?_, ?_, fun _ => hlk⟩
      · simp only [upd_same]; omega
      · show List.foldl _ (bytesOf s c x) _ = _
        rw [hq2]; rfl
      · rw [hq2]
      · simp only [upd_same]; rw [hI.seq x, hseq1]
      · intro e; simp [WPC.inside] at e
    | run ws rr =>
      obtain ⟨hlk, hcnt, hfold, hres⟩ := hp
      cases ws with
      | nil =>
        cases rr with
        | ret err =>
          rw [wstep] at h
          have h := Option.some.inj h
          have hc : _ = c' := congrArg Prod.fst h
          have hr : _ = r := congrArg Prod.snd h
          rw [← hc, ← hr]
          exact ⟨⟨hlk, hcnt, hfold, hres.symm⟩, Or.inl ⟨hlk, _, rfl, rfl⟩, hI.seq x,
            by intro e; simp [WPC.inside] at e, fun _ => hlk⟩
        | panic =>
          rw [wstep] at h
          have h := Option.some.inj h
          have hc : _ = c' := congrArg Prod.fst h
          have hr : _ = r := congrArg Prod.snd h
          rw [← hc, ← hr]
          exact ⟨⟨hlk, hcnt⟩, Or.inl ⟨hlk, _, rfl, rfl⟩, hI.seq x, by intro e; simp [WPC.inside] at e, fun _ => hlk⟩
      | cons w ws =>
        obtain ⟨o, v⟩ := w
        rw [wstep] at h
        split at h
        · rename_i ho
          have h := Option.some.inj h
          have hc : _ = c' := congrArg Prod.fst h
          have hr : _ = r := congrArg Prod.snd h
          rw [← hc, ← hr]
          refine ⟨⟨hlk, hcnt, ?_, hres⟩, Or.inl ⟨hlk, _, rfl, rfl⟩, hI.seq x, by intro e; simp [WPC.inside] at e,
            fun _ => hlk⟩
          rw [bytesOf_write_same s c x o v ho]
          exact hfold
        · have h := Option.some.inj h
          have hc : _ = c' := congrArg Prod.fst h
          have hr : _ = r := congrArg Prod.snd h
          rw [← hc, ← hr]
          exact ⟨⟨hlk, hcnt⟩, Or.inl ⟨hlk, _, rfl, rfl⟩, hI.seq x, by intro e; simp [WPC.inside] at e, fun _ => hlk⟩
    | add2 err =>
      rw [wstep] at h
      have h := Option.some.inj h
      have hc : _ = c' := congrArg Prod.fst h
      have hr : _ = r := congrArg Prod.snd h
      rw [← hc, ← hr]
      obtain ⟨hlk, hcnt, hb, hres⟩ := hp
      refine ⟨⟨hlk, ⟨?_, ?_⟩, writesOf c.log x, writesOf_snoc_same _ _ _, hres⟩, Or.inl ⟨hlk, _, rfl, rfl⟩, ?_,
        by intro e; simp [WPC.inside] at e, fun _ => hlk⟩
      · simp only [upd_same]; rw [writesOf_snoc_same, List.length_append, List.length_singleton]; omega
      · show bytesOf s c x = _
        simp only
        rw [writesOf_snoc_same, runAll_snoc, hb]
      · simp only [upd_same]; rw [hI.seq x, hseq1]
    | unlock err =>
      rw [wstep] at h
      have h := Option.some.inj h
      have hc : _ = c' := congrArg Prod.fst h
      have hr : _ = r := congrArg Prod.snd h
      rw [← hc, ← hr]
      obtain ⟨hlk, hq, _⟩ := hp
      exact ⟨trivial, Or.inr ⟨by simp only [upd_same], hq⟩, hI.seq x, by intro e; simp [WPC.inside] at e, fun _ => hlk⟩
    | dead => rw [wstep] at h; simp at h
  obtain ⟨hs1, hs2, hs3, hs4, hs5⟩ := hself
  exact {
    wok := by
      intro t' x' e' p' h'
      by_cases ht : t' = t
      · subst ht
        rw [hW't] at h'
        cases r with
        | go p'' =>
          have h' := Option.some.inj h'
          simp only [Prod.mk.injEq] at h'
          obtain ⟨rfl, rfl, rfl⟩ := h'
          exact hs1
        | ret _ => simp [wnext] at h'
      · rw [hW'o t' ht] at h'
        have hok := hI.wok t' x' e' p' h'
        by_cases hx : x' = x
        · subst hx
          -- the other writer of this cell is still waiting for the mutex
          cases p' with
          | lock => trivial
          | _ =>
            exfalso
            have hl : c.lock x' = some t' := hok.1
            cases hin : p.inside with
            | true => rw [hs5 hin] at hl; exact ht (Option.some.inj hl).symm
            | false => rw [hs4 hin] at hl; simp at hl
        · obtain ⟨g1, g2, _, g4, g5⟩ := hg.other x' hx
          exact hok.congr g1 g2 g4 g5
    holder := by
      intro x' t' hl
      by_cases hx : x' = x
      · subst hx
        rcases hs2 with ⟨h1, p'', h2, h3⟩ | ⟨h1, _⟩
        · rw [h1] at hl
          have := Option.some.inj hl
          subst this
          refine ⟨e, p'', ?_, h3⟩
          rw [hW't, h2]; rfl
        · rw [h1] at hl; simp at hl
      · rw [(hg.other x' hx).1] at hl
        obtain ⟨e', p', h1, h2⟩ := hI.holder x' t' hl
        refine ⟨e', p', ?_, h2⟩
        rw [hW'o t' ?_]; exact h1
        rintro rfl
        rw [hW] at h1
        have := Option.some.inj h1
        simp only [Prod.mk.injEq] at this
        exact hx this.1.symm
    free := by
      intro x' hl
      by_cases hx : x' = x
      · subst hx
        rcases hs2 with ⟨h1, _⟩ | ⟨_, h2⟩
        · rw [h1] at hl; simp at hl
        · exact h2
      · obtain ⟨g1, g2, _, g4, g5⟩ := hg.other x' hx
        rw [g1] at hl
        have := hI.free x' hl
        unfold Quiet at this ⊢
        rw [g2, g4, g5]; exact this
    seq := by
      intro x'
      by_cases hx : x' = x
      · subst hx; exact hs3
      · obtain ⟨_, g2, g3, _, _⟩ := hg.other x' hx
        rw [g2, g3]; exact hI.seq x' }

/-- starting to write -/
theorem cinv_begin {L s t x : Nat} {e : Entry} {c : Cells} {W W' : Nat → Option (Nat × Entry × WPC)}
    (hI : CInv L s c W) (hW : W t = none) (hW't : W' t = some (x, e, .lock)) (hW'o : ∀ t', t' ≠ t → W' t' = W t') :
    CInv L s c W' where
  wok := by
    intro t' x' e' p' h'
    by_cases ht : t' = t
    · subst ht
      rw [hW't] at h'
      have h' := Option.some.inj h'
      simp only [Prod.mk.injEq] at h'
      obtain ⟨rfl, rfl, rfl⟩ := h'
      trivial
    · rw [hW'o t' ht] at h'; exact hI.wok t' x' e' p' h'
  holder := by
    intro x' t' hl
    obtain ⟨e', p', h1, h2⟩ := hI.holder x' t' hl
    refine ⟨e', p', ?_, h2⟩
    rw [hW'o t' ?_]; exact h1
    rintro rfl
    rw [hW] at h1; simp at h1
  free := hI.free
  seq := hI.seq

theorem cinv_congr {L s : Nat} {c : Cells} {W W' : Nat → Option (Nat × Entry × WPC)} (hI : CInv L s c W)
    (h : ∀ t, W' t = W t) : CInv L s c W' := by
  have : W' = W := funext h
  rw [this]; exact hI

/-- an even count means that no write is in progress -/
theorem CInv.quiet {L s : Nat} {c : Cells} {W : Nat → Option (Nat × Entry × WPC)} (hI : CInv L s c W) {x : Nat}
    (h : c.cnt x % 2 = 0) : Quiet s c x := by
  cases hl : c.lock x with
  | none => exact hI.free x hl
  | some t =>
    obtain ⟨e, p, h1, h2⟩ := hI.holder x t hl
    have hok := hI.wok t x e p h1
    cases p with
    | lock => simp [WPC.inside] at h2
    | add1 => exact hok.2
    | run ws r => have := hok.2.1; omega
    | add2 err => have := hok.2.1; omega
    | unlock err => exact hok.2.1
    | dead => have := hok.2; omega

/-- local assertion of a reader of `n` bytes of cell `x` -/
def ROk (s : Nat) (c : Cells) (x n : Nat) : RPC → Prop
  | .load1 => True
  | .copy sq ct got => sq = BitVec.ofNat 32 ct ∧ ct % 2 = 0 ∧ ct ≤ c.cnt x ∧ got.length ≤ n ∧
      (c.cnt x = ct → ∀ i, i < got.length → i < s → got[i]? = some (c.vals (x * s + i)))

theorem bytes_vals {s : Nat} {c c' : Cells} {x : Nat} (h : bytesOf s c' x = bytesOf s c x) (i : Nat) (hi : i < s) :
    c'.vals (x * s + i) = c.vals (x * s + i) := by
  have := congrArg (·[i]?) h
  simp only [bytesOf_getElem? _ _ _ _ hi] at this
  exact Option.some.inj this

theorem ROk.stable {s t y : Nat} {c c' : Cells} {x n : Nat} {p : RPC} (h : ROk s c x n p) (g : Guar s t y c c') :
    ROk s c' x n p := by
  cases p with
  | load1 => trivial
  | copy sq ct got =>
    obtain ⟨h1, h2, h3, h4, h5⟩ := h
    by_cases hx : x = y
    · subst hx
      refine ⟨h1, h2, Nat.le_trans h3 g.mono, h4, ?_⟩
      intro he i hi his
      have hc : c.cnt x = ct := by have := g.mono; omega
      have := bytes_vals (g.calm (he.trans hc.symm) (by omega)) i his
      rw [this]; exact h5 hc i hi his
    · obtain ⟨_, g2, _, _, g5⟩ := g.other x hx
      refine ⟨h1, h2, by rw [g2]; exact h3, h4, ?_⟩
      intro he i hi his
      rw [bytes_vals g5 i his]
      exact h5 (by rw [← g2]; exact he) i hi his

theorem rstep_ok {L s x n : Nat} {c : Cells} {W : Nat → Option (Nat × Entry × WPC)} (hI : CInv L s c W) {p p' : RPC}
    (h : ROk s c x n p) (hs : rstep s x n c p = .go p') : ROk s c x n p' := by
  cases p with
  | load1 =>
    rw [rstep] at hs
    split at hs
    · have hs := RRes.go.inj hs; subst hs; trivial
    · rename_i hodd
      have hs := RRes.go.inj hs; subst hs
      refine ⟨hI.seq x, ?_, Nat.le_refl _, by simp, by intro _ i hi; simp at hi⟩
      rw [hI.seq x, BitVec.toNat_ofNat] at hodd
      omega
  | copy sq ct got =>
    obtain ⟨h1, h2, h3, h4, h5⟩ := h
    rw [rstep] at hs
    split at hs
    · have hs := RRes.go.inj hs; subst hs
      refine ⟨h1, h2, h3, by simp; omega, ?_⟩
      intro he i hi his
      by_cases hlt : i < got.length
      · rw [List.getElem?_append_left hlt]; exact h5 he i hlt his
      · have : i = got.length := by simp at hi; omega
        subst this; simp
    · split at hs
      · simp at hs
      · have hs := RRes.go.inj hs; subst hs; trivial

/-- a reader that finishes has a prefix of what the cell holds at that moment, unless `seq` wrapped around -/
theorem rstep_done {L s x n : Nat} {c : Cells} {W : Nat → Option (Nat × Entry × WPC)} (hI : CInv L s c W) {p : RPC}
    (h : ROk s c x n p) (hn : n ≤ s) {got : Bytes} {during : Nat} (hs : rstep s x n c p = .done got during)
    (hd : during < 2 ^ 32) : got = (runAll s (writesOf c.log x)).take n ∧ during = 0 := by
  cases p with
  | load1 => rw [rstep] at hs; split at hs <;> simp at hs
  | copy sq ct g =>
    obtain ⟨h1, h2, h3, h4, h5⟩ := h
    rw [rstep] at hs
    split at hs
    · simp at hs
    · rename_i hlen
      split at hs
      · rename_i hseq
        obtain ⟨e1, e2⟩ := RRes.done.inj hs
        subst e1
        have hcnt : c.cnt x = ct := by
          rw [h1, hI.seq x] at hseq
          have := congrArg BitVec.toNat hseq
          rw [BitVec.toNat_ofNat, BitVec.toNat_ofNat] at this
          omega
        have hq := hI.quiet (x := x) (by omega)
        refine ⟨?_, by omega⟩
        rw [← hq.2]
        apply List.ext_getElem?
        intro i
        rw [List.getElem?_take]
        by_cases hi : i < n
        · rw [if_pos hi, h5 hcnt i (by omega) (by omega), bytesOf_getElem? _ _ _ _ (by omega)]
        · rw [if_neg hi, List.getElem?_eq_none (by omega)]
      · simp at hs

end Starbow.Cell
