import Verif.Props.BufmapConc
import Verif.Proof.Bufmap
/-
A goroutine that runs alone does in the concurrent model of bufmap what the sequential model says.
-/
namespace Starbow.BufmapConc
open Starbow.Probe Starbow.Cell Starbow.Spec

/-- goroutine `t` moves, the others do not -/
inductive Alone (l s t : Nat) : State → State → Prop where
  | refl (σ : State) : Alone l s t σ σ
  | head {σ σ' σ'' : State} : step l s σ t = some σ' → Alone l s t σ' σ'' → Alone l s t σ σ''

/-- the shared memory is that of the sequential map -/
structure Same (l s : Nat) (σ : State) (m : Bufmap.Map) : Prop where
  hl : m.l = l
  hs : m.s = s
  klen : m.keys.length = l
  vlen : m.values.length = l * s
  slot : ∀ x, x < l → m.keys.getD x ⟨0, 0, false⟩ = ⟨σ.keys x, σ.cells.seq x, (σ.cells.lock x).isSome⟩
  vals : ∀ j, j < l * s → m.values[j]? = some (σ.cells.vals j)

/-- the function for the concurrent model makes the writes, inside the record, that leave what the one for the sequential model leaves,
and ends alike -/
def FnOf (s : Nat) (cfn : CFn) (fn : Bufmap.Fn) : Prop :=
  ∀ d init, d.length = s → (∀ w ∈ (cfn d init).1, w.1 < s) ∧
    (cfn d init).1.foldl (fun b w => b.set w.1 w.2) d = Bufmap.overwrite d (fn d init).1 ∧
    (cfn d init).2 = (match (fn d init).2 with | .val e => .ret e | .panic => .panic)

/-- what `Update` returns -/
def Ret.err : Ret → Option (Option Err)
  | .ran e => some e
  | .invalidKey => some (some .invalidKey)
  | .outOfSlots => some (some .outOfSlots)
  | .got _ _ _ => none

theorem Alone.trans {l s t : Nat} {a b c : State} (h : Alone l s t a b) (h' : Alone l s t b c) : Alone l s t a c := by
  induction h with
  | refl _ => exact h'
  | head h1 _ ih => exact .head h1 (ih h')

theorem Alone.steps {l s t : Nat} {a b : State} (h : Alone l s t a b) : Steps l s a b := by
  induction h with
  | refl _ => exact .refl _
  | head h1 _ ih => exact Props.BufmapConc.steps_append (.tail (.refl _) (.step _ _ t h1)) ih

theorem upd_upd {α : Type} (f : Nat → α) (i : Nat) (v w : α) : upd (upd f i v) i w = upd f i w := by
  funext j; unfold upd; split <;> rfl
theorem upd_id {α : Type} (f : Nat → α) (i : Nat) (v : α) (h : f i = v) : upd f i v = f := by
  funext j; unfold upd; split
  · rename_i e; rw [e, h]
  · rfl

theorem Same.keyAt {l s : Nat} {σ : State} {m : Bufmap.Map} (h : Same l s σ m) {x : Nat} (hx : x < l) : σ.keys x = m.keyAt x := by
  unfold Bufmap.Map.keyAt; rw [h.slot x hx]

/-- the loop of Update -/
theorem probe_alone {l s t : Nat} (hl : 0 < l) {key : Nat → U64} {id : Nat} {k : U64} {fn : CFn} : ∀ (n i : Nat) (ini : Bool) (σ : State),
    (∀ x, x < l → σ.keys x = key x) → i + (n + 1) = maxReprobe + 1 → σ.pc t = .uProbe id k fn ini (.load i) →
    match claim key l k (n + 1) i ini with
    | .full => Alone l s t σ { σ with pc := upd σ.pc t .idle, rets := σ.rets ++ [(id, .outOfSlots)] }
    | .at x ini' => Alone l s t σ { σ with keys := upd σ.keys x k, pc := upd σ.pc t (.w k x ⟨id, fn, ini'⟩ .lock) } := by
  intro n
  induction n with
  | zero =>
    intro i ini σ hs hi hpc
    have hk := hs _ (pos_lt hl k i)
    rw [claim, claim]
    by_cases h1 : key (pos l k i) = k
    · rw [if_pos h1]
      refine .head (σ' := { σ with pc := upd σ.pc t (.w k (pos l k i) ⟨id, fn, ini⟩ .lock) }) ?_ ?_
      · simp only [step, hpc, probeStep, hk, h1, if_true]
      · rw [upd_id σ.keys _ _ (hk.trans h1)]; exact .refl _
    · rw [if_neg h1]
      by_cases h0 : key (pos l k i) = 0
      · rw [if_pos h0]
        refine .head (σ' := { σ with pc := upd σ.pc t (.uProbe id k fn true (.cas i)) }) ?_ (.head (σ' := { σ with keys := upd σ.keys (pos l k i) k, pc := upd σ.pc t (.w k (pos l k i) ⟨id, fn, true⟩ .lock) }) ?_ (.refl _))
        · have h1' : ¬ (0 : U64) = k := fun e => h1 (h0.trans e)
          simp only [step, hpc, probeStep, hk, h0, if_true, if_neg h1']
        · simp only [step, probeStep, hk, h0, if_true, upd_same, upd_upd]
      · rw [if_neg h0]
        refine .head (σ' := { σ with pc := upd σ.pc t (.uProbe id k fn true (.reload i)) }) ?_ (.head (σ' := { σ with pc := upd σ.pc t .idle, rets := σ.rets ++ [(id, .outOfSlots)] }) ?_ (.refl _))
        · simp only [step, hpc, probeStep, hk, if_neg h1, if_neg h0]
        · simp only [step, probeStep, hk, if_neg h1, upd_same, upd_upd]
          rw [if_pos (by omega)]
  | succ n ih =>
    intro i ini σ hs hi hpc
    have hk := hs _ (pos_lt hl k i)
    rw [claim]
    by_cases h1 : key (pos l k i) = k
    · rw [if_pos h1]
      refine .head (σ' := { σ with pc := upd σ.pc t (.w k (pos l k i) ⟨id, fn, ini⟩ .lock) }) ?_ ?_
      · simp only [step, hpc, probeStep, hk, h1, if_true]
      · rw [upd_id σ.keys _ _ (hk.trans h1)]; exact .refl _
    · rw [if_neg h1]
      by_cases h0 : key (pos l k i) = 0
      · rw [if_pos h0]
        refine .head (σ' := { σ with pc := upd σ.pc t (.uProbe id k fn true (.cas i)) }) ?_ (.head (σ' := { σ with keys := upd σ.keys (pos l k i) k, pc := upd σ.pc t (.w k (pos l k i) ⟨id, fn, true⟩ .lock) }) ?_ (.refl _))
        · have h1' : ¬ (0 : U64) = k := fun e => h1 (h0.trans e)
          simp only [step, hpc, probeStep, hk, h0, if_true, if_neg h1']
        · simp only [step, probeStep, hk, h0, if_true, upd_same, upd_upd]
      · rw [if_neg h0]
        have h2 := ih (i + 1) true { σ with pc := upd σ.pc t (.uProbe id k fn true (.load (i + 1))) } hs (by omega) (upd_same _ _ _)
        have pre : ∀ {σ''}, Alone l s t { σ with pc := upd σ.pc t (.uProbe id k fn true (.load (i + 1))) } σ'' → Alone l s t σ σ'' := by
          intro σ'' ha
          refine .head (σ' := { σ with pc := upd σ.pc t (.uProbe id k fn true (.reload i)) }) ?_ (.head (σ' := { σ with pc := upd σ.pc t (.uProbe id k fn true (.load (i + 1))) }) ?_ ha)
          · simp only [step, hpc, probeStep, hk, if_neg h1, if_neg h0]
          · simp only [step, probeStep, hk, if_neg h1, upd_same, upd_upd]
            rw [if_neg (by omega)]
        cases hc : claim key l k (n + 1) (i + 1) true with
        | full => rw [hc] at h2; simp only [upd_upd] at h2; exact pre h2
        | «at» x ini' => rw [hc] at h2; simp only [upd_upd] at h2; exact pre h2

/-- the loop of Get -/
theorem look_alone {l s t : Nat} (hl : 0 < l) {key : Nat → U64} {id : Nat} {k : U64} {buf : Bytes} : ∀ (n i : Nat) (σ : State),
    (∀ x, x < l → σ.keys x = key x) → i + (n + 1) = maxReprobe + 1 → σ.pc t = .gProbe id k buf i →
    match lookup key l k (n + 1) i with
    | none => Alone l s t σ { σ with pc := upd σ.pc t .idle, rets := σ.rets ++ [(id, .got false buf 0)] }
    | some x => Alone l s t σ { σ with pc := upd σ.pc t (.r id k buf x .load1) } := by
  intro n
  induction n with
  | zero =>
    intro i σ hs hi hpc
    have hk := hs _ (pos_lt hl k i)
    rw [lookup, lookup]
    by_cases h1 : key (pos l k i) = k
    · rw [if_pos h1]
      refine .head ?_ (.refl _)
      simp only [step, hpc, lookStep, hk, h1, if_true]
    · rw [if_neg h1]
      refine .head ?_ (.refl _)
      simp only [step, hpc, lookStep, hk, if_neg h1]
      rw [if_pos (by omega)]
  | succ n ih =>
    intro i σ hs hi hpc
    have hk := hs _ (pos_lt hl k i)
    rw [lookup]
    by_cases h1 : key (pos l k i) = k
    · rw [if_pos h1]
      refine .head ?_ (.refl _)
      simp only [step, hpc, lookStep, hk, h1, if_true]
    · rw [if_neg h1]
      have h2 := ih (i + 1) { σ with pc := upd σ.pc t (.gProbe id k buf (i + 1)) } hs (by omega) (upd_same _ _ _)
      have pre : step l s σ t = some { σ with pc := upd σ.pc t (.gProbe id k buf (i + 1)) } := by
        simp only [step, hpc, lookStep, hk, if_neg h1]
        rw [if_neg (by omega)]
      cases hc : lookup key l k (n + 1) (i + 1) with
      | none => rw [hc] at h2; simp only [upd_upd] at h2; exact .head pre h2
      | some x => rw [hc] at h2; simp only [upd_upd] at h2; exact .head pre h2

/-- the writes of the function -/
theorem run_alone {l s t : Nat} {k : U64} {x : Nat} {e : Entry} {r : FnRes} : ∀ (ws : List (Nat × Byte)) (σ : State),
    (∀ w ∈ ws, w.1 < s) → σ.pc t = .w k x e (.run ws r) →
    ∃ v, Alone l s t σ { σ with cells := { σ.cells with vals := v }, pc := upd σ.pc t (.w k x e (.run [] r)) } ∧
      bytesOf s { σ.cells with vals := v } x = ws.foldl (fun b w => b.set w.1 w.2) (bytesOf s σ.cells x) ∧
      ∀ y, y ≠ x → bytesOf s { σ.cells with vals := v } y = bytesOf s σ.cells y := by
  intro ws
  induction ws with
  | nil =>
    intro σ _ hpc
    refine ⟨σ.cells.vals, ?_, rfl, fun _ _ => rfl⟩
    rw [upd_id _ _ _ hpc]; exact .refl _
  | cons w ws ih =>
    intro σ hw hpc
    obtain ⟨o, b⟩ := w
    have ho : o < s := hw (o, b) (by simp)
    obtain ⟨v, h1, h2, h3⟩ := ih { σ with cells := { σ.cells with vals := upd σ.cells.vals (x * s + o) b }, pc := upd σ.pc t (.w k x e (.run ws r)) }
      (fun w hw' => hw w (by simp [hw'])) (upd_same _ _ _)
    simp only [upd_upd] at h1
    refine ⟨v, .head ?_ h1, ?_, ?_⟩
    · simp only [step, hpc, wstep, if_pos ho]
    · rw [List.foldl_cons]
      simp only at h2
      rw [h2, bytesOf_write_same s σ.cells x o b ho]
    · intro y hy
      have := h3 y hy
      simp only at this
      rw [this, bytesOf_write_other s σ.cells o b ho hy]

theorem bytesOf_congr {s : Nat} {c c' : Cells} (h : c'.vals = c.vals) (x : Nat) : bytesOf s c' x = bytesOf s c x := by
  unfold bytesOf; rw [h]

/-- the critical section, up to the end of the function -/
theorem enter_alone {l s t : Nat} {k : U64} {x : Nat} {e : Entry} {σ : State} (hpc : σ.pc t = .w k x e .lock) (hlk : σ.cells.lock x = none)
    (hws : ∀ w ∈ (e.fn (bytesOf s σ.cells x) e.init).1, w.1 < s) :
    ∃ c, Alone l s t σ { σ with cells := c, pc := upd σ.pc t (.w k x e (.run [] (e.fn (bytesOf s σ.cells x) e.init).2)) } ∧
      c.seq = upd σ.cells.seq x (σ.cells.seq x + 1) ∧ c.lock = upd σ.cells.lock x (some t) ∧ c.log = σ.cells.log ∧
      bytesOf s c x = runAlone (bytesOf s σ.cells x) e ∧ ∀ y, y ≠ x → bytesOf s c y = bytesOf s σ.cells y := by
  obtain ⟨v, h1, h2, h3⟩ := run_alone (l := l) (s := s) (t := t) (k := k) (x := x) (e := e)
    (r := (e.fn (bytesOf s σ.cells x) e.init).2) (e.fn (bytesOf s σ.cells x) e.init).1
    { σ with cells := { σ.cells with lock := upd σ.cells.lock x (some t), seq := upd σ.cells.seq x (σ.cells.seq x + 1),
                                     cnt := upd σ.cells.cnt x (σ.cells.cnt x + 1) },
             pc := upd σ.pc t (.w k x e (.run (e.fn (bytesOf s σ.cells x) e.init).1 (e.fn (bytesOf s σ.cells x) e.init).2)) }
    hws (upd_same _ _ _)
  simp only [upd_upd] at h1
  refine ⟨_, .head (σ' := { σ with cells := { σ.cells with lock := upd σ.cells.lock x (some t) }, pc := upd σ.pc t (.w k x e .add1) }) ?_
    (.head ?_ h1), rfl, rfl, rfl, h2, h3⟩
  · simp only [step, hpc, wstep, if_pos hlk]
  · simp only [step, upd_same, wstep, upd_upd]
    rfl

/-- the critical section when the function returns -/
theorem write_alone {l s t : Nat} {k : U64} {x : Nat} {e : Entry} {σ : State} (hpc : σ.pc t = .w k x e .lock) (hlk : σ.cells.lock x = none)
    (hws : ∀ w ∈ (e.fn (bytesOf s σ.cells x) e.init).1, w.1 < s) {err : Option Err}
    (hr : (e.fn (bytesOf s σ.cells x) e.init).2 = .ret err) :
    ∃ c, Alone l s t σ { σ with cells := c, pc := upd σ.pc t .idle, rets := σ.rets ++ [(e.id, .ran err)] } ∧
      c.seq = upd σ.cells.seq x (σ.cells.seq x + 2) ∧ c.lock = σ.cells.lock ∧ c.log = σ.cells.log ++ [(x, e)] ∧
      bytesOf s c x = runAlone (bytesOf s σ.cells x) e ∧ ∀ y, y ≠ x → bytesOf s c y = bytesOf s σ.cells y := by
  obtain ⟨c, h1, h2, h3, h4, h5, h6⟩ := enter_alone (l := l) hpc hlk hws
  rw [hr] at h1
  refine ⟨{ c with seq := upd c.seq x (c.seq x + 1), cnt := upd c.cnt x (c.cnt x + 1), log := c.log ++ [(x, e)], lock := upd c.lock x none },
    h1.trans (.head (σ' := { σ with cells := c, pc := upd σ.pc t (.w k x e (.add2 err)) }) ?_
      (.head (σ' := { σ with cells := { c with seq := upd c.seq x (c.seq x + 1), cnt := upd c.cnt x (c.cnt x + 1), log := c.log ++ [(x, e)] },
                             pc := upd σ.pc t (.w k x e (.unlock err)) }) ?_ (.head ?_ (.refl _)))), ?_, ?_, ?_, ?_, ?_⟩
  · simp only [step, upd_same, wstep, upd_upd]
  · simp only [step, upd_same, wstep, upd_upd]
  · simp only [step, upd_same, wstep, upd_upd]
  · simp only [h2, upd_same, upd_upd]
    congr 1
    rw [BitVec.add_assoc]; rfl
  · simp only [h3, upd_upd]
    exact upd_id _ _ _ hlk
  · simp only [h4]
  · exact h5
  · exact h6

/-- copying -/
theorem copy_alone {l s t : Nat} {id : Nat} {k : U64} {buf : Bytes} {x : Nat} {sq : BitVec 32} {ct : Nat} : ∀ (n : Nat) (got : Bytes) (σ : State),
    got.length + n = min buf.length x → σ.pc t = .r id k buf x (.copy sq ct got) →
    Alone l s t σ { σ with pc := upd σ.pc t (.r id k buf x (.copy sq ct
      (got ++ (List.range n).map fun j => σ.cells.vals (x * s + (got.length + j))))) } := by
  intro n
  induction n with
  | zero =>
    intro got σ _ hpc
    simp only [List.range_zero, List.map_nil, List.append_nil]
    rw [upd_id _ _ _ hpc]; exact .refl _
  | succ n ih =>
    intro got σ hn hpc
    have h1 := ih (got ++ [σ.cells.vals (x * s + got.length)])
      { σ with pc := upd σ.pc t (.r id k buf x (.copy sq ct (got ++ [σ.cells.vals (x * s + got.length)]))) }
      (by simp; omega) (upd_same _ _ _)
    simp only [upd_upd] at h1
    have e : got ++ [σ.cells.vals (x * s + got.length)] ++ (List.range n).map
          (fun j => σ.cells.vals (x * s + ((got ++ [σ.cells.vals (x * s + got.length)]).length + j))) =
        got ++ (List.range (n + 1)).map fun j => σ.cells.vals (x * s + (got.length + j)) := by
      rw [List.range_succ_eq_map, List.map_cons, List.map_map, List.append_assoc]
      congr 1
      simp only [List.length_append, List.length_singleton, List.singleton_append, Nat.add_zero]
      congr 1
      apply List.map_congr_left
      intro j _
      simp only [Function.comp]
      congr 1
      omega
    rw [e] at h1
    refine .head ?_ h1
    have : ¬ (RPC.copy sq ct got = RPC.load1 ∧ (σ.cells.seq x).toNat % 2 = 0 ∧ l * s < x * (s + 1)) := by simp
    simp only [step, hpc, if_neg this, rstep]
    rw [if_pos (by omega)]

/-- pointwise and record-wise agreement of the memories -/
theorem same_bytes {l s : Nat} {v : Bytes} (hv : v.length = l * s) {c : Cells} :
    (∀ j, j < l * s → v[j]? = some (c.vals j)) ↔ ∀ y, y < l → slice v (y * s) ((y + 1) * s) = bytesOf s c y := by
  constructor
  · intro h y hy
    have hle : y * s + s ≤ l * s := Bufmap.mul_add_le hy
    apply List.ext_getElem?
    intro i
    rw [slice_getElem?]
    by_cases hi : i < s
    · rw [bytesOf_getElem? _ _ _ _ hi, if_pos (by rw [Nat.succ_mul]; omega), h _ (by omega)]
    · rw [if_neg (by rw [Nat.succ_mul]; omega), List.getElem?_eq_none (by rw [bytesOf_length]; omega)]
  · intro h j hj
    have hs : 0 < s := by
      rcases Nat.eq_zero_or_pos s with rfl | h
      · simp at hj
      · exact h
    have hy : j / s < l := by rw [Nat.div_lt_iff_lt_mul hs]; exact hj
    have := congrArg (·[j % s]?) (h _ hy)
    rw [slice_getElem?, bytesOf_getElem? _ _ _ _ (Nat.mod_lt _ hs), if_pos (by rw [Nat.succ_mul]; have := Nat.mod_lt j hs; omega)] at this
    have e : j / s * s + j % s = j := by rw [Nat.mul_comm]; exact Nat.div_add_mod j s
    rw [e] at this
    exact this

end Starbow.BufmapConc
