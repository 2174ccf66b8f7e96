import Verif.Proof.StoreAlone
import Verif.Props.Record
/- Statistics of serial orders of writes in the concurrent store. -/
namespace Starbow.StoreConc
open Starbow Starbow.Collation Starbow.BufmapConc Starbow.Cell Starbow.Spec Starbow.Probe

/-- every served row was accepted -/
def Accepted (lib : Lib) (c : Collator) (ws : List Served) : Prop :=
  ∀ a w b, ws = a ++ w :: b → (Collation.update lib c w.row (servedRecord lib c a) w.new).2 = .val none

theorem nodup_split {α β : Type} (f : α → β) : ∀ (a a' : List α) (b b' : List α) (x x' : α), ((a ++ x :: b).map f).Nodup →
    a ++ x :: b = a' ++ x' :: b' → f x = f x' → a = a' ∧ x = x' := by
  intro a
  induction a with
  | nil =>
    intro a' b b' x x' hn he hf
    cases a' with
    | nil => simp at he; exact ⟨rfl, he.1⟩
    | cons y a' =>
      exfalso
      simp only [List.nil_append, List.cons_append, List.cons.injEq] at he
      obtain ⟨rfl, rfl⟩ := he
      simp only [List.nil_append, List.map_cons, List.map_append, List.nodup_cons] at hn
      exact hn.1 (by rw [hf]; simp)
  | cons y a ih =>
    intro a' b b' x x' hn he hf
    cases a' with
    | nil =>
      exfalso
      simp only [List.nil_append, List.cons_append, List.cons.injEq] at he
      obtain ⟨rfl, rfl⟩ := he
      simp only [List.cons_append, List.map_cons, List.map_append, List.nodup_cons] at hn
      exact hn.1 (by rw [← hf]; simp)
    | cons z a' =>
      simp only [List.cons_append, List.cons.injEq] at he
      obtain ⟨rfl, he⟩ := he
      simp only [List.cons_append, List.map_cons, List.nodup_cons] at hn
      obtain ⟨h1, h2⟩ := ih a' b b' x x' hn.2 he hf
      exact ⟨by rw [h1], h2⟩

/-- what the log says of a call that returned -/
theorem ran_entry {lib : Lib} {c : Collator} {l : Nat} (hl : 0 < l) {σ : State} (hr : Steps lib c l init σ) {x : Nat}
    {es rest : List Entry} {e : Entry} (hes : writesOf σ.m.cells.log x = es ++ e :: rest) {err : Option Err}
    (hret : (e.id, Ret.ran err) ∈ σ.m.rets) : (e.fn (runAll c.size.toNat es) e.init).2 = .ret err := by
  have h := inv_reach hl (steps_m hr)
  obtain ⟨x', e', es', rest', hid, hx', hes', hok⟩ := h.rok _ _ hret
  have hm : (x, e) ∈ σ.m.cells.log := Props.BufmapConc.mem_writesOf.mp (by rw [hes]; simp)
  have hm' : (x', e') ∈ σ.m.cells.log := Props.BufmapConc.mem_writesOf.mp (by rw [hes']; simp)
  have hnd := h.lg.nodup
  unfold logIds at hnd
  have heq : (x, e) = (x', e') := by
    obtain ⟨u, v, huv⟩ := List.append_of_mem hm
    obtain ⟨u', v', huv'⟩ := List.append_of_mem hm'
    rw [huv] at hnd
    exact (nodup_split _ u u' v v' _ _ hnd (huv.symm.trans huv') hid.symm).2
  obtain ⟨rfl, rfl⟩ := Prod.mk.inj heq
  have hn := Props.BufmapConc.writesOf_nodup h.lg.nodup x
  rw [hes] at hn
  rw [hes] at hes'
  obtain ⟨h1, _⟩ := nodup_split (·.id) es es' rest rest' e e hn hes' rfl
  rw [h1]; exact hok

/-- if all writes started by `σ` are accepted in the end then the serial order consists of accepted writes -/
theorem accepted_log {lib : Lib} {c : Collator} {l : Nat} (hl : 0 < l) {σ σ₂ : State} (hr : Steps lib c l init σ) (h2 : Steps lib c l σ σ₂)
    {k : U64} {x : Nat} (hkx : σ.m.keys x = k) (hacc : ∀ i ∈ startedWrites c.keys k σ, (i, Ret.ran none) ∈ σ₂.m.rets) :
    Accepted lib c ((writesOf σ.m.cells.log x).map (servedOf σ)) := by
  intro a w b hab
  have hlog := log_served hl hr hkx
  obtain ⟨es, es2, hes, ha, hb⟩ := List.map_eq_append_iff.1 hab
  obtain ⟨e, rest, hes2, hw, hb⟩ := List.map_eq_cons_iff.1 hb
  subst ha
  subst hw
  subst hes2
  have he := hlog e (by rw [hes]; simp)
  have hid := hacc e.id (mem_started.2 ⟨_, he.1⟩)
  obtain ⟨_, _, ⟨more, hm⟩, _⟩ := Props.BufmapConc.steps_mono hl (inv_reach hl (steps_m hr)) (steps_m h2)
  have hes' : writesOf σ₂.m.cells.log x = es ++ e :: (rest ++ writesOf more x) := by
    rw [hm, writesOf_append, hes]; simp
  have hok := ran_entry hl (hr.trans h2) hes' hid
  have hrun : runAll c.size.toNat es = servedRecord lib c (es.map (servedOf σ)) :=
    runAll_served _ fun e' he' => (hlog e' (by rw [hes]; simp [he'])).2
  have hp := (he.2 _ e.init (runAll_length c.size.toNat es)).2.2
  rw [hok, hrun] at hp
  show (Collation.update lib c (rowAt σ e.id) (servedRecord lib c (es.map (servedOf σ))) e.init).2 = .val none
  unfold ending at hp
  split at hp
  · next e' he' => injection hp with hp; rw [he', hp]
  · simp at hp

theorem Accepted.init {lib : Lib} {c : Collator} {ws : List Served} {w : Served} (h : Accepted lib c (ws ++ [w])) : Accepted lib c ws := by
  intro a v b hab
  exact h a v (b ++ [w]) (by rw [hab]; simp)

theorem Accepted.last {lib : Lib} {c : Collator} {ws : List Served} {w : Served} (h : Accepted lib c (ws ++ [w])) :
    (Collation.update lib c w.row (servedRecord lib c ws) w.new).2 = .val none := h ws w [] rfl

theorem servedRecord_length (lib : Lib) (c : Collator) (ws : List Served) : (servedRecord lib c ws).length = c.size.toNat := by
  induction ws using List.reverseRecOn with
  | nil => simp [servedRecord, blank]
  | append_singleton ws w ih => rw [servedRecord_snoc, update_len, ih]

section
variable {b : Building} {L : List (Owner × Collation.Cell)} {D : List (Bytes × Measure)}

/-- the bytes of a summary -/
theorem stat_served (lib : Lib) (h : Laid b L D) {f : Bytes} {v : Collation.Cell} (hv : (Owner.cont f, v) ∈ L) (hs : v.m.stat = true)
    (ws : List Served) (ha : Accepted lib b.coll ws) :
    slice (servedRecord lib b.coll ws) v.low.toNat v.high.toNat =
      (numbersOf lib f (ws.map Served.row)).foldl (fun d x => (statWriter d x).1) (List.replicate v.m.size.toNat 0#8) := by
  induction ws using List.reverseRecOn with
  | nil => exact blank_slice h hv
  | append_singleton ws w ih =>
    have hu : Collation.update lib b.coll w.row (servedRecord lib b.coll ws) w.new =
        ((Collation.update lib b.coll w.row (servedRecord lib b.coll ws) w.new).1, .val none) := Prod.ext rfl ha.last
    obtain ⟨_, h2⟩ := row_effect lib h hv w.new w.row _ _ (servedRecord_length lib _ ws) hu
    rw [servedRecord_snoc, h2, ih ha.init, fold_cont, Props.foldl_stat hs]
    rw [List.map_append, List.map_singleton]
    unfold rowEff
    simp only
    rw [← List.foldl_append]
    congr 1
    unfold numbersOf valuesOf
    rw [List.flatMap_append, List.filterMap_append, List.filterMap_append]
    simp

end

theorem applyRows_snoc (lib : Lib) (c : Collator) (r : Row) (rows : List Row) : ∀ (buf b1 b2 : Bytes) (i : Bool),
    applyRows lib c buf i rows = (b1, .val none) → Collation.update lib c r b1 (i && rows.isEmpty) = (b2, .val none) →
    applyRows lib c buf i (rows ++ [r]) = (b2, .val none) := by
  induction rows with
  | nil =>
    intro buf b1 b2 i h hu
    simp only [applyRows, Prod.mk.injEq] at h
    obtain ⟨rfl, _⟩ := h
    rw [List.isEmpty_nil, Bool.and_true] at hu
    rw [List.nil_append, applyRows, hu]
    rfl
  | cons r' rows ih =>
    intro buf b1 b2 i h hu
    rcases hb : Collation.update lib c r' buf i with ⟨b, e⟩
    rw [applyRows, hb] at h
    rw [List.cons_append, applyRows, hb]
    rcases e with (_ | e) | _
    · exact ih b b1 b2 false h (by simpa using hu)
    · simp at h
    · simp at h

/-- a serial order in which the first write, and no other, is told that the record is new -/
theorem recordOf_served (lib : Lib) (c : Collator) (w : Served) (ws : List Served) (hw : w.new = true) (hws : ∀ v ∈ ws, v.new = false)
    (ha : Accepted lib c (w :: ws)) : RecordOf lib c ((w :: ws).map Served.row) (servedRecord lib c (w :: ws)) := by
  unfold RecordOf
  induction ws using List.reverseRecOn with
  | nil =>
    have := ha [] w [] rfl
    rw [List.map_singleton, applyRows]
    rw [hw] at this
    have hu : Collation.update lib c w.row (blank c) true = ((Collation.update lib c w.row (blank c) true).1, .val none) := Prod.ext rfl this
    rw [hu]
    simp only [applyRows]
    rw [show servedRecord lib c [w] = (Collation.update lib c w.row (blank c) w.new).1 from rfl, hw]
  | append_singleton ws v ih =>
    have ih := ih (fun u hu => hws u (by simp [hu])) (by rw [← List.cons_append] at ha; exact ha.init)
    have hl := ha (w :: ws) v [] (by simp)
    rw [hws v (by simp)] at hl
    have hu : Collation.update lib c v.row (servedRecord lib c (w :: ws)) false =
      ((Collation.update lib c v.row (servedRecord lib c (w :: ws)) false).1, .val none) := Prod.ext rfl hl
    rw [← List.cons_append, List.map_append, List.map_singleton, servedRecord_snoc, hws v (by simp)]
    exact applyRows_snoc lib c v.row _ _ _ _ _ ih (by rw [List.map_cons, List.isEmpty_cons, Bool.and_false]; exact hu)

end Starbow.StoreConc
