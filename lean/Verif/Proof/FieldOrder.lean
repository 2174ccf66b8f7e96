import Verif.Proof.Store
import Mathlib.Data.List.Flatten
/-
The order of the fields in an accepted observation makes no difference to the record.
-/
namespace Starbow.Collation
open Starbow Starbow.Spec

/-- a range of bytes and what is done to it -/
abbrev Job := Cell × (Bytes → Wrote)

/-- as a writer -/
def Job.run (j : Job) (buf : Bytes) : Wrote := j.1.write buf j.2

/-- the ranges do not overlap -/
def Apart (p q : Job) : Prop := p.1.high ≤ q.1.low ∨ q.1.high ≤ p.1.low

/-- within the record, and keeping its length -/
def Job.Ok (n : Nat) (j : Job) : Prop := InRec n j.1 ∧ ∀ d, (j.2 d).1.length = d.length

theorem splice_comm (b d e : Bytes) (i j : Nat) (hi : i + d.length ≤ b.length) (hj : j + e.length ≤ b.length)
    (h : i + d.length ≤ j ∨ j + e.length ≤ i) : splice (splice b i d) j e = splice (splice b j e) i d := by
  apply List.ext_getElem?
  intro m
  unfold splice
  simp only [List.getElem?_append, List.getElem?_take, List.getElem?_drop, List.length_append, List.length_take, List.length_drop]
  grind

theorem run_swap {n : Nat} {p q : Job} (hp : p.Ok n) (hq : q.Ok n) (hap : Apart p q) {buf b1 b2 : Bytes} (hl : buf.length = n)
    (h1 : p.run buf = (b1, .val none)) (h2 : q.run b1 = (b2, .val none)) :
    ∃ b1', q.run buf = (b1', .val none) ∧ p.run b1' = (b2, .val none) := by
  obtain ⟨⟨p1, p2, p3⟩, p4⟩ := hp
  obtain ⟨⟨q1, q2, q3⟩, q4⟩ := hq
  have ip : InRec n p.1 := ⟨p1, p2, p3⟩
  have iq : InRec n q.1 := ⟨q1, q2, q3⟩
  unfold Job.run at h1 h2 ⊢
  obtain ⟨a1, a2, a3⟩ := write_slices ip hl p.2 p4
  have a3 := a3 q.1 iq (by rcases hap with h | h <;> omega)
  rw [h1] at a1 a3
  rw [write_eq ip hl] at h1
  simp only at a1 a3
  rw [write_eq iq a1, a3] at h2
  simp only [Prod.mk.injEq] at h1 h2
  obtain ⟨h11, h12⟩ := h1
  obtain ⟨h21, h22⟩ := h2
  obtain ⟨c1, c2, c3⟩ := write_slices iq hl q.2 q4
  have c3 := c3 p.1 ip (by rcases hap with h | h <;> omega)
  refine ⟨(q.1.write buf q.2).1, ?_, ?_⟩
  · rw [write_eq iq hl]; simp only [Prod.mk.injEq, true_and]; exact h22
  · rw [write_eq ip c1, c3]
    simp only [Prod.mk.injEq]
    refine ⟨?_, h12⟩
    rw [write_eq iq hl, ← h21, ← h11]
    have l1 := p4 (slice buf p.1.low.toNat p.1.high.toNat)
    have l2 := q4 (slice buf q.1.low.toNat q.1.high.toNat)
    rw [slice_len ip hl] at l1
    rw [slice_len iq hl] at l2
    apply splice_comm
    · omega
    · omega
    · rcases hap with h | h <;> omega

theorem run_cons {p : Bytes → Wrote} {ws : List (Bytes → Wrote)} {buf b : Bytes} :
    runWriters buf (p :: ws) = (b, .val none) ↔ ∃ b1, p buf = (b1, .val none) ∧ runWriters b1 ws = (b, .val none) := by
  rw [runWriters]
  rcases p buf with ⟨b1, r⟩
  rcases r with (r | r) | _
  · simp
  · simp
  · simp

/-- the same values for each field, in the same order -/
def SameOrder (a c : List FV) : Prop := ∀ f, (a.filter fun fv => fv.f = f) = c.filter fun fv => fv.f = f

theorem sameOrder_nil {c : List FV} (h : SameOrder [] c) : c = [] := by
  cases c with
  | nil => rfl
  | cons x c =>
    have := h x.f
    simp at this

theorem sameOrder_cons {x : FV} {a c : List FV} (h : SameOrder (x :: a) c) :
    ∃ pre post, c = pre ++ x :: post ∧ (∀ y ∈ pre, y.f ≠ x.f) ∧ SameOrder a (pre ++ post) := by
  have hx := h x.f
  rw [List.filter_cons, if_pos (by simp)] at hx
  obtain ⟨pre, post, rfl, h1, -, h2⟩ := List.filter_eq_cons_iff.1 hx.symm
  have h1 : ∀ y ∈ pre, y.f ≠ x.f := fun y hy => by simpa using h1 y hy
  refine ⟨pre, post, rfl, h1, ?_⟩
  intro f
  have hf := h f
  rw [List.filter_append, List.filter_cons, List.filter_cons] at hf
  rw [List.filter_append]
  by_cases e : x.f = f
  · subst e
    have hp : (pre.filter fun fv => fv.f = x.f) = [] := List.filter_eq_nil_iff.2 fun y hy => by simpa using h1 y hy
    rw [hp, if_pos (by simp), if_pos (by simp), List.nil_append] at hf
    rw [hp, List.nil_append]
    exact (List.cons.inj hf).2
  · rw [if_neg (by simpa using e), if_neg (by simpa using e)] at hf
    exact hf

theorem sameOrder_mem {a c : List FV} (h : SameOrder a c) {x : FV} (hx : x ∈ c) : x ∈ a := by
  have : x ∈ c.filter fun fv => fv.f = x.f := List.mem_filter.2 ⟨hx, by simp⟩
  rw [← h x.f] at this
  exact (List.mem_filter.1 this).1

/-- each field once, in any order: in particular so -/
theorem sameOrder_perm {a c : List FV} (hp : a.Perm c) (hn : (a.map FV.f).Nodup) : SameOrder a c := by
  intro f
  have h1 : ∀ {d : List FV}, (d.map FV.f).Nodup → (d.filter fun fv => fv.f = f).length ≤ 1 := by
    intro d hd
    have : (((d.filter fun fv => fv.f = f).map FV.f)).Nodup := hd.sublist (List.filter_sublist.map _)
    have hall : ∀ z ∈ (d.filter fun fv => fv.f = f).map FV.f, z = f := by
      intro z hz
      obtain ⟨y, hy, rfl⟩ := List.mem_map.1 hz
      simpa using (List.mem_filter.1 hy).2
    rw [← List.length_map (f := FV.f)]
    match hm : (d.filter fun fv => fv.f = f).map FV.f with
    | [] => rw [hm]; simp
    | [_] => rw [hm]; simp
    | u :: v :: w =>
      rw [hm] at this hall
      rw [hall u (by simp), hall v (by simp)] at this
      simp at this
  have hpf := hp.filter fun fv => decide (fv.f = f)
  have l1 := h1 hn
  match hm : a.filter fun fv => fv.f = f with
  | [] => rw [hm] at hpf ⊢; exact hpf.nil_eq
  | [u] => rw [hm] at hpf ⊢; exact (List.perm_singleton.1 hpf.symm).symm
  | u :: v :: w => rw [hm] at l1; simp at l1

theorem run_append {A B : List (Bytes → Wrote)} {buf b : Bytes} :
    runWriters buf (A ++ B) = (b, .val none) ↔ ∃ b1, runWriters buf A = (b1, .val none) ∧ runWriters b1 B = (b, .val none) := by
  rw [runWriters_append]
  rcases runWriters buf A with ⟨b1, r⟩
  rcases r with (r | r) | _
  · simp
  · simp
  · simp

theorem run_length {n : Nat} : ∀ {A : List Job}, (∀ p ∈ A, p.Ok n) → ∀ {buf b : Bytes}, buf.length = n →
    runWriters buf (A.map Job.run) = (b, .val none) → b.length = n
  | [], _, buf, b, hl, e => by
    simp only [List.map_nil, runWriters, Prod.mk.injEq] at e; rw [← e.1]; exact hl
  | p :: A, hok, buf, b, hl, e => by
    rw [List.map_cons, run_cons] at e
    obtain ⟨b1, e1, e2⟩ := e
    have hp := hok p (by simp)
    have := (write_slices hp.1 hl p.2 hp.2).1
    unfold Job.run at e1
    rw [e1] at this
    exact run_length (fun q hq => hok q (by simp [hq])) this e2

/-- one job and then others, on other ranges, can be done the other way round -/
theorem run_past {n : Nat} {p : Job} (hp : p.Ok n) : ∀ {B : List Job}, (∀ q ∈ B, q.Ok n) → (∀ q ∈ B, Apart p q) → ∀ {buf b : Bytes}, buf.length = n →
    runWriters buf (p.run :: B.map Job.run) = (b, .val none) → runWriters buf (B.map Job.run ++ [p.run]) = (b, .val none)
  | [], _, _, buf, b, _, e => e
  | q :: B, hB, hap, buf, b, hl, e => by
    rw [List.map_cons, run_cons] at e
    obtain ⟨b1, e1, e2⟩ := e
    rw [run_cons] at e2
    obtain ⟨b2, e2, e3⟩ := e2
    obtain ⟨b1', f1, f2⟩ := run_swap hp (hB q (by simp)) (hap q (by simp)) hl e1 e2
    rw [List.map_cons, List.cons_append, run_cons]
    refine ⟨b1', f1, run_past hp (fun q h => hB q (by simp [h])) (fun q h => hap q (by simp [h])) ?_ (run_cons.2 ⟨b2, f2, e3⟩)⟩
    exact run_length (A := [q]) (fun q' h => by rw [List.mem_singleton.1 h]; exact hB q (by simp)) hl
      (show runWriters buf [q.run] = _ from run_cons.2 ⟨b1', f1, rfl⟩)

theorem run_blocks {n : Nat} : ∀ {A B : List Job}, (∀ p ∈ A, p.Ok n) → (∀ q ∈ B, q.Ok n) → (∀ p ∈ A, ∀ q ∈ B, Apart p q) → ∀ {buf b : Bytes}, buf.length = n →
    runWriters buf (A.map Job.run ++ B.map Job.run) = (b, .val none) → runWriters buf ((B.map Job.run) ++ A.map Job.run) = (b, .val none)
  | [], B, _, _, _, buf, b, _, e => by simpa using e
  | p :: A, B, hA, hB, hap, buf, b, hl, e => by
    rw [List.map_cons, List.cons_append, run_cons] at e
    obtain ⟨b1, e1, e2⟩ := e
    have hl1 : b1.length = n := run_length (A := [p]) (fun q h => by rw [List.mem_singleton.1 h]; exact hA p (by simp)) hl
      (show runWriters buf [p.run] = _ from run_cons.2 ⟨b1, e1, rfl⟩)
    have ih := run_blocks (fun q h => hA q (by simp [h])) hB (fun q h => hap q (by simp [h])) hl1 e2
    rw [run_append] at ih
    obtain ⟨b2, i1, i2⟩ := ih
    have := run_past (hA p (by simp)) hB (hap p (by simp)) hl (run_cons.2 ⟨b1, e1, i1⟩)
    rw [run_append] at this
    obtain ⟨b3, j1, j2⟩ := this
    rw [run_cons] at j2
    obtain ⟨b4, j2, j3⟩ := j2
    rw [runWriters, Prod.mk.injEq] at j3
    rw [run_append]
    refine ⟨b3, j1, ?_⟩
    rw [List.map_cons, run_cons]
    exact ⟨b2, by rw [j2, j3.1], i2⟩

section
variable {b : Building} {L : List (Owner × Cell)} {D : List (Bytes × Measure)}

/-- the jobs of one field whose value parses to `x` -/
def jobsOf (lib : Lib) (L : List (Owner × Cell)) (init : Bool) (fv : FV) : List Job :=
  ((cells L (.cont fv.f)).map fun w => (w, fun d => contWriterFn w.m d init ((lib.parseFloat fv.v).getD .nan))) ++
    (cells L (.disc fv.f)).map fun w => (w, fun d => discWriterFn w.m d init fv.v)

/-- the value is a number if one is wanted -/
def Numeric (lib : Lib) (L : List (Owner × Cell)) (fv : FV) : Prop := cells L (.cont fv.f) ≠ [] → (lib.parseFloat fv.v).isSome = true

theorem fieldWriters_jobs (lib : Lib) (h : Laid b L D) (init : Bool) (fv : FV) (hn : Numeric lib L fv) :
    fieldWriters lib b.coll init fv = (jobsOf lib L init fv).map Job.run := by
  unfold fieldWriters jobsOf
  rw [h.cont, h.disc, List.map_append, List.map_map, List.map_map]
  congr 1
  · unfold toOpt
    by_cases hl : cells L (.cont fv.f) = []
    · rw [if_pos hl, hl]; rfl
    · rw [if_neg hl, contWriters]
      obtain ⟨x, hx⟩ := Option.isSome_iff_exists.1 (hn hl)
      rw [hx]
      rfl
  · unfold toOpt
    by_cases hl : cells L (.disc fv.f) = []
    · rw [if_pos hl, hl]; rfl
    · rw [if_neg hl]; rfl

theorem accepted_numeric (lib : Lib) (h : Laid b L D) (init : Bool) : ∀ (data : List FV) (buf b' : Bytes),
    runWriters buf (data.flatMap (fieldWriters lib b.coll init)) = (b', .val none) → ∀ fv ∈ data, Numeric lib L fv
  | [], _, _, _, fv, hfv => by simp at hfv
  | fv :: data, buf, b', e, fv', hfv' => by
    rw [List.flatMap_cons, runWriters_append] at e
    rcases e1 : runWriters buf (fieldWriters lib b.coll init fv) with ⟨b1, r⟩
    rw [e1] at e
    rcases r with (r | r) | _
    · rcases List.mem_cons.1 hfv' with rfl | hm
      · intro hl
        unfold fieldWriters at e1
        rw [h.cont, toOpt, if_neg hl, contWriters] at e1
        cases hp : lib.parseFloat fv'.v with
        | none => rw [hp] at e1; simp [runWriters] at e1
        | some x => rfl
      · exact accepted_numeric lib h init data b1 b' e fv' hm
    · simp at e
    · simp at e

theorem jobs_ok (lib : Lib) (h : Laid b L D) (init : Bool) (fv : FV) : ∀ p ∈ jobsOf lib L init fv, Job.Ok b.coll.size.toNat p := by
  intro p hp
  rcases List.mem_append.1 hp with hp | hp
  · obtain ⟨w, hw, rfl⟩ := List.mem_map.1 hp
    exact ⟨inRec h (mem_cells.1 hw), fun d => contWriterFn_length _ _ _ _⟩
  · obtain ⟨w, hw, rfl⟩ := List.mem_map.1 hp
    exact ⟨inRec h (mem_cells.1 hw), fun d => discWriterFn_length _ _ _ _⟩

/-- jobs belong to cells of the field -/
theorem jobs_owner (lib : Lib) (init : Bool) (fv : FV) {p : Job} (hp : p ∈ jobsOf lib L init fv) :
    ∃ o, (o = .cont fv.f ∨ o = .disc fv.f) ∧ (o, p.1) ∈ L := by
  rcases List.mem_append.1 hp with hp | hp
  · obtain ⟨w, hw, rfl⟩ := List.mem_map.1 hp
    exact ⟨_, .inl rfl, mem_cells.1 hw⟩
  · obtain ⟨w, hw, rfl⟩ := List.mem_map.1 hp
    exact ⟨_, .inr rfl, mem_cells.1 hw⟩

theorem cells_apart (h : Laid b L D) (o : Owner) : (cells L o).Pairwise fun v w => v.high ≤ w.low := by
  unfold cells
  rw [List.pairwise_map]
  exact h.apart.filter _

theorem jobs_apart (lib : Lib) (h : Laid b L D) (init : Bool) (fv : FV) : (jobsOf lib L init fv).Pairwise Apart := by
  unfold jobsOf
  rw [List.pairwise_append, List.pairwise_map, List.pairwise_map]
  refine ⟨(cells_apart h _).imp fun hh => .inl hh, (cells_apart h _).imp fun hh => .inl hh, ?_⟩
  intro p hp q hq
  obtain ⟨v, hv, rfl⟩ := List.mem_map.1 hp
  obtain ⟨w, hw, rfl⟩ := List.mem_map.1 hq
  exact apart h (mem_cells.1 hv) (mem_cells.1 hw) (by simp)

theorem jobs_cross (lib : Lib) (h : Laid b L D) (init : Bool) {x y : FV} (hxy : x.f ≠ y.f) :
    ∀ p ∈ jobsOf lib L init x, ∀ q ∈ jobsOf lib L init y, Apart p q := by
  intro p hp q hq
  obtain ⟨o, ho, hp⟩ := jobs_owner lib init x hp
  obtain ⟨o', ho', hq⟩ := jobs_owner lib init y hq
  refine apart h hp hq ?_
  rintro e
  simp only [Prod.mk.injEq] at e
  rcases ho with rfl | rfl <;> rcases ho' with rfl | rfl <;> simp at e <;> exact hxy e.1

/-- the fields of a row may be put in any order that keeps the order of the values of each field -/
theorem data_reorder (lib : Lib) (h : Laid b L D) (init : Bool) : ∀ (a c : List FV), SameOrder a c → ∀ buf b', buf.length = b.coll.size.toNat →
    runWriters buf ((a.flatMap (jobsOf lib L init)).map Job.run) = (b', .val none) →
    runWriters buf ((c.flatMap (jobsOf lib L init)).map Job.run) = (b', .val none)
  | [], c, hs, buf, b', _, e => by
    rw [sameOrder_nil hs]; exact e
  | x :: a, c, hs, buf, b', hl, e => by
    obtain ⟨pre, post, rfl, hpre, hs'⟩ := sameOrder_cons hs
    rw [List.flatMap_cons, List.map_append, run_append] at e
    obtain ⟨b1, e1, e2⟩ := e
    have ih := data_reorder lib h init a (pre ++ post) hs' b1 b' (run_length (jobs_ok lib h init x) hl e1) e2
    rw [List.flatMap_append, List.map_append, run_append] at ih
    obtain ⟨b2, i1, i2⟩ := ih
    have hsw := run_blocks (n := b.coll.size.toNat) (A := jobsOf lib L init x) (B := pre.flatMap (jobsOf lib L init)) (jobs_ok lib h init x) (by
        intro p hp
        obtain ⟨fv, _, hp⟩ := List.mem_flatMap.1 hp
        exact jobs_ok lib h init fv p hp) (by
        intro p hp q hq
        obtain ⟨fv, hfv, hq⟩ := List.mem_flatMap.1 hq
        exact jobs_cross lib h init (Ne.symm (hpre fv hfv)) p hp q hq) hl (run_append.2 ⟨b1, e1, i1⟩)
    rw [List.flatMap_append, List.flatMap_cons, ← List.append_assoc, List.map_append, List.map_append, run_append]
    exact ⟨b2, hsw, i2⟩

/-- the order of the fields of an accepted row makes no difference -/
theorem update_reorder (lib : Lib) (h : Laid b L D) (init : Bool) (r r' : Row) (hs : SameOrder r.data r'.data)
    (buf b' : Bytes) (hl : buf.length = b.coll.size.toNat) (hu : update lib b.coll r buf init = (b', .val none)) :
    update lib b.coll r' buf init = (b', .val none) := by
  unfold update at hu ⊢
  rw [runWriters_append] at hu ⊢
  rcases e1 : runWriters buf (b.coll.writers.map fun w buf => w.write buf countWriter) with ⟨b1, x⟩
  rw [e1] at hu ⊢
  rcases x with (x | x) | _
  · simp only at hu ⊢
    have hl1 : b1.length = b.coll.size.toNat := by
      have hlen : ∀ (ws : List Cell), (∀ w ∈ ws, InRec b.coll.size.toNat w) → ∀ buf b', buf.length = b.coll.size.toNat →
          runWriters buf (ws.map fun w buf => w.write buf countWriter) = (b', .val none) → b'.length = b.coll.size.toNat := by
        intro ws
        induction ws with
        | nil => intro _ buf b' hb e; simp only [List.map_nil, runWriters, Prod.mk.injEq] at e; rw [← e.1]; exact hb
        | cons w ws ih =>
          intro hin buf b' hb e
          rw [List.map_cons, run_cons] at e
          obtain ⟨b2, e2, e3⟩ := e
          refine ih (fun w hw => hin w (by simp [hw])) b2 b' ?_ e3
          have := (write_slices (hin w (by simp)) hb countWriter countWriter_length).1
          rw [e2] at this
          exact this
      refine hlen b.coll.writers ?_ buf b1 hl e1
      intro w hw
      rw [h.rows] at hw
      exact inRec h (mem_cells.1 hw)
    have hnum := accepted_numeric lib h init r.data b1 b' hu
    have hw : ∀ data : List FV, (∀ fv ∈ data, Numeric lib L fv) →
        data.flatMap (fieldWriters lib b.coll init) = (data.flatMap (jobsOf lib L init)).map Job.run := by
      intro data hd
      rw [List.map_flatMap]
      apply List.flatMap_congr
      intro fv hfv
      exact fieldWriters_jobs lib h init fv (hd fv hfv)
    rw [hw _ hnum] at hu
    rw [hw _ fun fv hfv => hnum fv (sameOrder_mem hs hfv)]
    exact data_reorder lib h init _ _ hs b1 b' hl1 hu
  · simp at hu
  · simp at hu

end

end Starbow.Collation
