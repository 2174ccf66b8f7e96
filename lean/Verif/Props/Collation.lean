import Verif.Proof.RecordSafe
/-
Property theorems C22-C25 and C27: compiled records and what they report.
-/
namespace Starbow.Props
open Starbow.Spec Starbow.Collation

/-! ### C22 -/

theorem feed_max (buf : Bytes) (hb : buf.length = 8) (v : F64) (vs : List F64) (hd : ∀ x ∈ v :: vs, IsDouble x) :
    feed .max buf true (v :: vs) = (le64 (F64.toBits (vs.foldl pickMax v)), .val none) ∧ F64.Wf (vs.foldl pickMax v) := by
  have key : ∀ (vs : List F64) (x : F64), F64.Wf x → (∀ y ∈ vs, F64.Wf y) →
      feed .max (le64 (F64.toBits x)) false vs = (le64 (F64.toBits (vs.foldl pickMax x)), .val none) ∧ F64.Wf (vs.foldl pickMax x) := by
    intro vs
    induction vs with
    | nil => intro x hx _; exact ⟨rfl, hx⟩
    | cons y vs ih =>
      intro x hx hy
      rw [feed, show contWriterFn .max (le64 (F64.toBits x)) false y = maxWriter (le64 (F64.toBits x)) false y from rfl, maxWriter_eq hx]
      exact ih _ (wf_pickMax hx (hy y (by simp))) fun z hz => hy z (by simp [hz])
  rw [feed, show contWriterFn .max buf true v = putFloat buf v from rfl, putFloat_eq buf hb]
  exact key vs v (isDouble_iff.1 (hd v (by simp))) fun y hy => isDouble_iff.1 (hd y (by simp [hy]))

theorem feed_min (buf : Bytes) (hb : buf.length = 8) (v : F64) (vs : List F64) (hd : ∀ x ∈ v :: vs, IsDouble x) :
    feed .min buf true (v :: vs) = (le64 (F64.toBits (vs.foldl pickMin v)), .val none) ∧ F64.Wf (vs.foldl pickMin v) := by
  have key : ∀ (vs : List F64) (x : F64), F64.Wf x → (∀ y ∈ vs, F64.Wf y) →
      feed .min (le64 (F64.toBits x)) false vs = (le64 (F64.toBits (vs.foldl pickMin x)), .val none) ∧ F64.Wf (vs.foldl pickMin x) := by
    intro vs
    induction vs with
    | nil => intro x hx _; exact ⟨rfl, hx⟩
    | cons y vs ih =>
      intro x hx hy
      rw [feed, show contWriterFn .min (le64 (F64.toBits x)) false y = minWriter (le64 (F64.toBits x)) false y from rfl, minWriter_eq hx]
      exact ih _ (wf_pickMin hx (hy y (by simp))) fun z hz => hy z (by simp [hz])
  rw [feed, show contWriterFn .min buf true v = putFloat buf v from rfl, putFloat_eq buf hb]
  exact key vs v (isDouble_iff.1 (hd v (by simp))) fun y hy => isDouble_iff.1 (hd y (by simp [hy]))

theorem read_max (lib : Lib) {x : F64} (hx : F64.Wf x) :
    readerFn lib .max (le64 (F64.toBits x)) = .val (.ok x) ∧ readerFn lib .min (le64 (F64.toBits x)) = .val (.ok x) := by
  constructor <;>
  · rw [readerFn, if_neg (by simp), leU64_le64, F64.ofBits_toBits hx]

/-- **C22**, max, for observations that are not NaN: whatever the 8 bytes held before, after a non-empty sequence of
observations of which the first initialises, `max` reports an observed value that is at least every observation. (Infinite
observations are allowed. The full claim fails if a NaN is observed, see `C22_nan_refuted`.) -/
theorem C22_max_partial (lib : Lib) (buf : Bytes) (hb : buf.length = 8) (v : F64) (vs : List F64)
    (hd : ∀ x ∈ v :: vs, IsDouble x) (hn : ∀ x ∈ v :: vs, x ≠ .nan) :
    ∃ b x, feed .max buf true (v :: vs) = (b, .val none) ∧ readerFn lib .max b = .val (.ok x) ∧ x ∈ v :: vs ∧
      ∀ y ∈ v :: vs, F64.le y x = true := by
  obtain ⟨h1, h2⟩ := feed_max buf hb v vs hd
  obtain ⟨h3, h4⟩ := pickMax_extreme vs v (hn v (by simp)) fun y hy => hn y (by simp [hy])
  exact ⟨_, _, h1, (read_max lib h2).1, h3, h4⟩

/-- **C22**, min, for observations that are not NaN. -/
theorem C22_min_partial (lib : Lib) (buf : Bytes) (hb : buf.length = 8) (v : F64) (vs : List F64)
    (hd : ∀ x ∈ v :: vs, IsDouble x) (hn : ∀ x ∈ v :: vs, x ≠ .nan) :
    ∃ b x, feed .min buf true (v :: vs) = (b, .val none) ∧ readerFn lib .min b = .val (.ok x) ∧ x ∈ v :: vs ∧
      ∀ y ∈ v :: vs, F64.le x y = true := by
  obtain ⟨h1, h2⟩ := feed_min buf hb v vs hd
  obtain ⟨h3, h4⟩ := pickMin_extreme vs v (hn v (by simp)) fun y hy => hn y (by simp [hy])
  exact ⟨_, _, h1, (read_max lib h2).2, h3, h4⟩

/-- instance: -1, +inf, 2 -/
example : (∀ x ∈ [F64.neg (F64.ofNat 1), .inf false, F64.ofNat 2], IsDouble x) ∧
    (∀ x ∈ [F64.neg (F64.ofNat 1), .inf false, F64.ofNat 2], x ≠ .nan) := by
  constructor
  · intro x hx
    apply isDouble_iff.2
    simp only [List.mem_cons, List.not_mem_nil, or_false] at hx
    rcases hx with rfl | rfl | rfl
    · exact F64.wf_neg (F64.wf_ofNat _)
    · trivial
    · exact F64.wf_ofNat _
  · decide +kernel

/-- **C22**, the exact law with NaNs: a NaN wipes out everything observed before it; what is reported is the extreme of the
observations after the last NaN. -/
theorem C22_after_nan (lib : Lib) (buf : Bytes) (hb : buf.length = 8) (u : List F64) (v : F64) (vs : List F64)
    (hd : ∀ x ∈ u ++ .nan :: v :: vs, IsDouble x) (hn : ∀ x ∈ v :: vs, x ≠ .nan) :
    (∃ b x, feed .max buf true (u ++ .nan :: v :: vs) = (b, .val none) ∧ readerFn lib .max b = .val (.ok x) ∧ x ∈ v :: vs ∧
      ∀ y ∈ v :: vs, F64.le y x = true) ∧
    (∃ b x, feed .min buf true (u ++ .nan :: v :: vs) = (b, .val none) ∧ readerFn lib .min b = .val (.ok x) ∧ x ∈ v :: vs ∧
      ∀ y ∈ v :: vs, F64.le x y = true) := by
  have p1 := fun x => (pick_nan x).1
  have p2 := fun x => (pick_nan x).2.1
  have p3 := fun x => (pick_nan x).2.2.1
  have p4 := fun x => (pick_nan x).2.2.2
  cases u with
  | nil =>
    constructor
    · obtain ⟨h1, h2⟩ := feed_max buf hb .nan (v :: vs) hd
      rw [List.foldl_cons, p3] at h1 h2
      obtain ⟨h3, h4⟩ := pickMax_extreme vs v (hn v (by simp)) fun y hy => hn y (by simp [hy])
      exact ⟨_, _, h1, (read_max lib h2).1, h3, h4⟩
    · obtain ⟨h1, h2⟩ := feed_min buf hb .nan (v :: vs) hd
      rw [List.foldl_cons, p4] at h1 h2
      obtain ⟨h3, h4⟩ := pickMin_extreme vs v (hn v (by simp)) fun y hy => hn y (by simp [hy])
      exact ⟨_, _, h1, (read_max lib h2).2, h3, h4⟩
  | cons a u =>
    constructor
    · obtain ⟨h1, h2⟩ := feed_max buf hb a (u ++ .nan :: v :: vs) hd
      rw [List.foldl_append, List.foldl_cons, p1, List.foldl_cons, p3] at h1 h2
      obtain ⟨h3, h4⟩ := pickMax_extreme vs v (hn v (by simp)) fun y hy => hn y (by simp [hy])
      exact ⟨_, _, h1, (read_max lib h2).1, h3, h4⟩
    · obtain ⟨h1, h2⟩ := feed_min buf hb a (u ++ .nan :: v :: vs) hd
      rw [List.foldl_append, List.foldl_cons, p2, List.foldl_cons, p4] at h1 h2
      obtain ⟨h3, h4⟩ := pickMin_extreme vs v (hn v (by simp)) fun y hy => hn y (by simp [hy])
      exact ⟨_, _, h1, (read_max lib h2).2, h3, h4⟩

/-- **C22**, refuted when a NaN is observed: after 5, NaN, 3 `max` reports 3 although 5 was observed; after 3, NaN, 5 `min`
reports 5. -/
theorem C22_nan_refuted (lib : Lib) :
    (∃ b, feed .max (List.replicate 8 0) true [F64.ofNat 5, .nan, F64.ofNat 3] = (b, .val none) ∧
      readerFn lib .max b = .val (.ok (F64.ofNat 3)) ∧ F64.le (F64.ofNat 5) (F64.ofNat 3) = false) ∧
    (∃ b, feed .min (List.replicate 8 0) true [F64.ofNat 3, .nan, F64.ofNat 5] = (b, .val none) ∧
      readerFn lib .min b = .val (.ok (F64.ofNat 5)) ∧ F64.le (F64.ofNat 5) (F64.ofNat 3) = false) := by
  have h5 : F64.ofNat 5 ≠ .nan := by decide +kernel
  have h3 : F64.ofNat 3 ≠ .nan := by decide +kernel
  have hle : F64.le (F64.ofNat 5) (F64.ofNat 3) = false := by decide +kernel
  have hd : ∀ x ∈ [F64.ofNat 5, .nan, F64.ofNat 3], IsDouble x := by
    intro x hx
    apply isDouble_iff.2
    simp only [List.mem_cons, List.not_mem_nil, or_false] at hx
    rcases hx with rfl | rfl | rfl
    · exact F64.wf_ofNat _
    · trivial
    · exact F64.wf_ofNat _
  have hd' : ∀ x ∈ [F64.ofNat 3, .nan, F64.ofNat 5], IsDouble x := by
    intro x hx
    apply hd
    simp only [List.mem_cons, List.not_mem_nil, or_false] at hx ⊢
    tauto
  constructor
  · obtain ⟨⟨b, x, h1, h2, hm, _⟩, _⟩ := C22_after_nan lib (List.replicate 8 0) (by simp) [F64.ofNat 5] (F64.ofNat 3) [] hd
      (by simpa using h3)
    simp only [List.mem_singleton] at hm
    subst hm
    exact ⟨b, h1, h2, hle⟩
  · obtain ⟨_, ⟨b, x, h1, h2, hm, _⟩⟩ := C22_after_nan lib (List.replicate 8 0) (by simp) [F64.ofNat 3] (F64.ofNat 5) [] hd'
      (by simpa using h5)
    simp only [List.mem_singleton] at hm
    subst hm
    exact ⟨b, h1, h2, hle⟩

/-! ### C23 -/

/-- the cells at the places of a compiled collator -/
theorem writerAt_mem {b : Building} {L : List (Owner × Cell)} {D : List (Bytes × Measure)} (h : Laid b L D) {pl : Place} {w : Cell}
    (hw : writerAt b.coll pl = some w) :
    ∃ o i, (cells L o)[i]? = some w ∧ (o, w) ∈ L ∧ pl = (match o with | .row => .row i | .cont f => .cont f i | .disc f => .disc f i) := by
  have ht : ∀ l : List Cell, (toOpt l).getD [] = l := by
    intro l; unfold toOpt; split
    · next h => rw [h]; rfl
    · rfl
  cases pl with
  | row i =>
    rw [writerAt, h.rows] at hw
    exact ⟨.row, i, hw, mem_cells.1 (List.mem_of_getElem? hw), rfl⟩
  | cont f i =>
    rw [writerAt, h.cont, ht] at hw
    exact ⟨.cont f, i, hw, mem_cells.1 (List.mem_of_getElem? hw), rfl⟩
  | disc f i =>
    rw [writerAt, h.disc, ht] at hw
    exact ⟨.disc f, i, hw, mem_cells.1 (List.mem_of_getElem? hw), rfl⟩

/-- **C23**, the layout: for every schema with valid parameters each writer of the compiled collator has a non-empty byte range
inside the record, any two writers have disjoint ranges, and each reader looks at exactly the range of a writer of its own field
(of the record as a whole for `*`). -/
theorem C23_layout (s : Schema) (hv : ValidSchema s) :
    (∀ pl w, writerAt (compile s) pl = some w → 0 ≤ w.low ∧ w.low < w.high ∧ w.high ≤ (compile s).size) ∧
    (∀ pl pl' w w', writerAt (compile s) pl = some w → writerAt (compile s) pl' = some w' → pl ≠ pl' →
      w.high ≤ w'.low ∨ w'.high ≤ w.low) ∧
    (∀ f n r, readerAt (compile s) f n = some r → ∃ pl w, writerAt (compile s) pl = some w ∧ w.low = r.low ∧ w.high = r.high ∧
      ((f = asc "*" ∧ ∃ i, pl = .row i) ∨ (∃ i, pl = .cont f i) ∨ (∃ i, pl = .disc f i))) := by
  obtain ⟨L, D, pos, h, _⟩ := laid_compile s hv
  refine ⟨?_, ?_, ?_⟩
  · intro pl w hw
    obtain ⟨o, i, _, hm, _⟩ := writerAt_mem h hw
    obtain ⟨h1, h2, h3, h4, _⟩ := h.cell o w hm
    have h5 : (compile s).size = pos := h.size
    have h4 : w.high ≤ pos := h4
    exact ⟨h1, by omega, by omega⟩
  · intro pl pl' w w' hw hw' hne
    obtain ⟨o, i, hi, hm, hp⟩ := writerAt_mem h hw
    obtain ⟨o', i', hi', hm', hp'⟩ := writerAt_mem h hw'
    by_cases he : (o, w) = (o', w')
    · -- the same cell twice in the list of one owner: impossible
      simp only [Prod.mk.injEq] at he
      obtain ⟨rfl, rfl⟩ := he
      have hii : i ≠ i' := by rintro rfl; exact hne (hp.trans hp'.symm)
      exfalso
      have hpw : (cells L o).Pairwise fun a b => a.high ≤ b.low := by
        unfold cells
        exact (h.apart.filter _).map _ fun _ _ hab => hab
      obtain ⟨h1, h2, h3, _⟩ := h.cell o w hm
      obtain ⟨li, ei⟩ := List.getElem?_eq_some_iff.1 hi
      obtain ⟨li', ei'⟩ := List.getElem?_eq_some_iff.1 hi'
      rw [List.pairwise_iff_getElem] at hpw
      rcases Nat.lt_or_gt_of_ne hii with hlt | hlt
      · have := hpw i i' li li' hlt
        rw [ei, ei'] at this; omega
      · have := hpw i' i li' li hlt
        rw [ei, ei'] at this; omega
    · exact apart h hm hm' he
  · intro f n r hr
    obtain ⟨_, _, o, w, hm, e1, e2, hs, _⟩ := h.reader f n r hr
    have hc := mem_cells.2 hm
    obtain ⟨i, hi⟩ := List.getElem?_of_mem hc
    have hne : cells L o ≠ [] := by intro e; rw [e] at hc; simp at hc
    have ht : ∀ l : List Cell, (toOpt l).getD [] = l := by
      intro l; unfold toOpt; split
      · next h => rw [h]; rfl
      · rfl
    cases o with
    | row => exact ⟨.row i, w, by rw [writerAt]; rw [show (compile s).writers = _ from h.rows]; exact hi, e1, e2, .inl ⟨hs, i, rfl⟩⟩
    | cont g =>
      have hs : f = g := hs
      subst hs
      exact ⟨.cont f i, w, by rw [writerAt]; rw [show (compile s).contWriters f = _ from h.cont f, ht]; exact hi, e1, e2,
        .inr (.inl ⟨i, rfl⟩)⟩
    | disc g =>
      have hs : f = g := hs
      subst hs
      exact ⟨.disc f i, w, by rw [writerAt]; rw [show (compile s).discWriters f = _ from h.disc f, ht]; exact hi, e1, e2,
        .inr (.inr ⟨i, rfl⟩)⟩

/-- a writer leaves some bytes and the length alone, whatever its outcome -/
def Leaves (n lo hi : Nat) (w : Bytes → Wrote) : Prop :=
  ∀ buf, buf.length = n → (w buf).1.length = n ∧ slice (w buf).1 lo hi = slice buf lo hi

theorem leaves_run {n lo hi : Nat} (ws : List (Bytes → Wrote)) (h : ∀ w ∈ ws, Leaves n lo hi w) : ∀ buf, buf.length = n →
    (runWriters buf ws).1.length = n ∧ slice (runWriters buf ws).1 lo hi = slice buf lo hi := by
  induction ws with
  | nil => intro buf hl; exact ⟨hl, rfl⟩
  | cons w ws ih =>
    intro buf hl
    have h1 := h w (by simp) buf hl
    rw [runWriters]
    rcases e1 : w buf with ⟨b, e⟩
    rw [e1] at h1
    rcases e with (e | e) | _
    · have h2 := ih (fun w' hw' => h w' (by simp [hw'])) b h1.1
      exact ⟨h2.1, h2.2.trans h1.2⟩
    · exact h1
    · exact h1

/-- the writers of one owner leave the bytes of another alone -/
theorem leaves_owner {b : Building} {L : List (Owner × Cell)} {D : List (Bytes × Measure)} (h : Laid b L D) {o o' : Owner} {v : Cell}
    (hv : (o, v) ∈ L) (hne : o' ≠ o) (g : Cell → Bytes → Wrote) (hg : ∀ w d, (g w d).1.length = d.length) :
    ∀ k ∈ (cells L o').map fun w buf => w.write buf (g w), Leaves b.coll.size.toNat v.low.toNat v.high.toNat k := by
  intro k hk
  obtain ⟨w, hw, rfl⟩ := List.mem_map.1 hk
  intro buf hl
  have hm := mem_cells.1 hw
  obtain ⟨h1, _, h3⟩ := write_slices (inRec h hm) hl (g w) (hg w)
  exact ⟨h1, h3 v (inRec h hv) (apart h hv hm fun e => hne (by simp only [Prod.mk.injEq] at e; exact e.1.symm))⟩

theorem ask_none (lib : Lib) {c : Collator} {f n : Bytes} (hr : readerAt c f n = none) (buf : Bytes) :
    ask lib c buf f n = .val ([], none) := by
  unfold readerAt at hr
  unfold ask Collation.read
  rw [readLoop]
  cases hrs : c.contReaders f with
  | none => rfl
  | some rs =>
    rw [hrs, Option.bind_some] at hr
    simp only
    rw [readField, hr]
    rfl

/-- **C23**, independence: an observation, whatever its outcome, leaves alone every measure of every field it does not carry,
whatever the record held; only `count(*)` concerns all observations. -/
theorem C23_independent (lib : Lib) (s : Schema) (hv : ValidSchema s) (r : Row) (buf : Bytes) (init : Bool) (f n : Bytes)
    (hb : (buf.length : Int) = (compile s).size) (hf : ∀ fv ∈ r.data, fv.f ≠ f) (hc : f ≠ asc "*" ∨ n ≠ asc "count") :
    (update lib (compile s) r buf init).1.length = buf.length ∧
    ask lib (compile s) (update lib (compile s) r buf init).1 f n = ask lib (compile s) buf f n := by
  obtain ⟨L, D, pos, h, _⟩ := laid_compile s hv
  have hl : buf.length = (compile s).size.toNat := by omega
  have hleaves : ∀ o v, (o, v) ∈ L → o ≠ .row → (∀ g, o.serves g → g = f) →
      (update lib (compile s) r buf init).1.length = (compile s).size.toNat ∧
      slice (update lib (compile s) r buf init).1 v.low.toNat v.high.toNat = slice buf v.low.toNat v.high.toNat := by
    intro o v hm hrow hserve
    unfold update
    apply leaves_run _ _ buf hl
    intro w hw
    rcases List.mem_append.1 hw with hw | hw
    · rw [show (compile s).writers = _ from h.rows] at hw
      exact leaves_owner h hm (Ne.symm hrow) (fun _ => countWriter) (fun _ d => countWriter_length d) w hw
    · obtain ⟨fv, hfv, hw⟩ := List.mem_flatMap.1 hw
      have hfne := hf fv hfv
      unfold fieldWriters at hw
      rcases List.mem_append.1 hw with hw | hw
      · rw [show (compile s).contWriters fv.f = _ from h.cont fv.f] at hw
        unfold toOpt at hw
        split at hw
        · simp [contWriters] at hw
        · rw [contWriters] at hw
          cases hp : lib.parseFloat fv.v with
          | none =>
            rw [hp] at hw
            simp only [List.mem_singleton] at hw
            subst hw
            intro buf hl; exact ⟨hl, rfl⟩
          | some x =>
            rw [hp] at hw
            exact leaves_owner h hm (o' := .cont fv.f) (by rintro rfl; exact hfne (hserve fv.f rfl))
              (fun w d => contWriterFn w.m d init x) (fun w d => contWriterFn_length _ _ _ _) w hw
      · rw [show (compile s).discWriters fv.f = _ from h.disc fv.f] at hw
        unfold toOpt at hw
        split at hw
        · simp [discWriters] at hw
        · exact leaves_owner h hm (o' := .disc fv.f) (by rintro rfl; exact hfne (hserve fv.f rfl))
              (fun w d => discWriterFn w.m d init fv.v) (fun w d => discWriterFn_length _ _ _ _) w hw
  have hlen : (update lib (compile s) r buf init).1.length = buf.length := by
    rw [hl]
    unfold update
    apply (leaves_run (lo := 0) (hi := 0) _ _ buf hl).1
    intro w hw
    -- every writer keeps the length
    have hkeep : ∀ o (g : Cell → Bytes → Wrote), (∀ w d, (g w d).1.length = d.length) →
        ∀ k ∈ (cells L o).map fun w buf => w.write buf (g w), Leaves (compile s).size.toNat 0 0 k := by
      intro o g hg k hk
      obtain ⟨w, hw, rfl⟩ := List.mem_map.1 hk
      intro buf hl
      exact ⟨(write_slices (inRec h (mem_cells.1 hw)) hl (g w) (hg w)).1, by simp [slice]⟩
    rcases List.mem_append.1 hw with hw | hw
    · rw [show (compile s).writers = _ from h.rows] at hw
      exact hkeep .row (fun _ => countWriter) (fun _ d => countWriter_length d) w hw
    · obtain ⟨fv, hfv, hw⟩ := List.mem_flatMap.1 hw
      unfold fieldWriters at hw
      rcases List.mem_append.1 hw with hw | hw
      · rw [show (compile s).contWriters fv.f = _ from h.cont fv.f] at hw
        unfold toOpt at hw
        split at hw
        · simp [contWriters] at hw
        · rw [contWriters] at hw
          cases hp : lib.parseFloat fv.v with
          | none =>
            rw [hp] at hw
            simp only [List.mem_singleton] at hw
            subst hw
            intro buf hl; exact ⟨hl, rfl⟩
          | some x =>
            rw [hp] at hw
            exact hkeep (.cont fv.f) (fun w d => contWriterFn w.m d init x) (fun w d => contWriterFn_length _ _ _ _) w hw
      · rw [show (compile s).discWriters fv.f = _ from h.disc fv.f] at hw
        unfold toOpt at hw
        split at hw
        · simp [discWriters] at hw
        · exact hkeep (.disc fv.f) (fun w d => discWriterFn w.m d init fv.v) (fun w d => discWriterFn_length _ _ _ _) w hw
  refine ⟨hlen, ?_⟩
  cases hr : readerAt (compile s) f n with
  | none =>
    rw [ask_none lib hr, ask_none lib hr]
  | some c =>
    rw [ask_eq lib hr, ask_eq lib hr]
    obtain ⟨hname, _, o, w, hm, e1, e2, hs, hcompat⟩ := h.reader f n c hr
    have hrec : InRec (compile s).size.toNat c := by
      have := inRec h hm
      exact ⟨e1 ▸ this.low, by rw [← e1, ← e2]; exact this.le, e2 ▸ this.high⟩
    have hrow : o ≠ .row := by
      rintro rfl
      have hf' : f = asc "*" := hs
      have hm' : w.m = .count := (h.cell _ w hm).2.2.2.2
      have : c.m = .count := by
        rcases hcompat with e | e
        · rw [← e, hm']
        · rw [hm'] at e; simp [Measure.continuousInput] at e
      rw [this] at hname
      rcases hc with hc | hc
      · exact hc hf'
      · exact hc hname.symm
    have hserve : ∀ g, o.serves g → g = f := by
      intro g hg
      cases o with
      | row => exact absurd rfl hrow
      | cont g' => exact Eq.trans (show g = g' from hg) (show f = g' from hs).symm
      | disc g' => exact Eq.trans (show g = g' from hg) (show f = g' from hs).symm
    have := (hleaves o w hm hrow hserve).2
    rw [e1, e2] at this
    rw [cell_read_eq lib hrec (by rw [hlen]; exact hl), cell_read_eq lib hrec hl, this]

/-- a schema with count(*), sum, mean and max of `x`, uniquecount of `u` and of `x` -/
def demo : Schema :=
  { name := asc "demo", keys := [asc "k"], recordMeasures := [.count],
    measures := [(asc "x", [.sum, .mean, .variance, .max, .min, .cardinality 4]), (asc "u", [.cardinality 5])] }

theorem demo_valid : ValidSchema demo := by
  intro f ms p h1 h2
  simp only [demo, List.mem_cons, Prod.mk.injEq, List.not_mem_nil, or_false] at h1
  rcases h1 with ⟨rfl, rfl⟩ | ⟨rfl, rfl⟩
  · simp at h2; omega
  · simp at h2; omega

/-- instance: the record of `demo` has 8 + 3*32 + 8 + 8 + 24 + 36 bytes -/
example : (compile demo).size = 180 ∧ ((writerAt (compile demo) (.disc (asc "u") 0)).map Cell.low) = some 144 := by
  constructor <;> decide +kernel

end Starbow.Props
