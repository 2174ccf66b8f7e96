import Verif.Props.StoreStats
/-
Property C66 fails when a record is created by two Writes at once.
-/
namespace Starbow.Props
open Starbow.Collation Starbow.Spec Starbow.Storage Starbow.StoreConc Starbow.BufmapConc Starbow.Cell Starbow.Probe

/-- the sequential map with the memory of a state -/
def mapOf (l s : Nat) (σ : BufmapConc.State) : Bufmap.Map :=
  ⟨l, s, (List.range l).map fun x => ⟨σ.keys x, σ.cells.seq x, (σ.cells.lock x).isSome⟩, (List.range (l * s)).map σ.cells.vals⟩

theorem same_mapOf (l s : Nat) (σ : BufmapConc.State) : Same l s σ (mapOf l s σ) := by
  refine ⟨rfl, rfl, by simp [mapOf], by simp [mapOf], ?_, ?_⟩
  · intro x hx
    simp [mapOf, List.getD_eq_getElem?_getD, hx]
  · intro j hj
    simp [mapOf, hj]

/-- Two Writes of one key with no record yet, both accepted or refused as the collator says. The first stores the key and is then
held up; the second runs, not being told that the record is new; then the first goes on and is told that the record is new. -/
theorem race (lib : Lib) (c : Collator) (l : Nat) (hl : 0 < l) (k : U64) (h0 : k ≠ 0) (r₀ r₁ : Row) (q : Query)
    (hk₀ : keyValue r₀.data c.keys = some k) (hk₁ : keyValue r₁.data c.keys = some k) (hq : keyValue q.criteria c.keys = some k)
    (b₁ b₂ : Bytes) (e₁ e₀ : Option Err) (hu₁ : Collation.update lib c r₁ (blank c) false = (b₁, .val e₁))
    (hu₀ : Collation.update lib c r₀ b₁ true = (b₂, .val e₀)) (hhigh : k.toNat % l * (c.size.toNat + 1) ≤ l * c.size.toNat) :
    ∃ σ σ', StoreConc.Steps lib c l StoreConc.init σ ∧ StoreConc.Steps lib c l σ σ' ∧ σ.calls = [.write r₀, .write r₁] ∧
      σ.m.rets = [(1, .ran e₁), (0, .ran e₀)] ∧ σ'.calls = σ.calls ++ [.read q] ∧
      σ'.m.rets = σ.m.rets ++ [(2, .got true (seen (k.toNat % l) b₂) 0)] := by
  have hp : pos l k 0 = k.toNat % l := by unfold pos; rw [Nat.add_zero, Nat.mod_mod]
  have hxl : k.toNat % l < l := Nat.mod_lt _ hl
  generalize hx : k.toNat % l = x at *
  generalize hs : c.size.toNat = s at *
  -- the first Write stores the key
  have f₀ := performs_rewrite lib c r₀
  have f₁ := performs_rewrite lib c r₁
  generalize hf0 : rewrite (Collation.update lib c r₀) = fn₀ at *
  generalize hf1 : rewrite (Collation.update lib c r₁) = fn₁ at *
  have s1 := update_probe (t := 0) hl (same_init l s) h0 fn₀
  have c1 : claim (Bufmap.new l s).keyAt l k (maxReprobe + 1) 0 false = .at x true := by
    have : (Bufmap.new l s).keyAt x = 0 := by
      unfold Bufmap.Map.keyAt; rw [(same_init l s).slot x hxl]; rfl
    rw [claim, hp, this, if_neg (Ne.symm h0), if_pos rfl]
  rw [c1] at s1
  simp only at s1
  generalize hA : (⟨Probe.upd (fun _ => 0) x k, Cell.init, Probe.upd (fun _ => PC.idle) 0 (PC.w k x ⟨0, fn₀, true⟩ .lock), [.upd k fn₀], []⟩ :
    BufmapConc.State) = A
  replace s1 : Alone l s 0 (call BufmapConc.init 0 (.upd k fn₀)) A := by rw [← hA]; exact s1
  -- the second Write finds it
  have s2 := update_probe (t := 1) hl (same_mapOf l s A) h0 fn₁
  have c2 : claim (mapOf l s A).keyAt l k (maxReprobe + 1) 0 false = .at x false := by
    have : (mapOf l s A).keyAt x = k := by
      unfold Bufmap.Map.keyAt; rw [(same_mapOf l s A).slot x hxl, ← hA]; simp [upd]
    rw [claim, hp, this, if_pos rfl]
  rw [c2] at s2
  simp only at s2
  have hAi : A.invs = [.upd k fn₀] := by rw [← hA]
  have hAr : A.rets = [] := by rw [← hA]
  have hAc : A.cells = Cell.init := by rw [← hA]
  have hAk : A.keys x = k := by rw [← hA]; simp [upd]
  have hA0 : A.pc 0 = .w k x ⟨0, fn₀, true⟩ .lock := by rw [← hA]; simp [upd]
  have hAp : ∀ t, t ≠ 0 → A.pc t = .idle := by intro t ht; rw [← hA]; simp [upd, ht]
  have hblank : bytesOf s Cell.init x = blank c := by
    unfold bytesOf blank
    rw [hs]
    show (List.range s).map (fun _ => (0#8)) = _
    rw [List.map_const', List.length_range]
  have hbl : (blank c).length = c.size.toNat := by unfold blank; rw [List.length_replicate]
  generalize hC : ({ A with invs := A.invs ++ [.upd k fn₁], keys := upd A.keys x k, pc := upd A.pc 1 (.w k x ⟨A.invs.length, fn₁, false⟩ .lock) } :
    BufmapConc.State) = C at s2
  have hCp : C.pc 1 = .w k x ⟨1, fn₁, false⟩ .lock := by rw [← hC]; simp only [upd_same]; rw [hAi]; rfl
  have hCc : C.cells = Cell.init := by rw [← hC]; exact hAc
  have hb₁ := f₁ (blank c) false hbl
  rw [hu₁] at hb₁
  -- and runs
  obtain ⟨cells₁, w1, w2, w3, w4, w5, _⟩ := write_alone (l := l) (s := s) hCp (by rw [hCc]; rfl)
    (by rw [hCc, hblank]; intro w hw; rw [← hs, ← hbl]; exact hb₁.1 w hw) (err := e₁) (by rw [hCc, hblank]; exact hb₁.2.2)
  have hb₁' : runAlone (bytesOf s C.cells x) ⟨1, fn₁, false⟩ = b₁ := by rw [hCc, hblank]; exact hb₁.2.1
  rw [hb₁'] at w5
  have hlb₁ : b₁.length = c.size.toNat := by rw [← w5, bytesOf_length, hs]
  generalize hD : ({ C with cells := cells₁, pc := upd C.pc 1 .idle, rets := C.rets ++ [(1, .ran e₁)] } : BufmapConc.State) = D at w1
  have hDc : D.cells = cells₁ := by rw [← hD]
  have hDp : D.pc 0 = .w k x ⟨0, fn₀, true⟩ .lock := by
    rw [← hD]; simp only; rw [upd_other _ _ (by decide), ← hC]; simp only; rw [upd_other _ _ (by decide)]; exact hA0
  -- the first Write goes on
  have hb₀ := f₀ b₁ true hlb₁
  rw [hu₀] at hb₀
  obtain ⟨cells₂, v1, v2, v3, v4, v5, _⟩ := write_alone (l := l) (s := s) hDp (by rw [hDc, w3, hCc]; rfl)
    (by rw [hDc, w5]; intro w hw; rw [← hs, ← hlb₁]; exact hb₀.1 w hw) (err := e₀) (by rw [hDc, w5]; exact hb₀.2.2)
  have hb₀' : runAlone (bytesOf s D.cells x) ⟨0, fn₀, true⟩ = b₂ := by rw [hDc, w5]; exact hb₀.2.1
  rw [hb₀'] at v5
  have hlb₂ : b₂.length = s := by rw [← v5, bytesOf_length]
  generalize hE : ({ D with cells := cells₂, pc := upd D.pc 0 .idle, rets := D.rets ++ [(0, .ran e₀)] } : BufmapConc.State) = E at v1
  have hEp : E.pc 2 = .idle := by
    rw [← hE]; simp only; rw [upd_other _ _ (by decide), ← hD]; simp only; rw [upd_other _ _ (by decide), ← hC]; simp only
    rw [upd_other _ _ (by decide)]; exact hAp 2 (by decide)
  have hEr : E.rets = [(1, .ran e₁), (0, .ran e₀)] := by rw [← hE, ← hD, ← hC]; simp only; rw [hAr]; rfl
  have hEi : E.invs = [.upd k fn₀, .upd k fn₁] := by rw [← hE, ← hD, ← hC]; simp only; rw [hAi]; rfl
  have hEc : E.cells = cells₂ := by rw [← hE]
  have hEk : E.keys x = k := by rw [← hE, ← hD, ← hC]; simp only; exact upd_same _ _ _
  -- the Read
  have hget : Bufmap.get (mapOf l s E) k (List.replicate s 0) = .ret (true, seen x b₂) := by
    have hsm := same_mapOf l s E
    have hsl := hsm.slot x hxl
    unfold Bufmap.get
    rw [if_neg (by rw [hsm.hl]; omega), hsm.hl]
    have hlook : lookup (mapOf l s E).keyAt l k (maxReprobe + 1) 0 = some x := by
      rw [lookup, hp, if_pos]
      unfold Bufmap.Map.keyAt; rw [hsl]; exact hEk
    rw [hlook]
    simp only
    rw [hsl, if_neg, hsm.hs, hsm.vlen, if_neg (by omega)]
    · congr 2
      have e1 : x * (s + 1) = x * s + x := Nat.mul_succ x s
      have hslen : (slice (mapOf l s E).values (x * s) (x * (s + 1))).length = x := by
        rw [slice_length _ _ _ (by rw [hsm.vlen]; omega)]; omega
      have htake : (slice (mapOf l s E).values (x * s) (x * (s + 1))).take s = b₂.take x := by
        apply List.ext_getElem?
        intro i
        rw [List.getElem?_take, List.getElem?_take, slice_getElem?, ← v5]
        by_cases h1 : i < s
        · rw [if_pos h1, bytesOf_getElem? _ _ _ _ h1]
          by_cases h2 : i < x
          · rw [if_pos (by omega), if_pos h2, hsm.vals _ (by omega), hEc]
          · rw [if_neg (by omega), if_neg h2]
        · rw [if_neg h1]
          split
          · rw [List.getElem?_eq_none (by rw [bytesOf_length]; omega)]
          · rfl
      rw [List.length_replicate, htake, hslen, List.drop_replicate]
      unfold seen
      rw [hlb₂]
      rfl
    · simp only
      rw [hEc, v2, upd_same, hDc, w2, upd_same, hCc]
      show ¬ ((0 : BitVec 32) + 2 + 2).toNat % 2 ≠ 0
      decide
  obtain ⟨m', a1, a2, a3, a4, a5⟩ := C35_get_alone l s 2 hl E (mapOf l s E) (same_mapOf l s E) hEp k _ _ _ hget
  obtain ⟨y, z, g1, g2, g3, g4, g5⟩ := alone_returns a1 (r := (2, .got true (seen x b₂) 0)) (by rw [a3, hEi]; rfl)
  subst hs
  refine ⟨⟨E, [.write r₀, .write r₁]⟩, ⟨z, [.write r₀, .write r₁, .read q]⟩, ?_, ?_, rfl, hEr, rfl, ?_⟩
  · have t1 : StoreConc.Steps lib c l StoreConc.init ⟨A, [.write r₀]⟩ :=
      StoreConc.Steps.trans (.tail (.refl _) (.write StoreConc.init 0 r₀ k fn₀ rfl hk₀ f₀)) (alone_lift s1 _)
    have t2 : StoreConc.Steps lib c l ⟨A, [.write r₀]⟩ ⟨E, [.write r₀, .write r₁]⟩ :=
      StoreConc.Steps.trans (.tail (.refl _) (.write ⟨A, [.write r₀]⟩ 1 r₁ k fn₁ (hAp 1 (by decide)) hk₁ f₁))
        ((alone_lift (s2.trans w1) _).trans (alone_lift v1 _))
    exact t1.trans t2
  · exact .tail (StoreConc.Steps.trans (.tail (.refl _) (.read ⟨E, [.write r₀, .write r₁]⟩ 2 q k hEp hq)) (alone_lift g1 _)) (.step _ 2 _ g3)
  · show z.rets = E.rets ++ _
    rw [g4, g2]; rfl

/-- values of the plain kind are accepted by any record with intact counters, new or not -/
theorem update_plain (lib : Lib) {sch : Schema} {L : List (Owner × Collation.Cell)} {D : List (Bytes × Measure)} {pos : Int}
    (h : Laid ⟨compile sch, pos⟩ L D) (hD : ∀ f m, (f, m) ∈ D ↔ Declares sch f m) {b : Bytes} (hb : Hold ⟨compile sch, pos⟩ L [] b)
    (init : Bool) (r : Row) (hp : ∀ fv ∈ r.data, Plain lib sch fv) :
    ∃ b', Collation.update lib (compile sch) r b init = (b', .val none) ∧ Hold ⟨compile sch, pos⟩ L [] b' := by
  obtain ⟨b', e', h1, h2, h3⟩ := hold_row lib h hb init r
  refine ⟨b', ?_, h3⟩
  have : e' = none := by
    refine h2 ?_
    intro fv hfv
    obtain ⟨p1, p2⟩ := hp fv hfv
    constructor
    · rintro ⟨w, hwm⟩
      obtain ⟨g, hs, hmem⟩ := h.owned _ w hwm
      have hs : g = fv.f := hs
      subst hs
      have ht : w.m.continuousInput = true := (h.cell _ w hwm).2.2.2.2
      rw [Option.isSome_iff_ne_none]
      exact p2 w.m ((hD _ _).1 hmem) (by intro e; rw [e] at ht; simp [Measure.continuousInput] at ht)
    · rintro ⟨w, hwm⟩
      obtain ⟨g, hs, hmem⟩ := h.owned _ w hwm
      have hs : g = fv.f := hs
      subst hs
      obtain ⟨p, hm, _⟩ := (h.cell _ w hwm).2.2.2.2
      rw [hm] at hmem
      exact absurd ((hD _ _).1 hmem) (p1 p)
  rw [this] at h1
  exact h1

/-- **C66 fails** for several first Writes at once, in the program with ISO country codes: two goroutines Write the first observations of
France, with heights 3 (call 0) and 5 (call 1), nobody else does anything, both Writes return nil, and a Read called after that answers
that max(height) is 3: the observation of 5 is lost. -/
theorem C66_race_refuted (lib : Lib) (hl : ParsesDoubles lib) (h5 : lib.parseFloat (asc "5") = some (F64.ofNat 5))
    (h3 : lib.parseFloat (asc "3") = some (F64.ofNat 3)) :
    ∃ σ σ' buf, StoreConc.Steps lib (compile Demo.country) Demo.slots StoreConc.init σ ∧ StoreConc.Steps lib (compile Demo.country) Demo.slots σ σ' ∧
      σ.calls = [.write (seenHeight (asc "FR") (asc "3")).row, .write (seenHeight (asc "FR") (asc "5")).row] ∧
      σ.m.rets = [(1, .ran none), (0, .ran none)] ∧
      σ'.calls = σ.calls ++ [.read ⟨[⟨asc "height", [asc "max"]⟩], [⟨asc "country", asc "FR"⟩]⟩] ∧ σ'.m.rets = σ.m.rets ++ [(2, .got true buf 0)] ∧
      readReply lib (compile Demo.country) ⟨[⟨asc "height", [asc "max"]⟩], [⟨asc "country", asc "FR"⟩]⟩ (.got true buf 0) =
        some (.val ([⟨asc "height", asc "max", F64.ofNat 3⟩], none)) := by
  obtain ⟨L, D, pos, h, hD⟩ := laid_compile Demo.country country_valid
  have kFR' : keyValue [⟨asc "country", asc "FR"⟩] Demo.country.keys = some 12582602682680778473 := by decide +kernel
  have kFR : ∀ v, keyValue (seenHeight (asc "FR") v).row.data Demo.country.keys = some 12582602682680778473 := by
    intro v
    rw [← kFR']
    apply C28_key
    intro k hk
    have : k = asc "country" := by simpa [Demo.country] using hk
    subst this
    unfold valueOf seenHeight
    rw [List.find?_cons_of_pos (by simp), List.find?_cons_of_pos (by simp)]
  have hkeys : (compile Demo.country).keys = Demo.country.keys := compile_keys _
  obtain ⟨b₁, hu₁, hb₁⟩ := update_plain lib h hD (hold_blank h) false (seenHeight (asc "FR") (asc "5")).row
    (height_all_plain (by rw [h5]; simp) _)
  obtain ⟨b₂, hu₂, hb₂⟩ := update_plain lib h hD hb₁ true (seenHeight (asc "FR") (asc "3")).row (height_all_plain (by rw [h3]; simp) _)
  have hsz : (compile Demo.country).size.toNat = 900 := by rw [country_size]; rfl
  obtain ⟨σ, σ', t1, t2, t3, t4, t6, t5⟩ := race lib (compile Demo.country) Demo.slots (by decide) 12582602682680778473 (by decide)
    (seenHeight (asc "FR") (asc "3")).row (seenHeight (asc "FR") (asc "5")).row
    ⟨[⟨asc "height", [asc "max"]⟩], [⟨asc "country", asc "FR"⟩]⟩ (by rw [hkeys]; exact kFR _) (by rw [hkeys]; exact kFR _)
    (by rw [hkeys]; exact kFR') b₁ b₂ none none hu₁ hu₂ (by rw [hsz]; decide)
  refine ⟨σ, σ', _, t1, t2, t3, t4, t6, t5, ?_⟩
  have hval : numbersOf lib (asc "height") [(seenHeight (asc "FR") (asc "3")).row] = [F64.ofNat 3] := by
    unfold numbersOf valuesOf seenHeight
    simp only [List.flatMap_cons, List.flatMap_nil, List.append_nil, List.filterMap_cons, List.filterMap_nil]
    rw [if_neg (by decide), if_true]
    simp [h3]
  obtain ⟨r, w, g1, g2, g3, e1, e2, hc, hin⟩ := cont_reader h ((hD _ _).2 height_declares) rfl
  have hrr : ⟨104, 112, .max⟩ = r := Option.some.inj (height_reader.symm.trans g1)
  have hwm := compat_eq hc rfl
  obtain ⟨a1, a2⟩ := row_effect lib h g3 true (seenHeight (asc "FR") (asc "3")).row b₁ _ hb₁.len hu₂
  rw [fold_cont] at a2
  have hnum : ((((seenHeight (asc "FR") (asc "3")).row.data.filterMap fun fv => if fv.f = asc "height" then some fv.v else none)).filterMap
      lib.parseFloat) = [F64.ofNat 3] := by
    rw [← hval]; unfold numbersOf valuesOf; simp
  rw [hnum, hwm, List.foldl_cons, List.foldl_nil] at a2
  have hdl : (rowEff (.cont (asc "height")) (slice b₁ w.low.toNat w.high.toNat)).length = 8 := by
    unfold rowEff
    dsimp only
    rw [slice_len (inRec h g3) hb₁.len]
    obtain ⟨c1, c2, c3, c4, _⟩ := h.cell _ w g3
    rw [hwm] at c2
    have : Measure.max.size = 8 := rfl
    omega
  have hput : ∀ d : Bytes, d.length = 8 → (contWriterFn .max d true (F64.ofNat 3)).1 = le64 (F64.toBits (F64.ofNat 3)) := by
    intro d hd
    rw [contWriterFn, maxWriter, if_pos rfl, putFloat_eq d hd]
  rw [hput _ hdl] at a2
  have key := ask_reply lib height_reader (seen ((12582602682680778473 : U64).toNat % Demo.slots) b₂)
  have hlen : b₂.length = (compile Demo.country).size.toNat := hb₂.len
  unfold readReply
  simp only
  have e3 : Collation.read lib (compile Demo.country) [⟨asc "height", [asc "max"]⟩] (seen ((12582602682680778473 : U64).toNat % Demo.slots) b₂) =
    ask lib (compile Demo.country) (seen ((12582602682680778473 : U64).toNat % Demo.slots) b₂) (asc "height") (asc "max") := rfl
  rw [e3, key]
  rw [← hrr] at e1 e2 hin
  rw [cell_read_eq lib hin (by rw [seen_length]; exact hlen),
    slice_seen (by decide) (by rw [hlen, hsz]; decide), ← e1, ← e2, a2]
  have hwf : F64.Wf (F64.ofNat 3) := numbers_wf hl _ _ _ (by rw [hval]; simp)
  rw [(read_max lib hwf).1]
  rfl

end Starbow.Props
