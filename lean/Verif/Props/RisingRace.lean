import Verif.Props.RisingMore
import Verif.Props.ServerRace
/-
Property C94 fails when a record is created by two posts at once.
-/
namespace Starbow.Props
open Starbow.Collation Starbow.Spec Starbow.Storage Starbow.StoreConc Starbow.BufmapConc Starbow.Cell Starbow.Probe

theorem alone_invs {l s t : Nat} {a b : BufmapConc.State} (h : Alone l s t a b) : b.invs = a.invs := by
  induction h with
  | refl _ => rfl
  | head h1 _ ih => rw [ih, step_invs h1]

/-- a Read that nobody disturbs -/
theorem read_here (lib : Lib) (c : Collator) (l : Nat) (hl : 0 < l) {k : U64} {q : Query} (hq : keyValue q.criteria c.keys = some k) {E : BufmapConc.State}
    {calls : List StoreConc.Call} {t : Nat} (hpc : E.pc t = .idle) (hk : E.keys (k.toNat % l) = k)
    (heven : ¬ (E.cells.seq (k.toNat % l)).toNat % 2 ≠ 0) {b : Bytes} (hb : bytesOf c.size.toNat E.cells (k.toNat % l) = b)
    (hhigh : k.toNat % l * (c.size.toNat + 1) ≤ l * c.size.toNat) :
    ∃ F, StoreConc.Steps lib c l ⟨E, calls⟩ ⟨F, calls ++ [.read q]⟩ ∧ F.pc = E.pc ∧ F.rets = E.rets ++ [(E.invs.length, .got true (seen (k.toNat % l) b) 0)] ∧
      F.keys = E.keys ∧ F.cells = E.cells ∧ F.invs.length = E.invs.length + 1 := by
  have hp : pos l k 0 = k.toNat % l := by unfold pos; rw [Nat.add_zero, Nat.mod_mod]
  have hxl : k.toNat % l < l := Nat.mod_lt _ hl
  generalize hx : k.toNat % l = x at *
  generalize hs : c.size.toNat = s at *
  have hlb : b.length = s := by rw [← hb, bytesOf_length]
  have hget : Bufmap.get (mapOf l s E) k (List.replicate s 0) = .ret (true, seen x b) := by
    have hsm := same_mapOf l s E
    have hsl := hsm.slot x hxl
    unfold Bufmap.get
    rw [if_neg (by rw [hsm.hl]; omega), hsm.hl]
    have hlook : lookup (mapOf l s E).keyAt l k (maxReprobe + 1) 0 = some x := by
      rw [lookup, hp, if_pos]
      unfold Bufmap.Map.keyAt; rw [hsl]; exact hk
    rw [hlook]
    simp only
    rw [hsl, if_neg heven, hsm.hs, hsm.vlen, if_neg (by omega)]
    congr 2
    have e1 : x * (s + 1) = x * s + x := Nat.mul_succ x s
    have hslen : (slice (mapOf l s E).values (x * s) (x * (s + 1))).length = x := by
      rw [slice_length _ _ _ (by rw [hsm.vlen]; omega)]; omega
    have htake : (slice (mapOf l s E).values (x * s) (x * (s + 1))).take s = b.take x := by
      apply List.ext_getElem?
      intro i
      rw [List.getElem?_take, List.getElem?_take, slice_getElem?, ← hb]
      by_cases h1 : i < s
      · rw [if_pos h1, bytesOf_getElem? _ _ _ _ h1]
        by_cases h2 : i < x
        · rw [if_pos (by omega), if_pos h2, hsm.vals _ (by omega)]
        · rw [if_neg (by omega), if_neg h2]
      · rw [if_neg h1]
        split
        · rw [List.getElem?_eq_none (by rw [bytesOf_length]; omega)]
        · rfl
    rw [List.length_replicate, htake, hslen, List.drop_replicate]
    unfold seen
    rw [hlb]
    rfl
  obtain ⟨m', a1, a2, a3, a4, a5⟩ := C35_get_alone l s t hl E (mapOf l s E) (same_mapOf l s E) hpc k _ _ _ hget
  subst hs
  refine ⟨m', StoreConc.Steps.trans (.tail (.refl _) (.read ⟨E, calls⟩ t q k hpc hq)) (alone_lift a1 _), a2, a3, a4, a5, ?_⟩
  rw [alone_invs a1, call_invs, List.length_append]
  rfl

/-- Two Writes of one key with no record yet. The first stores the key and is then held up; the second runs, not being told that the record is new, and a Read after it
returns; then the first goes on and is told that the record is new; and another Read follows. -/
theorem race_between (lib : Lib) (c : Collator) (l : Nat) (hl : 0 < l) (k : U64) (h0 : k ≠ 0) (r₀ r₁ : Row) (q : Query)
    (hk₀ : keyValue r₀.data c.keys = some k) (hk₁ : keyValue r₁.data c.keys = some k) (hq : keyValue q.criteria c.keys = some k)
    (b₁ b₂ : Bytes) (e₁ e₀ : Option Err) (hu₁ : Collation.update lib c r₁ (blank c) false = (b₁, .val e₁))
    (hu₀ : Collation.update lib c r₀ b₁ true = (b₂, .val e₀)) (hhigh : k.toNat % l * (c.size.toNat + 1) ≤ l * c.size.toNat) :
    ∃ σ σ' σ'', StoreConc.Steps lib c l StoreConc.init σ ∧ StoreConc.Steps lib c l σ σ' ∧ StoreConc.Steps lib c l σ' σ'' ∧
      σ.calls = [.write r₀, .write r₁, .read q] ∧ σ.m.rets = [(1, .ran e₁), (2, .got true (seen (k.toNat % l) b₁) 0)] ∧
      σ'.calls = σ.calls ∧ σ'.m.rets = σ.m.rets ++ [(0, .ran e₀)] ∧
      σ''.calls = σ'.calls ++ [.read q] ∧ σ''.m.rets = σ'.m.rets ++ [(3, .got true (seen (k.toNat % l) b₂) 0)] := by
  have hp : pos l k 0 = k.toNat % l := by unfold pos; rw [Nat.add_zero, Nat.mod_mod]
  have hxl : k.toNat % l < l := Nat.mod_lt _ hl
  generalize hx : k.toNat % l = x at *
  generalize hs : c.size.toNat = s at *
  have f₀ := performs_rewrite lib c r₀
  have f₁ := performs_rewrite lib c r₁
  generalize hf0 : rewrite (Collation.update lib c r₀) = fn₀ at *
  generalize hf1 : rewrite (Collation.update lib c r₁) = fn₁ at *
  have s1 := update_probe (t := 0) hl (same_init l s) h0 fn₀
  have c1 : claim (Bufmap.new l s).keyAt l k (maxReprobe + 1) 0 false = .at x true := by
    have : (Bufmap.new l s).keyAt x = 0 := by
      unfold Bufmap.Map.keyAt; rw [(same_init l s).slot x hxl]; rfl
    rw [claim, hp, this, if_neg (Ne.symm h0), if_pos rfl]
  rw [c1] at s1
  simp only at s1
  generalize hA : (⟨Probe.upd (fun _ => 0) x k, Cell.init, Probe.upd (fun _ => PC.idle) 0 (PC.w k x ⟨0, fn₀, true⟩ .lock), [.upd k fn₀], []⟩ :
    BufmapConc.State) = A
  replace s1 : Alone l s 0 (call BufmapConc.init 0 (.upd k fn₀)) A := by rw [← hA]; exact s1
  have s2 := update_probe (t := 1) hl (same_mapOf l s A) h0 fn₁
  have c2 : claim (mapOf l s A).keyAt l k (maxReprobe + 1) 0 false = .at x false := by
    have : (mapOf l s A).keyAt x = k := by
      unfold Bufmap.Map.keyAt; rw [(same_mapOf l s A).slot x hxl, ← hA]; simp [upd]
    rw [claim, hp, this, if_pos rfl]
  rw [c2] at s2
  simp only at s2
  have hAi : A.invs = [.upd k fn₀] := by rw [← hA]
  have hAr : A.rets = [] := by rw [← hA]
  have hAc : A.cells = Cell.init := by rw [← hA]
  have hA0 : A.pc 0 = .w k x ⟨0, fn₀, true⟩ .lock := by rw [← hA]; simp [upd]
  have hAp : ∀ t, t ≠ 0 → A.pc t = .idle := by intro t ht; rw [← hA]; simp [upd, ht]
  have hblank : bytesOf s Cell.init x = blank c := by
    unfold bytesOf blank
    rw [hs]
    show (List.range s).map (fun _ => (0#8)) = _
    rw [List.map_const', List.length_range]
  have hbl : (blank c).length = c.size.toNat := by unfold blank; rw [List.length_replicate]
  generalize hC : ({ A with invs := A.invs ++ [.upd k fn₁], keys := upd A.keys x k, pc := upd A.pc 1 (.w k x ⟨A.invs.length, fn₁, false⟩ .lock) } :
    BufmapConc.State) = C at s2
  have hCp : C.pc 1 = .w k x ⟨1, fn₁, false⟩ .lock := by rw [← hC]; simp only [upd_same]; rw [hAi]; rfl
  have hCc : C.cells = Cell.init := by rw [← hC]; exact hAc
  have hb₁ := f₁ (blank c) false hbl
  rw [hu₁] at hb₁
  obtain ⟨cells₁, w1, w2, w3, w4, w5, _⟩ := BufmapConc.write_alone (l := l) (s := s) hCp (by rw [hCc]; rfl)
    (by rw [hCc, hblank]; intro w hw; rw [← hs, ← hbl]; exact hb₁.1 w hw) (err := e₁) (by rw [hCc, hblank]; exact hb₁.2.2)
  have hb₁' : runAlone (bytesOf s C.cells x) ⟨1, fn₁, false⟩ = b₁ := by rw [hCc, hblank]; exact hb₁.2.1
  rw [hb₁'] at w5
  have hlb₁ : b₁.length = c.size.toNat := by rw [← w5, bytesOf_length, hs]
  generalize hD : ({ C with cells := cells₁, pc := upd C.pc 1 .idle, rets := C.rets ++ [(1, .ran e₁)] } : BufmapConc.State) = D at w1
  have hDc : D.cells = cells₁ := by rw [← hD]
  have hDp : D.pc 0 = .w k x ⟨0, fn₀, true⟩ .lock := by
    rw [← hD]; simp only; rw [upd_other _ _ (by decide), ← hC]; simp only; rw [upd_other _ _ (by decide)]; exact hA0
  have hD2 : ∀ t, 2 ≤ t → D.pc t = .idle := by
    intro t ht
    rw [← hD]; simp only; rw [upd_other _ _ (by omega), ← hC]; simp only; rw [upd_other _ _ (by omega)]; exact hAp t (by omega)
  have hDi : D.invs = [.upd k fn₀, .upd k fn₁] := by rw [← hD, ← hC]; simp only; rw [hAi]; rfl
  have hDr : D.rets = [(1, .ran e₁)] := by rw [← hD, ← hC]; simp only; rw [hAr]; rfl
  have hDk : D.keys x = k := by rw [← hD, ← hC]; simp only; exact upd_same _ _ _
  -- the Read in between
  obtain ⟨F, r1, r2, r3, r4, r5, r6⟩ := read_here lib c l hl hq (E := D) (calls := [.write r₀, .write r₁]) (t := 2) (hD2 2 (by omega)) (by rw [hx]; exact hDk)
    (by
      rw [hx, hDc, w2, upd_same, hCc]
      show ¬ ((0 : BitVec 32) + 2).toNat % 2 ≠ 0
      decide) (b := b₁) (by rw [hs, hx, hDc, w5]) (by rw [hx, hs]; exact hhigh)
  rw [hx] at r3
  have hFp : F.pc 0 = .w k x ⟨0, fn₀, true⟩ .lock := by rw [r2]; exact hDp
  have hFc : F.cells = cells₁ := by rw [r5, hDc]
  -- the first Write goes on
  have hb₀ := f₀ b₁ true hlb₁
  rw [hu₀] at hb₀
  obtain ⟨cells₂, v1, v2, v3, v4, v5, _⟩ := BufmapConc.write_alone (l := l) (s := s) hFp (by rw [hFc, w3, hCc]; rfl)
    (by rw [hFc, w5]; intro w hw; rw [← hs, ← hlb₁]; exact hb₀.1 w hw) (err := e₀) (by rw [hFc, w5]; exact hb₀.2.2)
  have hb₀' : runAlone (bytesOf s F.cells x) ⟨0, fn₀, true⟩ = b₂ := by rw [hFc, w5]; exact hb₀.2.1
  rw [hb₀'] at v5
  generalize hE : ({ F with cells := cells₂, pc := upd F.pc 0 .idle, rets := F.rets ++ [(0, .ran e₀)] } : BufmapConc.State) = E at v1
  have hEp : E.pc 2 = .idle := by
    rw [← hE]; simp only; rw [upd_other _ _ (by decide), r2]; exact hD2 2 (by omega)
  have hEk : E.keys x = k := by rw [← hE]; simp only; rw [r4]; exact hDk
  obtain ⟨G, g1, g2, g3, g4, g5, g6⟩ := read_here lib c l hl hq (E := E) (calls := [.write r₀, .write r₁, .read q]) (t := 2) hEp (by rw [hx]; exact hEk)
    (by
      rw [hx, ← hE]
      simp only
      rw [v2, upd_same, hFc, w2, upd_same, hCc]
      show ¬ ((0 : BitVec 32) + 2 + 2).toNat % 2 ≠ 0
      decide) (b := b₂) (by rw [hs, hx, ← hE]; exact v5) (by rw [hx, hs]; exact hhigh)
  rw [hx] at g3
  have hEi : E.invs.length = 3 := by rw [← hE]; simp only; rw [r6, hDi]; rfl
  rw [hEi] at g3
  rw [hDr, hDi] at r3
  subst hs
  refine ⟨⟨F, [.write r₀, .write r₁, .read q]⟩, ⟨E, [.write r₀, .write r₁, .read q]⟩, ⟨G, [.write r₀, .write r₁, .read q, .read q]⟩, ?_, alone_lift v1 _, g1, rfl, r3, rfl,
    by rw [← hE], rfl, g3⟩
  have t1 : StoreConc.Steps lib c l StoreConc.init ⟨A, [.write r₀]⟩ :=
    StoreConc.Steps.trans (.tail (.refl _) (.write StoreConc.init 0 r₀ k fn₀ rfl hk₀ f₀)) (alone_lift s1 _)
  have t2 : StoreConc.Steps lib c l ⟨A, [.write r₀]⟩ ⟨D, [.write r₀, .write r₁]⟩ :=
    StoreConc.Steps.trans (.tail (.refl _) (.write ⟨A, [.write r₀]⟩ 1 r₁ k fn₁ (hAp 1 (by decide)) hk₁ f₁))
      (alone_lift (s2.trans w1) _)
  exact (t1.trans t2).trans r1

/-- what a Read of France says of max(height) after a Write that carries one height -/
theorem max_after (lib : Lib) {v : Bytes} {y : F64} (hy : lib.parseFloat v = some y) (init : Bool) (b b' : Bytes)
    (hb : b.length = (compile Demo.country).size.toNat) (hu : Collation.update lib (compile Demo.country) (seenHeight (asc "FR") v).row b init = (b', .val none))
    {z : F64} (hz : F64.Wf z) (hput : (contWriterFn .max (slice b 104 112) init y).1 = le64 (F64.toBits z)) :
    readReply lib (compile Demo.country) ⟨[⟨asc "height", [asc "max"]⟩], [⟨asc "country", asc "FR"⟩]⟩
        (.got true (seen ((12582602682680778473 : U64).toNat % Demo.slots) b') 0) =
      some (.val ([⟨asc "height", asc "max", z⟩], none)) := by
  obtain ⟨L, D, pos, h, hD⟩ := laid_compile Demo.country country_valid
  have hsz : (compile Demo.country).size.toNat = 900 := by rw [country_size]; rfl
  have hval : numbersOf lib (asc "height") [(seenHeight (asc "FR") v).row] = [y] := by
    unfold numbersOf valuesOf seenHeight
    simp only [List.flatMap_cons, List.flatMap_nil, List.append_nil, List.filterMap_cons, List.filterMap_nil]
    rw [if_neg (by decide), if_true]
    simp [hy]
  obtain ⟨r, w, g1, g2, g3, e1, e2, hc, hin⟩ := cont_reader h ((hD _ _).2 height_declares) rfl
  have hrr : ⟨104, 112, .max⟩ = r := Option.some.inj (height_reader.symm.trans g1)
  have hwm := compat_eq hc rfl
  obtain ⟨a1, a2⟩ := row_effect lib h g3 init (seenHeight (asc "FR") v).row b _ hb hu
  rw [fold_cont] at a2
  have hnum : ((((seenHeight (asc "FR") v).row.data.filterMap fun fv => if fv.f = asc "height" then some fv.v else none)).filterMap
      lib.parseFloat) = [y] := by
    rw [← hval]; unfold numbersOf valuesOf; simp
  rw [hnum, hwm, List.foldl_cons, List.foldl_nil] at a2
  rw [← hrr] at e1 e2 hin
  have e1 : w.low = 104 := e1
  have e2 : w.high = 112 := e2
  rw [e1, e2, show rowEff (.cont (asc "height")) (slice b (104 : Int).toNat (112 : Int).toNat) = slice b 104 112 from rfl, hput] at a2
  have key := ask_reply lib height_reader (seen ((12582602682680778473 : U64).toNat % Demo.slots) b')
  have hlen : b'.length = (compile Demo.country).size.toNat := a1
  unfold readReply
  simp only
  have e3 : Collation.read lib (compile Demo.country) [⟨asc "height", [asc "max"]⟩] (seen ((12582602682680778473 : U64).toNat % Demo.slots) b') =
    ask lib (compile Demo.country) (seen ((12582602682680778473 : U64).toNat % Demo.slots) b') (asc "height") (asc "max") := rfl
  rw [e3, key]
  rw [cell_read_eq lib hin (by rw [seen_length]; exact hlen),
    slice_seen (by decide) (by rw [hlen, hsz]; decide), a2]
  rw [(read_max lib hz).1]
  rfl

/-- **C94 fails** when a record is created by two Writes at once, in the program with ISO country codes: two goroutines Write the first observations of France, with heights 3
(call 0) and 5 (call 1). The second returns, and a Read called after that answers that max(height) is 5; then the first returns, and a Read called after that answers that max(height) is 3. -/
theorem race_store (lib : Lib) (h5 : lib.parseFloat (asc "5") = some (F64.ofNat 5)) (h3 : lib.parseFloat (asc "3") = some (F64.ofNat 3)) :
    ∃ σ σ' σ'' buf buf', StoreConc.Steps lib (compile Demo.country) Demo.slots StoreConc.init σ ∧ StoreConc.Steps lib (compile Demo.country) Demo.slots σ σ' ∧
      StoreConc.Steps lib (compile Demo.country) Demo.slots σ' σ'' ∧
      σ.calls = [.write (seenHeight (asc "FR") (asc "3")).row, .write (seenHeight (asc "FR") (asc "5")).row,
        .read ⟨[⟨asc "height", [asc "max"]⟩], [⟨asc "country", asc "FR"⟩]⟩] ∧
      σ.m.rets = [(1, .ran none), (2, .got true buf 0)] ∧ σ'.calls = σ.calls ∧ σ'.m.rets = σ.m.rets ++ [(0, .ran none)] ∧
      σ''.calls = σ'.calls ++ [.read ⟨[⟨asc "height", [asc "max"]⟩], [⟨asc "country", asc "FR"⟩]⟩] ∧ σ''.m.rets = σ'.m.rets ++ [(3, .got true buf' 0)] ∧
      readReply lib (compile Demo.country) ⟨[⟨asc "height", [asc "max"]⟩], [⟨asc "country", asc "FR"⟩]⟩ (.got true buf 0) =
        some (.val ([⟨asc "height", asc "max", F64.ofNat 5⟩], none)) ∧
      readReply lib (compile Demo.country) ⟨[⟨asc "height", [asc "max"]⟩], [⟨asc "country", asc "FR"⟩]⟩ (.got true buf' 0) =
        some (.val ([⟨asc "height", asc "max", F64.ofNat 3⟩], none)) := by
  obtain ⟨L, D, pos, h, hD⟩ := laid_compile Demo.country country_valid
  have kFR' : keyValue [⟨asc "country", asc "FR"⟩] Demo.country.keys = some 12582602682680778473 := by decide +kernel
  have kFR : ∀ v, keyValue (seenHeight (asc "FR") v).row.data Demo.country.keys = some 12582602682680778473 := by
    intro v
    rw [← kFR']
    apply C28_key
    intro k hk
    have : k = asc "country" := by simpa [Demo.country] using hk
    subst this
    unfold valueOf seenHeight
    rw [List.find?_cons_of_pos (by simp), List.find?_cons_of_pos (by simp)]
  have hkeys : (compile Demo.country).keys = Demo.country.keys := compile_keys _
  have hsz : (compile Demo.country).size.toNat = 900 := by rw [country_size]; rfl
  obtain ⟨b₁, hu₁, hb₁⟩ := update_plain lib h hD (hold_blank h) false (seenHeight (asc "FR") (asc "5")).row
    (height_all_plain (by rw [h5]; simp) _)
  obtain ⟨b₂, hu₂, hb₂⟩ := update_plain lib h hD hb₁ true (seenHeight (asc "FR") (asc "3")).row (height_all_plain (by rw [h3]; simp) _)
  obtain ⟨σ, σ', σ'', t1, t2, t3, t4, t5, t6, t7, t8, t9⟩ := race_between lib (compile Demo.country) Demo.slots (by decide) 12582602682680778473 (by decide)
    (seenHeight (asc "FR") (asc "3")).row (seenHeight (asc "FR") (asc "5")).row
    ⟨[⟨asc "height", [asc "max"]⟩], [⟨asc "country", asc "FR"⟩]⟩ (by rw [hkeys]; exact kFR _) (by rw [hkeys]; exact kFR _)
    (by rw [hkeys]; exact kFR') b₁ b₂ none none hu₁ hu₂ (by rw [hsz]; decide)
  refine ⟨σ, σ', σ'', _, _, t1, t2, t3, t4, t5, t6, t7, t8, t9, ?_, ?_⟩
  · refine max_after lib h5 false (blank _) b₁ (by unfold blank; rw [List.length_replicate]) hu₁ (F64.wf_ofNat 5) ?_
    have : slice (blank (compile Demo.country)) 104 112 = le64 (F64.toBits (.fin false 0)) := by
      unfold blank
      rw [hsz]
      decide +kernel
    rw [this]
    decide +kernel
  · refine max_after lib h3 true b₁ b₂ hb₁.len hu₂ (F64.wf_ofNat 3) ?_
    rw [contWriterFn, maxWriter, if_pos rfl, putFloat_eq _ ?_]
    have hl₁ : b₁.length = (compile Demo.country).size.toNat := hb₁.len
    rw [hsz] at hl₁
    rw [slice_length _ _ _ (by rw [hl₁]; decide)]

section
open Starbow.Server Starbow.ServerConc

/-- **C94 fails** of the program when the first two observations of a key value are posted at once: there is an execution in which heights 3 and 5 of France are posted (requests 0 and 1), the
post of 5 is acknowledged (`σ`), a query received after that (request 2) is answered that max(height) is 5, the post of 3 is acknowledged (`σ'`), and the same query received after that (request
3) is answered that max(height) is 3 (`σ''`): a maximum went down. -/
theorem C94_race_refuted (env : Env) (hord : ∀ l, (env.ord l).Perm l)
    (h5 : env.lib.parseFloat (asc "5") = some (F64.ofNat 5)) (h3 : env.lib.parseFloat (asc "3") = some (F64.ofNat 3)) :
    ∃ σ σ' σ'', ServerConc.Steps env demoConfs ServerConc.init σ ∧ ServerConc.Steps env demoConfs σ σ' ∧ ServerConc.Steps env demoConfs σ' σ'' ∧
      σ.reqs = [post (asc "0;country=FR;height=3\n"), post (asc "0;country=FR;height=5\n"),
        askFor (asc "country") (asc "select max(height) where country='FR'")] ∧
      σ''.reqs = σ.reqs ++ [askFor (asc "country") (asc "select max(height) where country='FR'")] ∧
      (1, .ok []) ∈ σ.replies ∧ (∀ rep, (0, rep) ∉ σ.replies) ∧ (0, .ok []) ∈ σ'.replies ∧ σ'.reqs = σ.reqs ∧
      (2, .ok (asc "country=FR\nmax(height)=" ++ env.fmtFloat (F64.ofNat 5) ++ asc "\n")) ∈ σ.replies ∧
      (3, .ok (asc "country=FR\nmax(height)=" ++ env.fmtFloat (F64.ofNat 3) ++ asc "\n")) ∈ σ''.replies := by
  obtain ⟨τ, τ', τ'', buf, buf', t1, t2, t3, u1, u2, u3, u4, u5, u6, u7, u8⟩ := race_store env.lib h5 h3
  obtain ⟨c, hceq⟩ : ∃ c, c = (⟨compile Demo.country, Demo.slots⟩ : Conf) := ⟨_, rfl⟩
  have hc : demoConfs[0]? = some c := by rw [hceq]; rfl
  have hcoll : compile Demo.country = c.coll := by rw [hceq]
  have hslots : Demo.slots = c.slots := by rw [hceq]
  have hpos : 0 < c.slots := by rw [← hslots]; decide
  have hsize : 0 ≤ c.coll.size := by rw [← hcoll, country_size]; decide
  have hname : c.coll.name = asc "country" := by rw [← hcoll]; exact compile_name Demo.country
  rw [hcoll, hslots] at t1 t2 t3
  rw [hcoll] at u7 u8
  have hask : ∀ call ∈ τ''.calls, Asks env demoConfs 0 call (heightReq call) := by
    intro call hcall
    rw [u5, u3, u1] at hcall
    simp only [List.cons_append, List.nil_append, List.mem_cons, List.not_mem_nil, or_false] at hcall
    have hq : Asks env demoConfs 0 (.read ⟨[⟨asc "height", [asc "max"]⟩], [⟨asc "country", asc "FR"⟩]⟩)
        (heightReq (.read ⟨[⟨asc "height", [asc "max"]⟩], [⟨asc "country", asc "FR"⟩]⟩)) := by
      refine task_ask env demoConfs (asc "country") _ country_name _ ?_ 0 c hc hname (by omega)
      rw [roughParse_ord env.ord (q := ⟨[⟨asc "height", [asc "max"]⟩], [⟨asc "country", asc "FR"⟩]⟩) (by decide +kernel),
        List.perm_singleton.1 (hord _)]
    rcases hcall with rfl | rfl | rfl | rfl
    · exact height_asks env _ (.inl rfl)
    · exact height_asks env _ (.inr rfl)
    · exact hq
    · exact hq
  obtain ⟨σ, a1, a2⟩ := driven_steps (env := env) (mk := heightReq) hc hsize hpos (.refl _) t1
    (fun call h => hask call (by rw [u5, u3]; simp [h])) (driven_init 0 c heightReq)
  obtain ⟨σ', b1, b2⟩ := driven_steps hc hsize hpos t1 t2 (fun call h => hask call (by rw [u5]; simp [h])) a2
  obtain ⟨σ'', d1, d2⟩ := driven_steps hc hsize hpos (t1.trans t2) t3 hask b2
  have e3 : heightReq (.write (seenHeight (asc "FR") (asc "3")).row) = post (asc "0;country=FR;height=3\n") := by
    rw [show asc "0;country=FR;height=3\n" = unlines ([heightLine (asc "3")].map Line.text) by decide +kernel]
    unfold heightReq
    simp only
    rw [if_pos (by decide +kernel)]
    rfl
  have e5 : heightReq (.write (seenHeight (asc "FR") (asc "5")).row) = post (asc "0;country=FR;height=5\n") := by
    rw [show asc "0;country=FR;height=5\n" = unlines ([heightLine (asc "5")].map Line.text) by decide +kernel]
    unfold heightReq
    simp only
    rw [if_neg (by decide +kernel)]
    rfl
  refine ⟨σ, σ', σ'', a1, b1, d1, ?_, ?_, ?_, ?_, ?_, ?_, ?_, ?_⟩
  · rw [a2.reqs, u1]
    simp only [List.map_cons, List.map_nil]
    rw [e3, e5]
    rfl
  · rw [d2.reqs, u5, u3, List.map_append, a2.reqs]; rfl
  · rw [a2.replies]
    refine ⟨_, .ran none, by rw [u1]; rfl, by rw [u2]; simp, ?_⟩
    unfold answerOf
    simp only
    rw [if_pos (show StoreConc.writeReply (.ran none) = some none from rfl)]
  · intro rep h
    rw [a2.replies] at h
    obtain ⟨_, ret, _, h2, _⟩ := h
    rw [u2] at h2
    simp at h2
  · rw [b2.replies]
    refine ⟨_, .ran none, by rw [u3, u1]; rfl, by rw [u4]; simp, ?_⟩
    unfold answerOf
    simp only
    rw [if_pos (show StoreConc.writeReply (.ran none) = some none from rfl)]
  · rw [b2.reqs, u3, a2.reqs]
  · rw [a2.replies]
    refine ⟨_, .got true buf 0, by rw [u1]; rfl, by rw [u2]; simp, ?_⟩
    unfold answerOf
    simp only
    rw [u7]
    unfold queryReply
    simp only
    rw [render_one]
    congr 1
  · rw [d2.replies]
    refine ⟨_, .got true buf' 0, by rw [u5, u3, u1]; rfl, by rw [u6]; simp, ?_⟩
    unfold answerOf
    simp only
    rw [u8]
    unfold queryReply
    simp only
    rw [render_one]
    congr 1

end

end Starbow.Props
