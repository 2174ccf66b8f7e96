import Verif.Props.Unknown
/-
Property theorem C97: observations without a field do not change its statistics.
-/
namespace Starbow.Props
open Starbow.Collation Starbow.Spec Starbow.Storage Starbow.Server Starbow.Bufmap

/-! ### reading what has not been written -/

theorem slice_getElem? (d : Bytes) (lo hi i : Nat) : (slice d lo hi)[i]? = if i < hi - lo then d[lo + i]? else none := by
  unfold slice
  rw [List.getElem?_take, List.getElem?_drop]

theorem seen_getElem? (x : Nat) (d : Bytes) (i : Nat) : (seen x d)[i]? = if i < x then d[i]? else if i < d.length then some 0#8 else none := by
  unfold seen
  rw [List.getElem?_append, List.length_take]
  by_cases hx : i < x
  · by_cases hd : i < d.length
    · rw [if_pos (by omega), if_pos hx, List.getElem?_take, if_pos hx]
    · rw [if_neg (by omega), if_pos hx, List.getElem?_replicate, if_neg (by omega), List.getElem?_eq_none (by omega)]
  · rw [if_neg (by omega), if_neg hx, List.getElem?_replicate]
    by_cases hd : i < d.length
    · rw [if_pos (by omega), if_pos hd]
    · rw [if_neg (by omega), if_neg hd]

/-- what is seen of some bytes of a record depends on these bytes only -/
theorem seen_slice (x lo hi : Nat) {d d' : Bytes} (hl : d.length = d'.length) (h : slice d lo hi = slice d' lo hi) :
    slice (seen x d) lo hi = slice (seen x d') lo hi := by
  apply List.ext_getElem?
  intro i
  have hi' := congrArg (fun s : Bytes => s[i]?) h
  simp only [slice_getElem?] at hi' ⊢
  rw [seen_getElem?, seen_getElem?, hl]
  by_cases h1 : i < hi - lo
  · rw [if_pos h1, if_pos h1] at hi'
    rw [hi']
  · rw [if_neg h1, if_neg h1]

theorem readField_congr (lib : Lib) (f : Bytes) (rs : GoMap Cell) (buf buf' : Bytes) (h : ∀ n r, rs n = some r → r.read lib buf = r.read lib buf') :
    ∀ (ms : List Bytes) (res : List FMV), readField lib f rs buf ms res = readField lib f rs buf' ms res
  | [], _ => rfl
  | m :: ms, res => by
    rw [readField, readField]
    cases hr : rs m with
    | none => exact readField_congr lib f rs buf buf' h ms res
    | some r =>
      simp only
      rw [h m r hr]
      simp only [readField_congr lib f rs buf buf' h ms]

theorem readLoop_congr (lib : Lib) (c : Collator) (buf buf' : Bytes) : ∀ (fml : List FM) (_ : ∀ fm ∈ fml, ∀ n r, readerAt c fm.f n = some r → r.read lib buf = r.read lib buf')
    (res : List FMV), readLoop lib c buf fml res = readLoop lib c buf' fml res
  | [], _, _ => rfl
  | fm :: fml, h, res => by
    have ih := readLoop_congr lib c buf buf' fml fun fm' hfm => h fm' (by simp [hfm])
    rw [readLoop, readLoop]
    cases hr : c.contReaders fm.f with
    | none => exact ih res
    | some rs =>
      simp only
      rw [readField_congr lib fm.f rs buf buf' (fun n r hn => h fm (by simp) n r (by unfold readerAt; rw [hr]; exact hn))]
      simp only [ih]

section
variable {sch : Schema} {L : List (Owner × Cell)} {D : List (Bytes × Measure)} {pos : Int} {l : Nat}

/-- two records that agree on the bytes of the fields asked for are read alike, truncated or not -/
theorem read_untouched (lib : Lib) (h : Laid ⟨compile sch, pos⟩ L D) {P : Bytes → Prop} {d d' : Bytes} (hl : d.length = d'.length)
    (hs : ∀ o w, (o, w) ∈ L → (∃ f, o.serves f ∧ P f) → slice d w.low.toNat w.high.toNat = slice d' w.low.toNat w.high.toNat) (x : Nat) (fml : List FM)
    (hP : ∀ fm ∈ fml, P fm.f) : Collation.read lib (compile sch) fml (seen x d) = Collation.read lib (compile sch) fml (seen x d') := by
  refine readLoop_congr lib _ _ _ fml ?_ []
  intro fm hfm n r hr
  obtain ⟨_, _, o, w, hw, e1, e2, e3, _⟩ := h.reader fm.f n r hr
  have hsl := seen_slice x w.low.toNat w.high.toNat hl (hs o w hw ⟨fm.f, e3, hP fm hfm⟩)
  rw [e1, e2] at hsl
  unfold Cell.read
  rw [Storage.seen_length, Storage.seen_length, hl, hsl]

/-- an observation that carries none of the fields, accepted or not, leaves their bytes alone -/
theorem update_untouched (lib : Lib) (h : Laid ⟨compile sch, pos⟩ L D) {P : Bytes → Prop} (hstar : ¬ P rowPseudoField) (r : Row) (hr : ∀ fv ∈ r.data, ¬ P fv.f)
    (init : Bool) {buf : Bytes} (hl : buf.length = (compile sch).size.toNat) {o : Owner} {w : Cell} (hw : (o, w) ∈ L) (ho : ∃ f, o.serves f ∧ P f) :
    slice (Collation.update lib (compile sch) r buf init).1 w.low.toNat w.high.toNat = slice buf w.low.toNat w.high.toNat := by
  obtain ⟨f, hf, hPf⟩ := ho
  have hrow : o ≠ .row := by
    rintro rfl
    have hf : f = rowPseudoField := hf
    exact hstar (hf ▸ hPf)
  have hcont : ∀ g, ¬ P g → o ≠ .cont g := by
    rintro g hg rfl
    have hf : f = g := hf
    exact hg (hf ▸ hPf)
  have hdisc : ∀ g, ¬ P g → o ≠ .disc g := by
    rintro g hg rfl
    have hf : f = g := hf
    exact hg (hf ▸ hPf)
  unfold Collation.update
  refine (leaves_run _ ?_ buf hl).2
  intro k hk
  rcases List.mem_append.1 hk with hk | hk
  · rw [show (compile sch).writers = _ from h.rows] at hk
    exact leaves_owner h hw (Ne.symm hrow) (fun _ => countWriter) (fun _ d => countWriter_length d) k hk
  · obtain ⟨fv, hfv, hk⟩ := List.mem_flatMap.1 hk
    have hne := hr fv hfv
    unfold fieldWriters at hk
    rcases List.mem_append.1 hk with hk | hk
    · rw [show (compile sch).contWriters fv.f = _ from h.cont fv.f] at hk
      unfold toOpt at hk
      split at hk
      · simp [contWriters] at hk
      · rw [contWriters] at hk
        cases hp : lib.parseFloat fv.v with
        | none =>
          rw [hp] at hk
          simp only [List.mem_singleton] at hk
          subst hk
          intro buf hl; exact ⟨hl, rfl⟩
        | some x =>
          rw [hp] at hk
          exact leaves_owner h hw (o' := .cont fv.f) (Ne.symm (hcont fv.f hne))
            (fun w d => contWriterFn w.m d init x) (fun w d => contWriterFn_length _ _ _ _) k hk
    · rw [show (compile sch).discWriters fv.f = _ from h.disc fv.f] at hk
      unfold toOpt at hk
      split at hk
      · simp [discWriters] at hk
      · exact leaves_owner h hw (o' := .disc fv.f) (Ne.symm (hdisc fv.f hne))
          (fun w d => discWriterFn w.m d init fv.v) (fun w d => discWriterFn_length _ _ _ _) k hk

end

/-! ### a store -/

/-- a store in order, of any schema and size -/
def Orderly (st : Store) : Prop := ∃ sch L D pos l, Laid ⟨compile sch, pos⟩ L D ∧ Good sch L pos l st

/-- what the records of the one store say about the fields, those of the other say too; there may be more records -/
def Retains (P : Bytes → Prop) (lib : Lib) (st st' : Store) : Prop :=
  st'.coll = st.coll ∧ (Orderly st → Orderly st') ∧
    ∀ q : Query, (∀ fm ∈ q.fieldMeasures, P fm.f) → keyValue q.criteria st.coll.keys ≠ some 0 → read lib st q ≠ .ret ([], none) → read lib st' q = read lib st q

theorem Retains.refl (P : Bytes → Prop) (lib : Lib) (st : Store) : Retains P lib st st := ⟨rfl, id, fun _ _ _ _ => rfl⟩

theorem Retains.trans {P : Bytes → Prop} {lib : Lib} {a b c : Store} (h1 : Retains P lib a b) (h2 : Retains P lib b c) : Retains P lib a c := by
  refine ⟨h2.1.trans h1.1, h2.2.1 ∘ h1.2.1, ?_⟩
  intro q hq hk hne
  have e := h1.2.2 q hq hk hne
  rw [h2.2.2 q hq (by rw [h1.1]; exact hk) (by rw [e]; exact hne), e]

theorem write_retains (lib : Lib) {P : Bytes → Prop} (hstar : ¬ P rowPseudoField) {st : Store} (hg : Orderly st) (canceled : Bool) (r : Row)
    (hr : ∀ fv ∈ r.data, ¬ P fv.f) : Retains P lib st (write lib st canceled r).1 := by
  obtain ⟨sch, L, D, pos, l, h, hg⟩ := hg
  have hg' := good_write lib h hg canceled r
  have hin : Orderly (write lib st canceled r).1 := ⟨sch, L, D, pos, l, h, hg'⟩
  refine ⟨by rw [hg'.coll, hg.coll], fun _ => hin, ?_⟩
  intro q hq hk0 hne
  cases hk : keyValue q.criteria sch.keys with
  | none => exact absurd (read_nokey lib hg hk) hne
  | some k =>
    have h0 : k ≠ 0 := by
      rintro rfl
      exact hk0 (by rw [hg.coll, compile_keys]; exact hk)
    cases hs : slotOf st.backend k with
    | none => exact absurd (read_absent lib h hg hk hs) hne
    | some y =>
      have hy := ((slotOf_eq hg.wf h0).1 hs)
      have key : slotOf (write lib st canceled r).1.backend k = some y ∧ (slotBytes (write lib st canceled r).1.backend y).length = (slotBytes st.backend y).length ∧
          ∀ o w, (o, w) ∈ L → (∃ f, o.serves f ∧ P f) →
            slice (slotBytes (write lib st canceled r).1.backend y) w.low.toNat w.high.toNat = slice (slotBytes st.backend y) w.low.toNat w.high.toNat := by
        cases write_cases lib h hg canceled r with
        | nokey hk' e => rw [e]; exact ⟨hs, rfl, fun _ _ _ _ => rfl⟩
        | refused k' hk' e he hwhy hw => rw [hw]; exact ⟨hs, rfl, fun _ _ _ _ => rfl⟩
        | ran k' hk' hc h0' x hx hxk hslot init hinit hdata hkeys e he hu hw =>
          rw [hw]
          by_cases hkk : k' = k
          · subst hkk
            have hyx : y = x := by
              rcases hslot with e | e
              · exact Option.some.inj (hs.symm.trans e)
              · rw [hs] at e; simp at e
            subst hyx
            have hl := (hg.hold y hx).len
            have hb : slotBytes (Bufmap.after st.backend k' y (Collation.update lib (compile sch) r (slotBytes st.backend y) init).1) y =
                (Collation.update lib (compile sch) r (slotBytes st.backend y) init).1 := by
              rw [slotBytes_after_same hg.wf k' hx, overwrite_same]
              rw [(update_length lib h (hg.hold y hx) init r).len, hl]
            refine ⟨(contentOf_after_same hg.wf h0 hx _ hkeys).1, ?_, ?_⟩
            · show (slotBytes (Bufmap.after _ _ _ _) _).length = _
              rw [hb, (update_length lib h (hg.hold y hx) init r).len, hl]
            · intro o w hw' ho
              show slice (slotBytes (Bufmap.after _ _ _ _) _) _ _ = _
              rw [hb]
              exact update_untouched lib h hstar r hr init hl hw' ho
          · have hyx : y ≠ x := by
              rintro rfl
              rcases hxk with e | e
              · exact hkk (e.symm.trans hy.2)
              · exact h0 (hy.2.symm.trans e)
            refine ⟨(slotOf_after_other hg.wf h0' h0 (fun e => hkk e.symm) hx hxk _ hkeys).1.trans hs, ?_, ?_⟩
            · show (slotBytes (Bufmap.after _ _ _ _) _).length = _
              rw [slotBytes_after_other hg.wf k' hx hyx]
            · intro o w hw' ho
              show slice (slotBytes (Bufmap.after _ _ _ _) _) _ _ = _
              rw [slotBytes_after_other hg.wf k' hx hyx]
      obtain ⟨k1, k2, k3⟩ := key
      rw [read_present lib h hg hk h0 hs, read_present lib h hg' hk h0 k1, read_untouched lib h k2 k3 y q.fieldMeasures hq]

/-! ### a server -/

theorem writeStores_retains (lib : Lib) {P : Bytes → Prop} (hstar : ¬ P rowPseudoField) (row : Row) (hr : ∀ fv ∈ row.data, ¬ P fv.f) :
    ∀ (sts : List Store) (_ : ∀ st ∈ sts, Orderly st) (ctx : Ctx), List.Forall₂ (Retains P lib) sts (writeStores lib row ctx sts).1
  | [], _, _ => .nil
  | st :: sts, h, ctx => by
    have h1 := write_retains lib hstar (h st (by simp)) ctx.done row hr
    have h2 := writeStores_retains lib hstar row hr sts (fun s hs => h s (by simp [hs])) ctx.next
    have h3 : List.Forall₂ (Retains P lib) sts sts := List.forall₂_same.2 fun s _ => .refl P lib s
    rw [writeStores]
    simp only
    split
    · exact .cons h1 h2
    · exact .cons h1 h3
    · exact .cons h1 h3
    · exact .cons h1 h3

theorem retains_inOrder {P : Bytes → Prop} {lib : Lib} {sts sts' : List Store} (h : List.Forall₂ (Retains P lib) sts sts') :
    (∀ st ∈ sts, Orderly st) → ∀ st ∈ sts', Orderly st := by
  induction h with
  | nil => exact id
  | cons h1 _ ih =>
    intro h st hst
    rcases List.mem_cons.1 hst with rfl | hst
    · exact h1.2.1 (h _ (by simp))
    · exact ih (fun s hs => h s (by simp [hs])) st hst

theorem retains_trans {P : Bytes → Prop} {lib : Lib} : ∀ {a b c : List Store}, List.Forall₂ (Retains P lib) a b → List.Forall₂ (Retains P lib) b c →
    List.Forall₂ (Retains P lib) a c
  | _, _, _, .nil, .nil => .nil
  | _, _, _, .cons h1 h2, .cons h3 h4 => .cons (h1.trans h3) (retains_trans h2 h4)

theorem recvLoop_retains (lib : Lib) {P : Bytes → Prop} (hstar : ¬ P rowPseudoField) (scErr : Option Err) : ∀ (lines : List Bytes)
    (_ : ∀ l ∈ lines, ∀ row, parseRow l = .val (.ok row) → ∀ fv ∈ row.data, ¬ P fv.f) (ctx : Ctx) (sts : List Store) (_ : ∀ st ∈ sts, Orderly st),
    List.Forall₂ (Retains P lib) sts (recvLoop lib scErr ctx lines sts).1
  | [], _, _, sts, _ => List.forall₂_same.2 fun s _ => .refl P lib s
  | line :: lines, h, ctx, sts, hg => by
    have h3 : List.Forall₂ (Retains P lib) sts sts := List.forall₂_same.2 fun s _ => .refl P lib s
    rw [recvLoop]
    split
    · exact h3
    · cases hp : parseRow line with
      | panic => exact h3
      | val x =>
        cases x with
        | error e => exact h3
        | ok row =>
          have h1 := writeStores_retains lib hstar row (h line (by simp) row hp) sts hg ctx.next
          simp only
          generalize writeStores lib row ctx.next sts = x at h1 ⊢
          obtain ⟨x1, x2, x3⟩ := x
          cases x2 with
          | some r => exact h1
          | none => exact retains_trans h1 (recvLoop_retains lib hstar scErr lines (fun l hl => h l (by simp [hl])) x3 x1 (retains_inOrder h1 hg))

/-- a request either leaves the stores alone or has some lines received -/
theorem serve_received (env : Env) (sts : List Store) (r : Request) :
    (Server.serve env sts r).1 = sts ∨ ∃ scErr lines, (Server.serve env sts r).1 = (recvLoop env.lib scErr r.ctx lines sts).1 := by
  unfold Server.serve
  split
  · exact .inl rfl
  · split
    · exact .inl rfl
    · split
      · split
        · unfold recvObservation
          split
          · exact .inl rfl
          · split
            · split
              · exact .inl rfl
              · exact .inr ⟨_, _, rfl⟩
            · split
              · exact .inr ⟨_, _, rfl⟩
              · exact .inl rfl
        · exact .inl rfl
      · left
        split
        · simp only
          split
          · rfl
          · split
            · rfl
            · split <;> rfl
        · split <;> rfl

/-- any requests leave the stores of a server in order -/
theorem serveAll_orderly (env : Env) : ∀ (rs : List Request) (sts : List Store) (_ : ∀ st ∈ sts, Orderly st),
    List.Forall₂ (Retains (fun _ => False) env.lib) sts (serveAll env sts rs).1
  | [], sts, _ => List.forall₂_same.2 fun s _ => .refl _ _ s
  | r :: rs, sts, h => by
    have h1 : List.Forall₂ (Retains (fun _ => False) env.lib) sts (Server.serve env sts r).1 := by
      rcases serve_received env sts r with e | ⟨scErr, lines, e⟩
      · rw [e]; exact List.forall₂_same.2 fun s _ => .refl _ _ s
      · rw [e]; exact recvLoop_retains env.lib id scErr lines (fun _ _ _ _ _ _ => id) r.ctx sts h
    exact retains_trans h1 (serveAll_orderly env rs _ (retains_inOrder h1 h))

theorem steps_retain (env : Env) {P : Bytes → Prop} (hstar : ¬ P rowPseudoField) : ∀ (steps : List Step) (_ : ∀ s ∈ steps, s.Correct)
    (_ : ∀ fs ∈ observations steps, ∀ fv ∈ fs, ¬ P fv.f) (sts : List Store) (_ : ∀ st ∈ sts, Orderly st),
    List.Forall₂ (Retains P env.lib) sts (serveAll env sts (steps.map Step.request)).1
  | [], _, _, sts, _ => List.forall₂_same.2 fun s _ => .refl _ _ s
  | s :: steps, hc, hn, sts, h => by
    have h1 : List.Forall₂ (Retains P env.lib) sts (Server.serve env sts s.request).1 := by
      cases s with
      | other r =>
        have hun : (Server.serve env sts r).1 = sts := by
          by_contra hne
          obtain ⟨e1, e2, _⟩ := C44_unchanged env _ r hne
          exact hc (.other r) (by simp) ⟨e1, e2⟩
        rw [show (Step.other r).request = r from rfl, hun]
        exact List.forall₂_same.2 fun s _ => .refl _ _ s
      | posted ls =>
        have hl := hc (.posted ls) (by simp)
        rw [posted_request env ls hl]
        refine recvLoop_retains env.lib hstar none _ ?_ none sts h
        intro x hx row hrow
        rw [List.map_map] at hx
        obtain ⟨l, hls, rfl⟩ := List.mem_map.1 hx
        have hp := line_parse (hl l hls)
        rw [Function.comp_apply, hp] at hrow
        have hrow := Except.ok.inj (Out.val.inj hrow)
        rw [← hrow]
        exact hn l.fs (by simp only [observations, List.mem_append]; exact .inl (List.mem_map.2 ⟨l, hls, rfl⟩))
    refine retains_trans h1 (steps_retain env hstar steps (fun s hs => hc s (by simp [hs])) ?_ _ (retains_inOrder h1 h))
    intro fs hfs
    apply hn
    cases s with
    | other r => exact hfs
    | posted ls => simp only [observations, List.mem_append]; exact .inr hfs

theorem ask_list (env : Env) (sts : List Store) (name text : Bytes) (hn : GoodName name) (q : Query) (hq : Query.roughParse env.ord text = .ok q) :
    (Server.serve env sts (askFor name text)).2 = queryStores env name q sts := by
  rw [serve_collation env _ (askFor name text) rfl name rfl
    (.inl (clean_collation name hn.noslash hn.nodot hn.nodots)), if_neg hn.ne, if_neg hn.noslash,
    if_neg (by rintro ⟨_, h⟩; exact h rfl)]
  unfold queryCollation
  rw [show (askFor name text).form (asc "q") = text by simp [askFor], hq]

theorem queryStores_retain (env : Env) {P : Bytes → Prop} (name : Bytes) (q : Query) (hq : ∀ fm ∈ q.fieldMeasures, P fm.f) {sts sts' : List Store}
    (h : List.Forall₂ (Retains P env.lib) sts sts') : (∀ st ∈ sts, st.coll.name = name → keyValue q.criteria st.coll.keys ≠ some 0) →
    queryStores env name q sts ≠ .ok (echo q.criteria) → queryStores env name q sts' = queryStores env name q sts := by
  induction h with
  | nil => intro _ _; rfl
  | @cons st st' sts sts' h1 _ ih =>
    intro hk hne
    rw [queryStores] at hne
    rw [queryStores, queryStores, h1.1]
    by_cases hname : st.coll.name = name
    · rw [if_pos hname] at hne
      rw [if_pos hname, if_pos hname, h1.2.2 q hq (hk st (by simp) hname)]
      intro e
      rw [e] at hne
      refine hne ?_
      unfold render echo
      rw [show asc "=" = [0x3d] by decide +kernel, show asc "\n" = [0x0a] by decide +kernel]
      simp
    · rw [if_neg hname] at hne
      rw [if_neg hname, if_neg hname]
      exact ih (fun s hs => hk s (by simp [hs])) hne

theorem orderly_new (sch : Schema) (hv : ValidSchema sch) (l : Nat) (hl : 0 < l) : Orderly (newStore sch l) := by
  obtain ⟨L, D, pos, h, _⟩ := laid_compile sch hv
  exact ⟨sch, L, D, pos, l, h, good_new h hl⟩

/-- **C97** A server with any collations has served any requests at all. It then serves posts of correctly written observations none of which carries any of the fields a query asks for,
and any other requests. Then the answer to that query is the same as before, whatever it was, if only the key had been observed before (its answer was not the empty one): whether
the observations are of that key or of others, and whether they are accepted or refused. (No observed key has the hash 0, C40; `*` is not a field, it counts the observations.) -/
theorem C97_untouched (env : Env) (confs : List (Schema × Nat)) (hconfs : ∀ c ∈ confs, ValidSchema c.1 ∧ 0 < c.2) (before : List Request) (steps : List Step)
    (hc : ∀ s ∈ steps, s.Correct) (name text : Bytes) (hn : GoodName name) (q : Query) (hq : Query.roughParse env.ord text = .ok q)
    (hk : ∀ c ∈ confs, c.1.name = name → keyValue q.criteria c.1.keys ≠ some 0)
    (hf : ∀ fm ∈ q.fieldMeasures, fm.f ≠ asc "*" ∧ ∀ fs ∈ observations steps, ∀ fv ∈ fs, fv.f ≠ fm.f)
    (hseen : (Server.serve env (serveAll env (confs.map fun c => newStore c.1 c.2) before).1 (askFor name text)).2 ≠ .ok (echo q.criteria)) :
    (Server.serve env (serveAll env (serveAll env (confs.map fun c => newStore c.1 c.2) before).1 (steps.map Step.request)).1 (askFor name text)).2 =
      (Server.serve env (serveAll env (confs.map fun c => newStore c.1 c.2) before).1 (askFor name text)).2 := by
  have h0 : ∀ st ∈ confs.map fun c => newStore c.1 c.2, Orderly st := by
    intro st hst
    obtain ⟨c, hcm, rfl⟩ := List.mem_map.1 hst
    exact orderly_new c.1 (hconfs c hcm).1 c.2 (hconfs c hcm).2
  have h1 := serveAll_orderly env before _ h0
  have hnames : ∀ st ∈ (serveAll env (confs.map fun c => newStore c.1 c.2) before).1, ∃ c ∈ confs, st.coll = compile c.1 := by
    intro st hst
    obtain ⟨s, hs, hr⟩ : ∃ s ∈ confs.map fun c => newStore c.1 c.2, Retains (fun _ => False) env.lib s st := by
      clear hseen h0
      generalize (serveAll env (confs.map fun c => newStore c.1 c.2) before).1 = b at h1 hst
      generalize (confs.map fun c => newStore c.1 c.2) = a at h1
      induction h1 with
      | nil => simp at hst
      | @cons x y xs ys hxy _ ih =>
        rcases List.mem_cons.1 hst with rfl | hst
        · exact ⟨x, by simp, hxy⟩
        · obtain ⟨s, hs, hr⟩ := ih hst
          exact ⟨s, by simp [hs], hr⟩
    obtain ⟨c, hcm, rfl⟩ := List.mem_map.1 hs
    exact ⟨c, hcm, hr.1⟩
  have h2 := retains_inOrder h1 h0
  generalize (serveAll env (confs.map fun c => newStore c.1 c.2) before).1 = sts at hseen hnames h2 ⊢
  have h3 := steps_retain env (P := fun f => ∃ fm ∈ q.fieldMeasures, fm.f = f) (by
    rintro ⟨fm, hfm, e⟩
    exact (hf fm hfm).1 e) steps hc (by
    rintro fs hfs fv hfv ⟨fm, hfm, e⟩
    exact (hf fm hfm).2 fs hfs fv hfv e.symm) sts h2
  rw [ask_list env _ name text hn q hq] at hseen
  rw [ask_list env _ name text hn q hq, ask_list env _ name text hn q hq]
  refine queryStores_retain env name q (fun fm hfm => ⟨fm, hfm, rfl⟩) h3 ?_ hseen
  intro st hst hname
  obtain ⟨c, hcm, e⟩ := hnames st hst
  rw [e, compile_keys]
  refine hk c hcm ?_
  rw [← hname, e, compile_name]

end Starbow.Props
