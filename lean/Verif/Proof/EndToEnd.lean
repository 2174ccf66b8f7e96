import Verif.Props.Server
import Verif.Props.StoreRun
/-
What a request does to one of the stores: it makes some writes to it, with rows that are lines of the request.
-/
namespace Starbow.Props
open Starbow.Collation Starbow.Spec Starbow.Storage Starbow.Server

theorem write_coll (lib : Lib) (st : Store) (c : Bool) (r : Row) : (write lib st c r).1.coll = st.coll := by
  unfold write
  split
  · rfl
  · split
    · rfl
    · rfl

theorem writes_coll (lib : Lib) (os : List Obs) : ∀ st : Store, (writes lib st os).1.coll = st.coll := by
  induction os with
  | nil => intro st; rfl
  | cons o os ih =>
    intro st
    rw [writes]
    simp only
    rw [ih, write_coll]

/-- the stores before and after: the one in the middle has got the writes `os`, the others have kept their collators -/
def Made (lib : Lib) (a : List Store) (st : Store) (b : List Store) (rows : Row → Prop) (sts' : List Store) : Prop :=
  ∃ a' os b', sts' = a' ++ (writes lib st os).1 :: b' ∧ a'.map Store.coll = a.map Store.coll ∧ b'.map Store.coll = b.map Store.coll ∧
    ∀ o ∈ os, rows o.row

theorem Made.refl (lib : Lib) (a : List Store) (st : Store) (b : List Store) (rows : Row → Prop) : Made lib a st b rows (a ++ st :: b) :=
  ⟨a, [], b, rfl, rfl, rfl, by simp⟩

/-- some of the stores written to, in order -/
theorem writeStores_colls (lib : Lib) (row : Row) : ∀ (sts : List Store) (c : Ctx), (writeStores lib row c sts).1.map Store.coll = sts.map Store.coll
  | [], c => rfl
  | st :: sts, c => by
    rw [writeStores]
    simp only
    split
    · rw [List.map_cons, List.map_cons, write_coll, writeStores_colls lib row sts]
    · rw [List.map_cons, List.map_cons, write_coll]
    · rw [List.map_cons, List.map_cons, write_coll]
    · rw [List.map_cons, List.map_cons, write_coll]

theorem writeStores_made (lib : Lib) (row : Row) (st : Store) (b : List Store) (rows : Row → Prop) (hrow : rows row) : ∀ (a : List Store) (c : Ctx),
    Made lib a st b rows (writeStores lib row c (a ++ st :: b)).1
  | [], c => by
    have hb := writeStores_colls lib row b c.next
    rw [List.nil_append, writeStores]
    simp only
    split
    · exact ⟨[], [⟨row, c.done⟩], _, rfl, rfl, hb, by simpa using hrow⟩
    · exact ⟨[], [⟨row, c.done⟩], _, rfl, rfl, rfl, by simpa using hrow⟩
    · exact ⟨[], [⟨row, c.done⟩], _, rfl, rfl, rfl, by simpa using hrow⟩
    · exact ⟨[], [⟨row, c.done⟩], _, rfl, rfl, rfl, by simpa using hrow⟩
  | s :: a, c => by
    rw [List.cons_append, writeStores]
    simp only
    split
    · obtain ⟨a', os, b', e, h1, h2, h3⟩ := writeStores_made lib row st b rows hrow a c.next
      rw [e]
      exact ⟨(write lib s c.done row).1 :: a', os, b', rfl, by simp [h1, write_coll], h2, h3⟩
    · exact ⟨(write lib s c.done row).1 :: a, [], b, rfl, by simp [write_coll], rfl, by simp⟩
    · exact ⟨(write lib s c.done row).1 :: a, [], b, rfl, by simp [write_coll], rfl, by simp⟩
    · exact ⟨(write lib s c.done row).1 :: a, [], b, rfl, by simp [write_coll], rfl, by simp⟩

theorem Made.trans {lib : Lib} {a : List Store} {st : Store} {b : List Store} {rows : Row → Prop} {sts' sts'' : List Store}
    (h : Made lib a st b rows sts')
    (h' : ∀ a' st' b', sts' = a' ++ st' :: b' → Made lib a' st' b' rows sts'') : Made lib a st b rows sts'' := by
  obtain ⟨a', os, b', e, h1, h2, h3⟩ := h
  obtain ⟨a'', os', b'', e', h1', h2', h3'⟩ := h' a' _ b' e
  refine ⟨a'', os ++ os', b'', ?_, h1'.trans h1, h2'.trans h2, ?_⟩
  · rw [e', (writes_append lib os os' st).1]
  · intro o ho
    rcases List.mem_append.1 ho with ho | ho
    · exact h3 o ho
    · exact h3' o ho

theorem Made.mono {lib : Lib} {a : List Store} {st : Store} {b : List Store} {rows rows' : Row → Prop} {sts' : List Store}
    (h : Made lib a st b rows sts') (hr : ∀ r, rows r → rows' r) : Made lib a st b rows' sts' := by
  obtain ⟨a', os, b', e, h1, h2, h3⟩ := h
  exact ⟨a', os, b', e, h1, h2, fun o ho => hr _ (h3 o ho)⟩

theorem recvLoop_made (lib : Lib) (scErr : Option Err) : ∀ (lines : List Bytes) (ctx : Ctx) (a : List Store) (st : Store) (b : List Store),
    Made lib a st b (fun r => ∃ l ∈ lines, parseRow l = .val (.ok r)) (recvLoop lib scErr ctx lines (a ++ st :: b)).1
  | [], ctx, a, st, b => Made.refl _ _ _ _ _
  | l :: lines, ctx, a, st, b => by
    rw [recvLoop]
    split
    · exact Made.refl _ _ _ _ _
    · split
      · exact Made.refl _ _ _ _ _
      · exact Made.refl _ _ _ _ _
      · next row hrow =>
        have hm := writeStores_made lib row st b (fun r => ∃ x ∈ l :: lines, parseRow x = .val (.ok r)) ⟨l, by simp, hrow⟩ a ctx.next
        split
        · next sts' r c hw =>
          rw [hw] at hm
          exact hm
        · next sts' c hw =>
          rw [hw] at hm
          refine hm.trans fun a' st' b' e => ?_
          rw [show sts' = a' ++ st' :: b' from e]
          refine (recvLoop_made lib scErr lines c a' st' b').mono ?_
          rintro r ⟨x, hx, hp⟩
          exact ⟨x, by simp [hx], hp⟩

theorem cutLine_eq (s : Bytes) : (0x0a ∉ (cutLine s).1) ∧ s = (cutLine s).1 ++ ((cutLine s).2.map (0x0a :: ·)).getD [] := by
  induction s with
  | nil => exact ⟨by simp [cutLine], rfl⟩
  | cons b s ih =>
    rw [cutLine]
    split
    · next h => exact ⟨by simp, by rw [h]; rfl⟩
    · next h =>
      refine ⟨fun hm => (List.mem_cons.1 hm).elim (fun e => h e.symm) ih.1, ?_⟩
      simp only [List.cons_append]
      rw [← ih.2]

theorem lineOf_later {s r l : Bytes} {line : Bytes} (e : s = line ++ 0x0a :: r) (h : LineOf r l) : LineOf s l := by
  obtain ⟨before, after, e1, h1, h2, h3⟩ := h
  refine ⟨line ++ 0x0a :: before, after, by rw [e, e1]; simp, h1, .inr ?_, h3⟩
  rcases h2 with rfl | h2
  · simp
  · rw [List.getLast?_append, List.getLast?_cons, h2]
    rfl

/-- the scanner delivers lines of the text -/
theorem scan_lines (err : Option Err) (w : Bool) : ∀ (n : Nat) (s : Bytes), s.length ≤ n → ∀ x ∈ (scan err w s).1, ∃ l, LineOf s l ∧ x = noCR l := by
  intro n
  induction n with
  | zero =>
    intro s hn x hx
    have : s = [] := List.length_eq_zero_iff.1 (by omega)
    subst this
    rw [scan.eq_def] at hx
    simp [cutLine] at hx
  | succ n ih =>
    intro s hn x hx
    rw [scan.eq_def] at hx
    obtain ⟨hnl, heq⟩ := cutLine_eq s
    split at hx
    · next line rest e =>
      rw [e] at hnl heq
      simp only [Option.map_some, Option.getD_some] at hnl heq
      split at hx
      · simp at hx
      · rcases List.mem_cons.1 hx with rfl | hx
        · exact ⟨line, ⟨[], 0x0a :: rest, heq, hnl, .inl rfl, .inr rfl⟩, rfl⟩
        · have hl := congrArg List.length heq
          rw [List.length_append, List.length_cons] at hl
          obtain ⟨l, hl, ex⟩ := ih rest (by omega) x hx
          exact ⟨l, lineOf_later heq hl, ex⟩
    · next line e =>
      rw [e] at hnl heq
      simp only [Option.map_none, Option.getD_none, List.append_nil] at hnl heq
      split at hx
      · simp at hx
      · by_cases hlong : line.length > (if w then maxToken else maxToken - 1)
        · rw [if_pos hlong] at hx; simp at hx
        · rw [if_neg hlong] at hx
          simp only [List.mem_singleton] at hx
          exact ⟨line, ⟨[], [], by simpa using heq, hnl, .inl rfl, .inl rfl⟩, hx⟩

/-- a row of the request: a line of its body or of its form value `data` parses to it -/
def RowOf (req : Request) (r : Row) : Prop :=
  ∃ l, (LineOf req.body.bytes l ∨ LineOf (req.form (asc "data")) l) ∧ parseRow (noCR l) = .val (.ok r)

/-- what a request does to a store: writes of rows of the request -/
theorem serve_made (env : Env) (a : List Store) (st : Store) (b : List Store) (req : Request) :
    Made env.lib a st b (RowOf req) (Server.serve env (a ++ st :: b) req).1 := by
  by_cases h : (Server.serve env (a ++ st :: b) req).1 = a ++ st :: b
  · rw [h]; exact Made.refl _ _ _ _ _
  · obtain ⟨h1, h2, _⟩ := C44_unchanged env _ req h
    have hs : req.star = false := by
      cases hs : req.star with
      | false => rfl
      | true =>
        exfalso
        apply h
        rw [(C44_other env _ req).1 hs]
    rw [serve_obs env _ req h1 h2 hs]
    have key : ∀ (x : Body), (∀ l, LineOf x.bytes l → LineOf req.body.bytes l ∨ LineOf (req.form (asc "data")) l) →
        Made env.lib a st b (RowOf req) (recvLines env req.ctx (a ++ st :: b) x).1 := by
      intro x hx
      unfold recvLines
      refine (recvLoop_made env.lib _ _ req.ctx a st b).mono ?_
      rintro r ⟨l, hl, hp⟩
      obtain ⟨l', h1, rfl⟩ := scan_lines _ _ x.bytes.length x.bytes (Nat.le_refl _) l hl
      exact ⟨l', hx l' h1, hp⟩
    unfold recvObservation
    split
    · exact Made.refl _ _ _ _ _
    · split
      · split
        · exact Made.refl _ _ _ _ _
        · exact key _ fun l h => .inr h
      · split
        · exact key _ fun l h => .inl h
        · exact Made.refl _ _ _ _ _

theorem serveAll_made (env : Env) : ∀ (reqs : List Request) (a : List Store) (st : Store) (b : List Store),
    Made env.lib a st b (fun _ => True) (serveAll env (a ++ st :: b) reqs).1
  | [], a, st, b => Made.refl _ _ _ _ _
  | r :: reqs, a, st, b => by
    rw [serveAll]
    simp only
    refine ((serve_made env a st b r).mono (fun _ _ => trivial)).trans fun a' st' b' e => ?_
    rw [e]
    exact serveAll_made env reqs a' st' b'

theorem serveAll_append (env : Env) (r : Request) : ∀ (reqs : List Request) (sts : List Store),
    (serveAll env sts (reqs ++ [r])).1 = (Server.serve env (serveAll env sts reqs).1 r).1
  | [], sts => rfl
  | q :: reqs, sts => by
    rw [List.cons_append, serveAll, serveAll]
    exact serveAll_append env r reqs _

end Starbow.Props
