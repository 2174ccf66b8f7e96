import Verif.Props.Neighbours
/-
Property theorem C92: asking for several measures at once and one by one.
-/
namespace Starbow.Props
open Starbow.Collation Starbow.Spec Starbow.Storage Starbow.Server

/-- the query for one measure of one field -/
def single (p : Bytes × Bytes) (crit : List FV) : Query := ⟨[⟨p.1, [p.2]⟩], crit⟩

/-- `all` is the answer to a question whose parts, asked one by one, are answered with `one p`: if all parts are answered with 200, then all of them with the same `head` and `all` is
that head and then the rests in order; otherwise `all` is the answer to the first part that is not answered with 200. -/
def PutTogether (head : Bytes) (ps : List (Bytes × Bytes)) (one : Bytes × Bytes → Reply) (all : Reply) : Prop :=
  (∃ bs, List.Forall₂ (fun p b => one p = .ok (head ++ b)) ps bs ∧ all = .ok (head ++ bs.flatten)) ∨
  (∃ a p b, ps = a ++ p :: b ∧ (∀ p' ∈ a, ∃ body, one p' = .ok body) ∧ (∀ body, one p ≠ .ok body) ∧ all = one p)

theorem putTogether_const {head : Bytes} {ps : List (Bytes × Bytes)} (hne : ps ≠ []) {r : Reply} (hr : ∀ body, r ≠ .ok body) :
    PutTogether head ps (fun _ => r) r := by
  cases ps with
  | nil => exact absurd rfl hne
  | cons p ps => exact .inr ⟨[], p, ps, rfl, by simp, hr, rfl⟩

theorem putTogether_empty {head : Bytes} (ps : List (Bytes × Bytes)) : PutTogether head ps (fun _ => .ok head) (.ok head) := by
  refine .inl ⟨ps.map fun _ => [], ?_, ?_⟩
  · induction ps with
    | nil => exact .nil
    | cons p ps ih => exact .cons (by simp) ih
  · have : (ps.map fun _ => ([] : Bytes)).flatten = [] := by
      rw [List.flatten_eq_nil_iff]
      intro l hl
      obtain ⟨_, _, rfl⟩ := List.mem_map.1 hl
      rfl
    rw [this, List.append_nil]

/-- what the reply to the outcome of a Read is -/
def outReply (env : Env) (crit : List FV) : Out (List FMV × Option Err) → Reply
  | .panic => .panic
  | .val (_, some _) => .refused 500
  | .val (res, none) => .ok (render env crit res)

/-- the lines of results -/
def lines (env : Env) (res : List FMV) : Bytes := res.flatMap fun f => fmvString env f ++ [0x0a]

theorem render_eq (env : Env) (crit : List FV) (res : List FMV) : render env crit res = render env crit [] ++ lines env res := by
  simp [render, lines]

theorem together_reply (env : Env) (crit : List FV) (one : Bytes × Bytes → Out (List FMV × Option Err)) : ∀ (ps : List (Bytes × Bytes)) (res : List FMV),
    (∃ bs, List.Forall₂ (fun p b => outReply env crit (one p) = .ok (render env crit [] ++ b)) ps bs ∧
      outReply env crit (together one ps res) = .ok (render env crit [] ++ (lines env res ++ bs.flatten))) ∨
    (∃ a p b, ps = a ++ p :: b ∧ (∀ p' ∈ a, ∃ body, outReply env crit (one p') = .ok body) ∧ (∀ body, outReply env crit (one p) ≠ .ok body) ∧
      outReply env crit (together one ps res) = outReply env crit (one p))
  | [], res => .inl ⟨[], .nil, by rw [together, outReply, render_eq]; simp⟩
  | p :: ps, res => by
    rw [together]
    cases hp : one p with
    | panic =>
      refine .inr ⟨[], p, ps, rfl, by simp, ?_, ?_⟩
      · rw [hp]; intro body h; cases h
      · rw [hp]
    | val x =>
      obtain ⟨r, e⟩ := x
      cases e with
      | some e =>
        refine .inr ⟨[], p, ps, rfl, by simp, ?_, ?_⟩
        · rw [hp]; intro body h; cases h
        · rw [hp]; rfl
      | none =>
        have hone : outReply env crit (one p) = .ok (render env crit [] ++ lines env r) := by rw [hp, outReply, render_eq]
        rcases together_reply env crit one ps (res ++ r) with ⟨bs, h1, h2⟩ | ⟨a, p', b, rfl, h1, h2, h3⟩
        · refine .inl ⟨lines env r :: bs, .cons hone h1, ?_⟩
          simp only
          rw [h2]
          simp [lines]
        · refine .inr ⟨p :: a, p', b, rfl, ?_, h2, h3⟩
          intro x hx
          rcases List.mem_cons.1 hx with rfl | hx
          · exact ⟨_, hone⟩
          · exact h1 x hx

/-- the three ways a query with these criteria can go -/
theorem query_ways (env : Env) (name : Bytes) (crit : List FV) : ∀ sts : List Store,
    (∃ r : Reply, (∀ body, r ≠ .ok body) ∧ ∀ fml, queryStores env name ⟨fml, crit⟩ sts = r) ∨
    (∀ fml, queryStores env name ⟨fml, crit⟩ sts = .ok (render env crit [])) ∨
    (∃ c buf, ∀ fml, queryStores env name ⟨fml, crit⟩ sts = outReply env crit (Collation.read env.lib c fml buf))
  | [] => .inl ⟨.refused 404, ⟨(by intro body h; cases h), fun _ => rfl⟩⟩
  | st :: sts => by
    by_cases hst : st.coll.name = name
    · simp only [queryStores, if_pos hst]
      unfold Storage.read
      simp only
      cases hk : keyValue crit st.coll.keys with
      | none => exact .inr (.inl fun _ => rfl)
      | some k =>
        simp only
        by_cases hs : st.coll.size < 0
        · simp only [if_pos hs]
          exact .inl ⟨.panic, ⟨(by intro body h; cases h), fun _ => rfl⟩⟩
        · simp only [if_neg hs]
          cases hg : Bufmap.get st.backend k (List.replicate st.coll.size.toNat 0) with
          | panic => exact .inl ⟨.panic, ⟨(by intro body h; cases h), fun _ => rfl⟩⟩
          | hang => exact .inl ⟨.hang, ⟨(by intro body h; cases h), fun _ => rfl⟩⟩
          | ret x =>
            obtain ⟨found, buf⟩ := x
            cases found with
            | false => exact .inr (.inl fun _ => rfl)
            | true =>
              refine .inr (.inr ⟨st.coll, buf, fun fml => ?_⟩)
              simp only
              cases Collation.read env.lib st.coll fml buf with
              | panic => rfl
              | val x =>
                obtain ⟨r, e⟩ := x
                cases e <;> rfl
    · simp only [queryStores, if_neg hst]
      exact query_ways env name crit sts

theorem queryStores_together (env : Env) (name : Bytes) (q : Query) (hne : pairs q.fieldMeasures ≠ []) (sts : List Store) :
    PutTogether (render env q.criteria []) (pairs q.fieldMeasures) (fun p => queryStores env name (single p q.criteria) sts) (queryStores env name q sts) := by
  obtain ⟨fml, crit⟩ := q
  unfold single
  rcases query_ways env name crit sts with ⟨r, hr, h⟩ | h | ⟨c, buf, h⟩
  · simp only [h]
    exact putTogether_const hne hr
  · simp only [h]
    exact putTogether_empty _
  · simp only [h]
    have := together_reply env crit (fun p => ask env.lib c buf p.1 p.2) (pairs fml) []
    rw [← C27_read, show lines env [] = [] from rfl] at this
    exact this

/-- **C92** A query for several measures is answered like queries for the measures one by one: if those are all answered with 200 (each with the criteria repeated, and then at most its
result), the query for all of them is answered with the criteria and then these results, in order; otherwise it is answered like the first of them that is not answered with 200.
For every server, whatever is stored in it, and every collation name and text; `one p` is any text that asks for the one measure under the same criteria. -/
theorem C92_together (env : Env) (sts : List Store) (name : Bytes) (hn : GoodName name) (text : Bytes) (q : Query) (hq : Query.roughParse env.ord text = .ok q)
    (hne : pairs q.fieldMeasures ≠ []) (one : Bytes × Bytes → Bytes) (hone : ∀ p ∈ pairs q.fieldMeasures, Query.roughParse env.ord (one p) = .ok (single p q.criteria)) :
    PutTogether (echo q.criteria) (pairs q.fieldMeasures) (fun p => (Server.serve env sts (askFor name (one p))).2) (Server.serve env sts (askFor name text)).2 := by
  have key : ∀ (text : Bytes) (q : Query), Query.roughParse env.ord text = .ok q → (Server.serve env sts (askFor name text)).2 = queryStores env name q sts := by
    intro text q hq
    rw [serve_collation env _ (askFor name text) rfl name rfl
      (.inl (clean_collation name hn.noslash hn.nodot hn.nodots)), if_neg hn.ne, if_neg hn.noslash,
      if_neg (by rintro ⟨_, h⟩; exact h rfl)]
    unfold queryCollation
    rw [show (askFor name text).form (asc "q") = text by simp [askFor], hq]
  have he : echo q.criteria = render env q.criteria [] := by
    unfold echo render
    rw [List.flatMap_nil, List.append_nil]
    rfl
  rw [key text q hq, he]
  rcases queryStores_together env name q hne sts with ⟨bs, h1, h2⟩ | ⟨a, p, b, h0, h1, h2, h3⟩
  · refine .inl ⟨bs, ?_, h2⟩
    have : ∀ (ps : List (Bytes × Bytes)) (bs : List Bytes), (∀ p ∈ ps, Query.roughParse env.ord (one p) = .ok (single p q.criteria)) →
        List.Forall₂ (fun p b => queryStores env name (single p q.criteria) sts = .ok (render env q.criteria [] ++ b)) ps bs →
        List.Forall₂ (fun p b => (Server.serve env sts (askFor name (one p))).2 = .ok (render env q.criteria [] ++ b)) ps bs := by
      intro ps bs hps h
      induction h with
      | nil => exact .nil
      | cons h1 _ ih =>
        refine .cons ?_ (ih fun p hp => hps p (by simp [hp]))
        rw [key _ _ (hps _ (by simp))]
        exact h1
    exact this _ _ hone h1
  · refine .inr ⟨a, p, b, h0, ?_, ?_, ?_⟩
    · intro p' hp'
      simp only
      rw [key _ _ (hone p' (by rw [h0]; simp [hp']))]
      exact h1 p' hp'
    · simp only
      rw [key _ _ (hone p (by rw [h0]; simp))]
      exact h2
    · simp only
      rw [key _ _ (hone p (by rw [h0]; simp))]
      exact h3

/-- instance of C92_together: three measures of France in the program, in any state -/
example (env : Env) (hord : env.ord = id) (sts : List Store) :
    PutTogether (asc "country=FR\n") [(asc "*", asc "count"), (asc "height", asc "mean"), (asc "height", asc "max")]
      (fun p => (Server.serve env sts (askFor (asc "country") (asc "select " ++ p.2 ++ asc "(" ++ p.1 ++ asc ") where country='FR'"))).2)
      (Server.serve env sts (askFor (asc "country") (asc "select count(*), mean(height), max(height) where country='FR'"))).2 := by
  have h1 : Query.roughParse id (asc "select count(*), mean(height), max(height) where country='FR'") =
    .ok ⟨[⟨asc "*", [asc "count"]⟩, ⟨asc "height", [asc "mean", asc "max"]⟩], [⟨asc "country", asc "FR"⟩]⟩ := by decide +kernel
  have h2 : ∀ p ∈ [(asc "*", asc "count"), (asc "height", asc "mean"), (asc "height", asc "max")],
      Query.roughParse id (asc "select " ++ p.2 ++ asc "(" ++ p.1 ++ asc ") where country='FR'") = .ok (single p [⟨asc "country", asc "FR"⟩]) := by decide +kernel
  have := C92_together env sts (asc "country") ⟨by decide +kernel, by decide +kernel, by decide +kernel, by decide +kernel⟩ _ _ (by rw [hord]; exact h1) (by decide +kernel)
    (fun p => asc "select " ++ p.2 ++ asc "(" ++ p.1 ++ asc ") where country='FR'") (by
      intro p hp
      rw [hord]
      exact h2 p hp)
  exact this

end Starbow.Props
