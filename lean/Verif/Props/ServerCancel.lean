import Verif.Props.Server
import Verif.Props.Record
/-
C43: requests that are cancelled while they are handled.
-/
namespace Starbow.Props
open Starbow Starbow.Spec Starbow.Server Starbow.Storage Starbow.Collation

/-- the row has a value for every key field of the store -/
def HasKeys (st : Store) (row : Row) : Prop := ∀ k ∈ st.coll.keys, ∃ fv ∈ row.data, fv.f = k

theorem keyLoop_some (fvs : List FV) : ∀ (ks : List Bytes) (h : U64), (∀ k ∈ ks, ∃ fv ∈ fvs, fv.f = k) → keyLoop fvs ks h ≠ none
  | [], _, _ => by simp [keyLoop]
  | k :: ks, h, hk => by
    rw [keyLoop]
    obtain ⟨fv, h1, h2⟩ := hk k (by simp)
    have hs : (lookupField fvs k).isSome := by
      unfold lookupField
      rw [List.find?_isSome]
      exact ⟨fv, h1, by simp [h2]⟩
    cases hl : lookupField fvs k with
    | none => rw [hl] at hs; simp at hs
    | some x => exact keyLoop_some fvs ks _ fun k' hk' => hk k' (by simp [hk'])

theorem write_cancelled (lib : Lib) (st : Store) (row : Row) (h : HasKeys st row) : ∃ e, write lib st true row = (st, .ret (some e)) := by
  unfold write keyValue
  have := keyLoop_some row.data st.coll.keys Fnv.new64 h
  cases hk : keyLoop row.data st.coll.keys Fnv.new64 with
  | none => exact absurd hk this
  | some x => exact ⟨_, rfl⟩

theorem write_coll (lib : Lib) (st : Store) (c : Bool) (row : Row) : (write lib st c row).1.coll = st.coll := by
  unfold write
  split
  · rfl
  · split <;> rfl

theorem mapIdx_self {α : Type} (l : List α) : l.mapIdx (fun _ x => x) = l := by
  rw [List.mapIdx_eq_iff]
  intro i; simp

theorem writeStores_some (lib : Lib) (row : Row) : ∀ (sts : List Store) (n : Nat), (∀ st ∈ sts, (write lib st false row).2 = .ret none) → (∀ st ∈ sts, HasKeys st row) →
    (sts.length ≤ n → writeStores lib row (some n) sts = (sts.map fun st => (write lib st false row).1, none, some (n - sts.length))) ∧
    (n < sts.length → ∃ c, writeStores lib row (some n) sts = (sts.mapIdx fun j st => if j < n then (write lib st false row).1 else st, some (.refused 500), c))
  | [], n, _, _ => ⟨fun _ => rfl, fun h => absurd h (by simp)⟩
  | st :: sts, n, h, hks => by
    have h1 := h st (by simp)
    cases n with
    | zero =>
      refine ⟨fun h => absurd h (by simp), fun _ => ?_⟩
      obtain ⟨e, he⟩ := write_cancelled lib st row (hks st (by simp))
      refine ⟨Ctx.next (some 0), ?_⟩
      rw [writeStores]
      simp only [show Ctx.done (some 0) = true from rfl]
      rw [he]
      simp [mapIdx_self]
    | succ n =>
      have ih := writeStores_some lib row sts n (fun x hx => h x (by simp [hx])) (fun x hx => hks x (by simp [hx]))
      constructor
      · intro hl
        rw [writeStores]
        simp only [show Ctx.done (some (n + 1)) = false from rfl, show Ctx.next (some (n + 1)) = some n from rfl]
        rw [h1]
        simp only
        rw [ih.1 (by simpa using hl)]
        simp
      · intro hl
        obtain ⟨c, hc⟩ := ih.2 (by simpa using hl)
        refine ⟨c, ?_⟩
        rw [writeStores]
        simp only [show Ctx.done (some (n + 1)) = false from rfl, show Ctx.next (some (n + 1)) = some n from rfl]
        rw [h1]
        simp only
        rw [hc]
        simp [List.mapIdx_cons]

/-- the store after these rows, written one after the other -/
def given (env : Env) (st : Store) (rows : List Row) : Store := (writes env.lib st (rows.map fun r => ⟨r, false⟩)).1

theorem recvLoop_cancel (env : Env) : ∀ (lines : List Bytes) (rows : List Row) (sts : List Store) (n : Nat),
    lines.map parseRow = rows.map (fun r => Out.val (.ok r)) →
    (∀ st ∈ sts, ∀ p ∈ (writes env.lib st (rows.map fun r => ⟨r, false⟩)).2, p.2 = .ret none) →
    (∀ st ∈ sts, ∀ row ∈ rows, HasKeys st row) → n < (sts.length + 1) * rows.length →
    recvLoop env.lib none (some n) lines sts =
      (sts.mapIdx fun j st => given env st (rows.take (n / (sts.length + 1) + if j + 1 < n % (sts.length + 1) then 1 else 0)),
       if n % (sts.length + 1) = 0 then .ok [] else .refused 500)
  | [], [], sts, n, _, _, _, h => by simp at h
  | [], row :: rows, sts, n, h, _, _, _ => by simp at h
  | l :: ls, [], sts, n, h, _, _, _ => by simp at h
  | l :: ls, row :: rows, sts, n, hp, hall, hks, hn => by
    simp only [List.map_cons, List.cons.injEq] at hp
    have hw : ∀ st ∈ sts, (write env.lib st false row).2 = .ret none := by
      intro st hst
      exact hall st hst (⟨row, false⟩, _) (by simp [writes])
    rw [recvLoop]
    cases n with
    | zero =>
      rw [if_pos (by rfl)]
      simp [given, writes, mapIdx_self]
    | succ n =>
      have hk1 : ∀ st ∈ sts, HasKeys st row := fun st hst => hks st hst row (by simp)
      rw [if_neg (by simp [Ctx.done]), hp.1]
      simp only [show Ctx.next (some (n + 1)) = some n from rfl]
      rcases Nat.lt_or_ge n sts.length with hlt | hge
      · obtain ⟨c, hc⟩ := (writeStores_some env.lib row sts n hw hk1).2 hlt
        rw [hc]
        simp only
        have e1 : (n + 1) / (sts.length + 1) = 0 := Nat.div_eq_of_lt (by omega)
        have e2 : (n + 1) % (sts.length + 1) = n + 1 := Nat.mod_eq_of_lt (by omega)
        rw [e1, e2, if_neg (by omega)]
        congr 1
        rw [List.mapIdx_eq_mapIdx_iff]
        intro j hj
        by_cases hjn : j < n
        · rw [if_pos hjn, if_pos (by omega)]
          simp [given, writes]
        · rw [if_neg hjn, if_neg (by omega)]
          simp [given, writes]
      · rw [(writeStores_some env.lib row sts n hw hk1).1 hge]
        simp only
        have ih := recvLoop_cancel env ls rows (sts.map fun st => (write env.lib st false row).1) (n - sts.length) hp.2 (by
          intro st hst p hpm
          obtain ⟨s0, hs0, rfl⟩ := List.mem_map.1 hst
          exact hall s0 hs0 p (by rw [List.map_cons, writes]; simp only [List.mem_cons]; exact .inr hpm)) (by
          intro st hst r hr
          obtain ⟨s0, hs0, rfl⟩ := List.mem_map.1 hst
          have := hks s0 hs0 r (by simp [hr])
          unfold HasKeys at *
          rw [write_coll]
          exact this) (by
          rw [List.length_map]
          rw [List.length_cons, Nat.mul_succ] at hn
          omega)
        rw [List.length_map] at ih
        rw [ih]
        have e1 : (n + 1) / (sts.length + 1) = (n - sts.length) / (sts.length + 1) + 1 := by
          rw [show n + 1 = (n - sts.length) + (sts.length + 1) by omega, Nat.add_div_right _ (by omega)]
        have e2 : (n + 1) % (sts.length + 1) = (n - sts.length) % (sts.length + 1) := by
          rw [show n + 1 = (n - sts.length) + (sts.length + 1) by omega, Nat.add_mod_right]
        rw [e1, e2]
        congr 1
        rw [List.mapIdx_eq_iff]
        intro i
        rw [List.getElem?_mapIdx, List.getElem?_map]
        cases sts[i]? with
        | none => rfl
        | some st =>
          simp only [Option.map_some, Option.some.injEq]
          rw [show ∀ a b : Nat, a + 1 + b = (a + b) + 1 from fun a b => by omega, List.take_succ_cons]
          rfl

/-- **C43**, cancelled requests: let a body of well-formed lines be posted of which every store accepts every row, and let the context be
cancelled after it was looked at `n` times (once before each line and once by each store), before the last line is done. Then all stores
have the first `n / (k+1)` rows, where `k` is the number of stores; if the remainder `r` is not zero the first `r-1` stores have one row
more. The answer is 200 if `r` is zero (although not all lines were applied) and 500 otherwise. -/
theorem C43_cancelled_midway (env : Env) (sts : List Store) (ls : List Bytes) (last : Bytes) (rows : List Row) (n : Nat)
    (hls : ∀ l ∈ ls, LineOk l) (hlast : LineOk last) (hp : (bodyLines ls last).map parseRow = rows.map (fun r => Out.val (.ok r)))
    (hacc : ∀ st ∈ sts, ∀ p ∈ (writes env.lib st (rows.map fun r => ⟨r, false⟩)).2, p.2 = .ret none)
    (hkeys : ∀ st ∈ sts, ∀ row ∈ rows, HasKeys st row) (hn : n < (sts.length + 1) * rows.length) :
    Server.serve env sts { post (unlines ls ++ last) with ctx := some n } =
      (sts.mapIdx fun j st => given env st (rows.take (n / (sts.length + 1) + if j + 1 < n % (sts.length + 1) then 1 else 0)),
       if n % (sts.length + 1) = 0 then .ok [] else .refused 500) := by
  have h := serve_raw env sts ⟨unlines ls ++ last, none, false⟩ (some n)
  unfold post
  simp only
  rw [h]
  unfold recvLines
  simp only
  rw [scan_unlines none false last ls hls, scan_last none hlast]
  simp only
  exact recvLoop_cancel env _ rows sts n hp hacc hkeys hn

/-- two stores that count by country and by city -/
def byCountry : Schema := ⟨asc "country", [asc "country"], [], [.count]⟩
def byCity : Schema := ⟨asc "city", [asc "city"], [], [.count]⟩
def parisRow : Row := ⟨15000, [⟨asc "country", asc "FR"⟩, ⟨asc "city", asc "Paris"⟩]⟩

theorem accept_country :
    ((writes fewNumbers (newStore byCountry 16) ([parisRow, parisRow].map fun r => ⟨r, false⟩)).2.all fun p => decide (p.2 = .ret none)) = true := by
  decide +kernel
theorem accept_city :
    ((writes fewNumbers (newStore byCity 16) ([parisRow, parisRow].map fun r => ⟨r, false⟩)).2.all fun p => decide (p.2 = .ret none)) = true := by
  decide +kernel
theorem accepted {l : List (Obs × Bufmap.Res (Option Err))} (h : (l.all fun p => decide (p.2 = .ret none)) = true) :
    ∀ p ∈ l, p.2 = .ret none := by
  intro p hp
  exact of_decide_eq_true (List.all_eq_true.1 h p hp)

/-- the hypotheses are met by two observations for these stores; cancelled after two looks, the first
observation has reached one store only, and the answer is 500; cancelled after three, it has reached both, and the answer is 200 -/
theorem paris_midway (env : Env) (hlib : env.lib = fewNumbers) : let sts := [newStore byCountry 16, newStore byCity 16]
    let line := asc "15,country=FR,city=Paris"
    Server.serve env sts { post (unlines [line, line]) with ctx := some 2 } =
      ([given env (newStore byCountry 16) [parisRow], newStore byCity 16], .refused 500) ∧
    Server.serve env sts { post (unlines [line, line]) with ctx := some 3 } =
      ([given env (newStore byCountry 16) [parisRow], given env (newStore byCity 16) [parisRow]], .ok []) := by
  intro sts line
  have hl : ∀ l ∈ [line, line], LineOk l := by
    intro l hl
    simp only [List.mem_cons, List.not_mem_nil, or_false, or_self] at hl
    rw [hl]
    exact ⟨by decide +kernel, by decide +kernel⟩
  have hp : (bodyLines [line, line] []).map parseRow = [parisRow, parisRow].map (fun r => Out.val (.ok r)) := by decide +kernel
  have hacc : ∀ st ∈ sts, ∀ p ∈ (writes env.lib st ([parisRow, parisRow].map fun r => ⟨r, false⟩)).2, p.2 = .ret none := by
    intro st hst
    simp only [sts, List.mem_cons, List.not_mem_nil, or_false] at hst
    rcases hst with rfl | rfl
    · exact accepted (by rw [hlib]; exact accept_country)
    · exact accepted (by rw [hlib]; exact accept_city)
  have hkeys : ∀ st ∈ sts, ∀ row ∈ [parisRow, parisRow], HasKeys st row := by
    intro st hst row hr
    simp only [List.mem_cons, List.not_mem_nil, or_false, or_self] at hr
    subst hr
    simp only [sts, List.mem_cons, List.not_mem_nil, or_false] at hst
    rcases hst with rfl | rfl
    · intro k hk
      exact ⟨⟨asc "country", asc "FR"⟩, by simp [parisRow], by
        have : k ∈ [asc "country"] := hk
        exact (List.mem_singleton.1 this).symm⟩
    · intro k hk
      exact ⟨⟨asc "city", asc "Paris"⟩, by simp [parisRow], by
        have : k ∈ [asc "city"] := hk
        exact (List.mem_singleton.1 this).symm⟩
  have e : unlines [line, line] = unlines [line, line] ++ [] := by rw [List.append_nil]
  constructor
  · rw [e, C43_cancelled_midway env sts [line, line] [] [parisRow, parisRow] 2 hl ⟨by simp, by simp⟩ hp hacc hkeys (by decide)]
    simp [sts, given, writes]
  · rw [e, C43_cancelled_midway env sts [line, line] [] [parisRow, parisRow] 3 hl ⟨by simp, by simp⟩ hp hacc hkeys (by decide)]
    simp [sts, given]

end Starbow.Props
