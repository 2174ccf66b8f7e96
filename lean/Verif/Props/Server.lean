import Verif.Proof.Server
import Verif.Props.Query
/-
Property theorems C41–C44: observation lines, posting observations, dispatch of requests.
-/
namespace Starbow.Props
open Starbow.Collation Starbow.Spec Starbow.Storage Starbow.Server

/-! ### C41 -/

theorem takeWhile_digits {ts r : Bytes} (h : ∀ b ∈ ts, Digit b) : (ts ++ r).takeWhile (fun b => decide (Digit b)) =
    ts ++ r.takeWhile (fun b => decide (Digit b)) := List.takeWhile_append_of_pos (by simpa using h)

theorem leading_append {ts r : Bytes} (h : ∀ b ∈ ts, Digit b) (hl : ts.length ≤ 20) (hr : ∀ d s, r = d :: s → ¬ Digit d) :
    leadingDigits (ts ++ r) = ts := by
  unfold leadingDigits
  rw [takeWhile_digits h]
  have : r.takeWhile (fun b => decide (Digit b)) = [] := by
    cases r with
    | nil => rfl
    | cons d s => rw [List.takeWhile_cons]; simp [hr d s rfl]
  rw [this, List.append_nil, List.take_of_length_le hl]

/-- **C41**, partial: a line made of a timestamp of at most 20 digits whose value in nanoseconds fits into 64 bits, a delimiter (no digit and not `=`)
and fields whose names contain neither the delimiter nor `=` and whose values do not contain the delimiter (anything else may occur in
them) parses to exactly that time and exactly these fields in order. Missing: larger timestamps and longer strings of digits, for which
it is false (`C41_time_refuted`, `C41_digits_refuted`). -/
theorem C41_parse_partial (ts : Bytes) (d : Byte) (fs : List FV) (hne : ts ≠ []) (hts : ∀ b ∈ ts, Digit b) (hlen : ts.length ≤ 20)
    (hval : decimalValue ts * 1000 < 2 ^ 63) (hd : ¬ Digit d) (hd' : d ≠ 0x3d)
    (hfs : ∀ f ∈ fs, (d ∉ f.f) ∧ (0x3d ∉ f.f) ∧ d ∉ f.v) :
    parseRow (obsLine ts d fs) = .val (.ok ⟨decimalValue ts * 1000, fs⟩) := by
  have hr : ∀ x s, (fs.flatMap fun f => d :: fieldText f) = x :: s → ¬ Digit x := by
    intro x s e
    cases fs with
    | nil => simp at e
    | cons f fs =>
      rw [List.flatMap_cons, List.cons_append, List.cons.injEq] at e
      rw [← e.1]
      exact hd
  have hL : leadingDigits (obsLine ts d fs) = ts := leading_append hts hlen hr
  rw [parseRow_eq, hL, if_neg hne, if_neg (by omega)]
  have ht : wrap64 ((decimalValue ts : Int) * 1000) = (decimalValue ts : Int) * 1000 := by
    unfold wrap64
    rw [Int.bmod_eq_of_le (by omega) (by omega)]
  have hdrop : (obsLine ts d fs).drop ts.length = fs.flatMap fun f => d :: fieldText f := by
    unfold obsLine; rw [List.drop_left]
  rw [ht, hdrop]
  have hfields : fieldsIn (fs.flatMap fun f => d :: fieldText f) = fs := by
   cases fs with
   | nil => rfl
   | cons f fs =>
    rw [List.flatMap_cons, List.cons_append, fieldsIn]
    have htext : ∀ t ∈ (f :: fs).map fieldText, d ∉ t := by
      intro t ht
      obtain ⟨g, hg, rfl⟩ := List.mem_map.1 ht
      obtain ⟨h1, h2, h3⟩ := hfs g hg
      unfold fieldText
      rw [show asc "=" = [0x3d] by decide +kernel]
      intro hm
      simp only [List.append_assoc, List.mem_append, List.mem_singleton] at hm
      rcases hm with hm | hm | hm
      · exact h1 hm
      · exact hd' hm
      · exact h3 hm
    rw [pieces_unique ((f :: fs).map fieldText) _ htext (by rw [List.map_cons, List.flatMap_cons, List.flatMap_map]; rfl), List.map_map]
    have : ∀ g ∈ f :: fs, (fieldOf ∘ fieldText) g = g := by
      intro g hg
      obtain ⟨h1, h2, h3⟩ := hfs g hg
      simp only [Function.comp_apply]
      unfold fieldText
      rw [show asc "=" = [0x3d] by decide +kernel, List.append_assoc, List.singleton_append, fieldOf_eq h2]
    rw [List.map_congr_left this, List.map_id']
  rw [hfields]

/-- an observation with two fields, separated by semicolons; the value of the second contains `=` and a tab -/
example : parseRow (obsLine (asc "1504000000000000") 0x3b [⟨asc "country", asc "FR"⟩, ⟨asc "note", asc "a=b\tc"⟩]) =
    .val (.ok ⟨1504000000000000000, [⟨asc "country", asc "FR"⟩, ⟨asc "note", asc "a=b\tc"⟩]⟩) :=
  C41_parse_partial _ _ _ (by decide +kernel) (by decide +kernel) (by decide +kernel) (by decide +kernel) (by decide) (by decide) (by decide +kernel)

/-- the line is the expected text -/
example : obsLine (asc "15") 0x3b [⟨asc "country", asc "FR"⟩, ⟨asc "note", asc "a=b"⟩] = asc "15;country=FR;note=a=b" := by decide +kernel

/-- **C41 fails** for times after 11 April 2262: whenever the line is accepted but the time in nanoseconds does not fit into 64 bits, the
time recorded is a different one. -/
theorem C41_time_refuted (ts : Bytes) (hne : ts ≠ []) (hts : ∀ b ∈ ts, Digit b) (hlen : ts.length ≤ 20)
    (hlow : 2 ^ 63 ≤ decimalValue ts * 1000) (hhigh : decimalValue ts < 2 ^ 63) :
    ∃ t, parseRow ts = .val (.ok ⟨t, []⟩) ∧ t ≠ decimalValue ts * 1000 := by
  have hL : leadingDigits ts = ts := by
    have := leading_append (r := []) hts hlen (by simp)
    rwa [List.append_nil] at this
  refine ⟨wrap64 ((decimalValue ts : Int) * 1000), ?_, ?_⟩
  · rw [parseRow_eq, hL, if_neg hne, if_neg (by omega), List.drop_length, fieldsIn]
  · have : wrap64 ((decimalValue ts : Int) * 1000) < 2 ^ 63 := by
      unfold wrap64
      have := @Int.bmod_lt ((decimalValue ts : Int) * 1000) (2 ^ 64) (by decide)
      omega
    omega

example : parseRow (asc "9223372036854776") = .val (.ok ⟨-9223372036854775616, []⟩) := by decide +kernel

/-- **C41 fails** for more than 20 digits: the 21st is taken for the delimiter. -/
theorem C41_digits_refuted : parseRow (obsLine (asc "000000000000000000015") 0x3b [⟨asc "a", asc "b"⟩, ⟨asc "c", asc "d5e"⟩]) =
    .val (.ok ⟨1000, [⟨asc ";a", asc "b;c=d"⟩, ⟨asc "e", []⟩]⟩) := by decide +kernel

/-! ### C42 -/

theorem leading_nil (data : Bytes) : leadingDigits data = [] ↔ ¬ ∃ b s, data = b :: s ∧ Digit b := by
  cases data with
  | nil => simp [leadingDigits]
  | cons b s =>
    unfold leadingDigits
    rw [List.takeWhile_cons]
    by_cases h : Digit b
    · simp [h]
    · simp [h]

/-- **C42**: the line parser never panics; … -/
theorem C42_total (data : Bytes) : ∃ r, parseRow data = .val r := ⟨_, parseRow_eq data⟩

/-- … it refuses exactly the lines that do not begin with a digit and those whose leading digits (at most 20) stand for a number beyond
the 64-bit range; … -/
theorem C42_refuses (data : Bytes) : (∃ e, parseRow data = .val (.error e)) ↔
    (¬ ∃ b s, data = b :: s ∧ Digit b) ∨ 2 ^ 63 ≤ decimalValue (leadingDigits data) := by
  rw [parseRow_eq, ← leading_nil]
  by_cases h1 : leadingDigits data = []
  · simp [h1]
  · rw [if_neg h1]
    by_cases h2 : decimalValue (leadingDigits data) ≥ 2 ^ 63
    · rw [if_pos h2]; exact ⟨fun _ => .inr h2, fun _ => ⟨_, rfl⟩⟩
    · rw [if_neg h2]
      constructor
      · rintro ⟨e, he⟩; simp at he
      · rintro (h | h)
        · exact absurd h h1
        · exact absurd h h2

/-- … and of the lines it accepts, no byte is lost and none invented: the line is the timestamp followed by the texts of the fields, each
after the delimiter, and each field is what its text says. -/
theorem C42_faithful (data : Bytes) (r : Row) (h : parseRow data = .val (.ok r)) :
    ∃ (d : Byte) (texts : List Bytes), data = leadingDigits data ++ texts.flatMap (d :: ·) ∧ (∀ t ∈ texts, d ∉ t) ∧ r.data = texts.map fieldOf ∧
      r.dataTime = wrap64 ((decimalValue (leadingDigits data) : Int) * 1000) := by
  rw [parseRow_eq] at h
  by_cases h1 : leadingDigits data = []
  · rw [if_pos h1] at h; simp at h
  · rw [if_neg h1] at h
    by_cases h2 : decimalValue (leadingDigits data) ≥ 2 ^ 63
    · rw [if_pos h2] at h; simp at h
    · rw [if_neg h2] at h
      simp only [Out.val.injEq, Except.ok.injEq] at h
      subst h
      obtain ⟨s, hs⟩ := leading_prefix data
      have hd : data.drop (leadingDigits data).length = s := by
        have := congrArg (List.drop (leadingDigits data).length) hs
        rw [List.drop_left] at this
        exact this
      rw [hd]
      generalize wrap64 ((decimalValue (leadingDigits data) : Int) * 1000) = T
      cases s with
      | nil => exact ⟨0x09, [], by simpa using hs, by simp, by simp [fieldsIn], rfl⟩
      | cons d s =>
        obtain ⟨e1, e2, _⟩ := pieces_spec d s
        exact ⟨d, pieces d s, by rw [e1]; exact hs, e2, by rw [fieldsIn], rfl⟩

/-- what a field's text says: if the text has no `=` it is the name and the value is empty; otherwise it is the name, `=` and the value -/
theorem C42_field (t : Bytes) : (0x3d ∉ (fieldOf t).f) ∧
    (((0x3d ∉ t) ∧ t = (fieldOf t).f ∧ (fieldOf t).v = []) ∨ t = (fieldOf t).f ++ 0x3d :: (fieldOf t).v) := by
  by_cases h : (0x3d : Byte) ∈ t
  · cases hi : indexByte t 0x3d with
    | none => exact absurd h (indexByte_none hi)
    | some i =>
      obtain ⟨a, r, rfl, _, hn⟩ := indexByte_some hi
      rw [fieldOf_eq hn]
      exact ⟨hn, .inr rfl⟩
  · rw [fieldOf_none h]
    exact ⟨h, .inl ⟨h, rfl, rfl⟩⟩

/-- all three cases occur: refused without a digit, refused for its size, accepted -/
example : parseRow (asc "x") = .val (.error .missingTimestamp) ∧ parseRow [] = .val (.error .missingTimestamp) ∧
    parseRow (asc "9223372036854775808") = .val (.error .atoi) ∧
    parseRow (asc "1,a,=b,") = .val (.ok ⟨1000, [⟨asc "a", []⟩, ⟨[], asc "b"⟩, ⟨[], []⟩]⟩) := by decide +kernel

/-! ### C43 -/

theorem cutLine_line {l r : Bytes} (h : 0x0a ∉ l) : cutLine (l ++ 0x0a :: r) = (l, some r) := by
  induction l with
  | nil => simp [cutLine]
  | cons b l ih =>
    simp only [List.mem_cons, not_or] at h
    rw [List.cons_append, cutLine, if_neg (Ne.symm h.1), ih h.2]

theorem cutLine_last {l : Bytes} (h : 0x0a ∉ l) : cutLine l = (l, none) := by
  induction l with
  | nil => simp [cutLine]
  | cons b l ih =>
    simp only [List.mem_cons, not_or] at h
    rw [cutLine, if_neg (Ne.symm h.1), ih h.2]

theorem dropCR_eq (l : Bytes) : dropCR l = noCR l := rfl

theorem scan_line (err : Option Err) (w : Bool) {l r : Bytes} (h : LineOk l) :
    scan err w (l ++ 0x0a :: r) = (noCR l :: (scan err w r).1, (scan err w r).2) := by
  rw [scan.eq_def]
  split
  · next line rest e =>
    rw [cutLine_line h.1] at e
    simp only [Prod.mk.injEq, Option.some.injEq] at e
    obtain ⟨rfl, rfl⟩ := e
    rw [if_neg (by have := h.2; unfold maxToken; omega)]
    rfl
  · next line e =>
    rw [cutLine_line h.1] at e
    simp at e

theorem scan_last (err : Option Err) {l : Bytes} (h : LineOk l) :
    scan err false l = (if l = [] then [] else [noCR l], err) := by
  rw [scan.eq_def]
  split
  · next line rest e =>
    rw [cutLine_last h.1] at e
    simp at e
  · next line e =>
    rw [cutLine_last h.1] at e
    simp only [Prod.mk.injEq, and_true] at e
    subst e
    by_cases h0 : l = []
    · simp [h0]
    · rw [if_neg h0, if_neg h0, if_neg (by have := h.2; unfold maxToken; simp; omega)]
      rfl

theorem scan_long (err : Option Err) {l r : Bytes} (h : 0x0a ∉ l) (hlen : 65535 < l.length) (hr : r = [] ∨ ∃ s, r = 0x0a :: s) :
    scan err false (l ++ r) = ([], some .tooLong) := by
  rw [scan.eq_def]
  rcases hr with rfl | ⟨s, rfl⟩
  · rw [List.append_nil]
    split
    · next line rest e =>
      rw [cutLine_last h] at e
      simp at e
    · next line e =>
      rw [cutLine_last h] at e
      simp only [Prod.mk.injEq, and_true] at e
      subst e
      rw [if_neg (by rintro rfl; simp at hlen), if_pos (by unfold maxToken; simp; omega)]
  · split
    · next line rest e =>
      rw [cutLine_line h] at e
      simp only [Prod.mk.injEq, Option.some.injEq] at e
      obtain ⟨rfl, rfl⟩ := e
      rw [if_pos (by unfold maxToken; omega)]
    · next line e =>
      rw [cutLine_line h] at e
      simp at e

theorem scan_unlines (err : Option Err) (w : Bool) (r : Bytes) : ∀ ls : List Bytes, (∀ l ∈ ls, LineOk l) →
    scan err w (unlines ls ++ r) = (ls.map noCR ++ (scan err w r).1, (scan err w r).2)
  | [], _ => by simp [unlines]
  | l :: ls, h => by
    have ih := scan_unlines err w r ls fun x hx => h x (by simp [hx])
    have : unlines (l :: ls) ++ r = l ++ 0x0a :: (unlines ls ++ r) := by simp [unlines]
    rw [this, scan_line err w (h l (by simp)), ih]
    rfl

theorem serve_obs (env : Env) (sts : List Store) (req : Request) (h1 : req.path = asc "/obs") (h2 : req.method = asc "POST")
    (h3 : req.star = false) : Server.serve env sts req = recvObservation env sts req := by
  unfold Server.serve
  rw [h3, h1, h2, if_neg (by simp), if_neg, if_pos rfl, if_pos rfl]
  rintro ⟨h, _⟩
  exact h (by decide +kernel)

theorem serve_raw (env : Env) (sts : List Store) (b : Body) (ctx : Ctx) :
    Server.serve env sts { method := asc "POST", path := asc "/obs", body := b, ctx := ctx } = recvLines env ctx sts b := by
  rw [serve_obs env sts _ rfl rfl rfl]
  unfold recvObservation contentType
  rw [if_pos rfl]
  simp only
  rw [if_neg (by decide +kernel), if_pos (by decide +kernel)]

theorem serve_post (env : Env) (sts : List Store) (b : Bytes) :
    Server.serve env sts (post b) = recvLoop env.lib (scan none false b).2 none (scan none false b).1 sts := serve_raw env sts ⟨b, none, false⟩ none

theorem ctx_none (lib : Lib) (row : Row) : ∀ sts, (writeStores lib row none sts).2.2 = none
  | [] => rfl
  | st :: sts => by
    have := ctx_none lib row sts
    rw [writeStores]
    simp only
    split
    · exact this
    · rfl
    · rfl
    · rfl

/-- one line, then the others -/
theorem recvLoop_cons (lib : Lib) (scErr : Option Err) (line : Bytes) (lines : List Bytes) (sts : List Store) :
    recvLoop lib scErr none (line :: lines) sts =
      if (recvLoop lib none none [line] sts).2 = .ok [] then recvLoop lib scErr none lines (recvLoop lib none none [line] sts).1
      else recvLoop lib none none [line] sts := by
  have key : ∀ sErr ls, recvLoop lib sErr none (line :: ls) sts =
      match parseRow line with
      | .panic => (sts, .panic)
      | .val (.error _) => (sts, .refused 500)
      | .val (.ok row) =>
        match writeStores lib row none sts with
        | (sts', some r, _) => (sts', r)
        | (sts', none, ctx') => recvLoop lib sErr ctx' ls sts' := by
    intro sErr ls
    rw [recvLoop, if_neg (by decide)]
    rfl
  rw [key, key]
  cases parseRow line with
  | panic => simp
  | val r =>
    cases r with
    | error e => simp
    | ok row =>
      simp only
      have hctx := ctx_none lib row sts
      cases hw : writeStores lib row none sts with
      | mk sts' rc =>
        cases rc with
        | mk r c =>
          rw [hw] at hctx
          simp only at hctx
          subst hctx
          cases r with
          | none => simp [recvLoop]
          | some r =>
            simp only
            -- a store that fails never makes the answer 200
            have : r ≠ .ok [] := by
              have aux : ∀ (sts : List Store) (c : Ctx) r, (writeStores lib row c sts).2.1 = some r → r ≠ .ok [] := by
                intro sts
                induction sts with
                | nil => intro c r h; simp [writeStores] at h
                | cons st sts ih =>
                  intro c r h
                  rw [writeStores] at h
                  simp only at h
                  split at h
                  · exact ih _ r h
                  · simp only [Option.some.injEq] at h; rw [← h]; simp
                  · simp only [Option.some.injEq] at h; rw [← h]; simp
                  · simp only [Option.some.injEq] at h; rw [← h]; simp
              exact aux sts none r (by rw [hw])
            rw [if_neg this]

/-- the requests the lines of a body amount to -/
def linePosts (ls : List Bytes) (last : Bytes) : List Request :=
  (ls.map fun l => post (l ++ [0x0a])) ++ if last = [] then [] else [post last]

theorem serve_line (env : Env) (sts : List Store) {l : Bytes} (h : LineOk l) :
    Server.serve env sts (post (l ++ [0x0a])) = recvLoop env.lib none none [noCR l] sts := by
  rw [serve_post, scan_line none false h, scan_last none (l := []) ⟨by simp, by simp⟩]
  simp

theorem serve_last (env : Env) (sts : List Store) {l : Bytes} (h : LineOk l) (h0 : l ≠ []) :
    Server.serve env sts (post l) = recvLoop env.lib none none [noCR l] sts := by
  rw [serve_post, scan_last none h, if_neg h0]

theorem inOrder_lines (env : Env) (scErr : Option Err) (tail : List Bytes) (posts : List Request) : ∀ (ls : List Bytes), (∀ l ∈ ls, LineOk l) →
    (∀ sts, recvLoop env.lib scErr none tail sts = inOrder env sts posts) →
    ∀ sts, recvLoop env.lib scErr none (ls.map noCR ++ tail) sts = inOrder env sts ((ls.map fun l => post (l ++ [0x0a])) ++ posts)
  | [], _, ht, sts => ht sts
  | l :: ls, h, ht, sts => by
    have ih := inOrder_lines env scErr tail posts ls (fun x hx => h x (by simp [hx])) ht
    rw [List.map_cons, List.cons_append, recvLoop_cons, List.map_cons, List.cons_append, inOrder, serve_line env sts (h l (by simp)), ih]

/-- **C43**, in order up to the first failure: posting a body of any number of lines (the last one possibly without newline) has exactly
the effect and the answer of posting its lines one by one until one is not answered with 200. -/
theorem C43_batch (env : Env) (sts : List Store) (ls : List Bytes) (last : Bytes) (hls : ∀ l ∈ ls, LineOk l) (hlast : LineOk last) :
    Server.serve env sts (post (unlines ls ++ last)) = inOrder env sts (linePosts ls last) := by
  rw [serve_post, scan_unlines none false last ls hls, scan_last none hlast]
  simp only
  unfold linePosts
  apply inOrder_lines env none _ _ ls hls
  intro sts
  by_cases h0 : last = []
  · simp [h0, recvLoop, inOrder]
  · rw [if_neg h0, if_neg h0, inOrder, serve_last env sts hlast h0, inOrder]
    split
    · next h => rw [← h]
    · rfl

/-- **C43**, lines that are too long: when a line does not fit into the scanner's buffer, the lines before it are applied as above, and
then the request is refused with status 500. -/
theorem C43_too_long (env : Env) (sts : List Store) (ls : List Bytes) (long rest : Bytes) (hls : ∀ l ∈ ls, LineOk l)
    (hnl : 0x0a ∉ long) (hlen : 65535 < long.length) (hrest : rest = [] ∨ ∃ s, rest = 0x0a :: s) :
    Server.serve env sts (post (unlines ls ++ (long ++ rest))) =
      if (inOrder env sts (linePosts ls [])).2 = .ok [] then ((inOrder env sts (linePosts ls [])).1, .refused 500)
      else inOrder env sts (linePosts ls []) := by
  rw [serve_post, scan_unlines none false _ ls hls, scan_long none hnl hlen hrest]
  simp only [List.append_nil, linePosts, if_true]
  induction ls generalizing sts with
  | nil => simp [inOrder, recvLoop]
  | cons l ls ih =>
    rw [List.map_cons, recvLoop_cons, List.map_cons, inOrder, serve_line env sts (hls l (by simp))]
    by_cases h : (recvLoop env.lib none none [noCR l] sts).2 = .ok []
    · rw [if_pos h, if_pos h]
      exact ih _ (fun x hx => hls x (by simp [hx]))
    · rw [if_neg h, if_neg h, if_neg h]

/-- **C43**, one line: if it does not parse, the answer is 500 and nothing changes; … -/
theorem C43_bad_line (env : Env) (sts : List Store) (l : Bytes) (hl : LineOk l) (e : Err) (hp : parseRow (noCR l) = .val (.error e)) :
    Server.serve env sts (post (l ++ [0x0a])) = (sts, .refused 500) := by
  rw [serve_line env sts hl, recvLoop, if_neg (by decide), hp]

theorem writeStores_all (lib : Lib) (row : Row) : ∀ (sts : List Store), (∀ st ∈ sts, (write lib st false row).2 = .ret none) →
    writeStores lib row none sts = (sts.map fun st => (write lib st false row).1, none, none)
  | [], _ => rfl
  | st :: sts, h => by
    have ih := writeStores_all lib row sts fun x hx => h x (by simp [hx])
    have h1 := h st (by simp)
    rw [writeStores]
    simp only [show Ctx.done none = false from rfl]
    rw [h1]
    simp only [show Ctx.next none = none from rfl]
    rw [ih]
    rfl

/-- the answer when a write fails in this way -/
def failure : Bufmap.Res (Option Err) → Reply
  | .ret none => .ok []
  | .ret (some _) => .refused 500
  | .panic => .panic
  | .hang => .hang

theorem writeStores_stop (lib : Lib) (row : Row) (st : Store) (b : List Store) (hst : (write lib st false row).2 ≠ .ret none) :
    ∀ (a : List Store), (∀ st ∈ a, (write lib st false row).2 = .ret none) →
    writeStores lib row none (a ++ st :: b) =
      ((a.map fun st => (write lib st false row).1) ++ (write lib st false row).1 :: b, some (failure (write lib st false row).2), none)
  | [], _ => by
    rw [List.nil_append, writeStores]
    simp only [show Ctx.done none = false from rfl, show Ctx.next none = none from rfl]
    cases hw : (write lib st false row).2 with
    | panic => simp [failure]
    | hang => simp [failure]
    | ret e =>
      cases e with
      | none => exact absurd hw hst
      | some e => simp [failure]
  | s :: a, h => by
    have ih := writeStores_stop lib row st b hst a fun x hx => h x (by simp [hx])
    rw [List.cons_append, writeStores]
    simp only [show Ctx.done none = false from rfl]
    rw [h s (by simp)]
    simp only [show Ctx.next none = none from rfl]
    rw [ih]
    rfl

/-- … if it parses, it is written to the stores in order: to all of them, if none fails; … -/
theorem C43_line (env : Env) (sts : List Store) (l : Bytes) (hl : LineOk l) (row : Row) (hp : parseRow (noCR l) = .val (.ok row))
    (hall : ∀ st ∈ sts, (write env.lib st false row).2 = .ret none) :
    Server.serve env sts (post (l ++ [0x0a])) = (sts.map fun st => (write env.lib st false row).1, .ok []) := by
  rw [serve_line env sts hl, recvLoop, if_neg (by decide), hp]
  simp only [show Ctx.next none = none from rfl]
  rw [writeStores_all env.lib row sts hall]
  rfl

/-- … and otherwise up to the first one that fails, which determines the answer; the stores after it do not see the row. -/
theorem C43_store_fails (env : Env) (a b : List Store) (st : Store) (l : Bytes) (hl : LineOk l) (row : Row)
    (hp : parseRow (noCR l) = .val (.ok row)) (ha : ∀ s ∈ a, (write env.lib s false row).2 = .ret none)
    (hst : (write env.lib st false row).2 ≠ .ret none) :
    Server.serve env (a ++ st :: b) (post (l ++ [0x0a])) =
      ((a.map fun s => (write env.lib s false row).1) ++ (write env.lib st false row).1 :: b, failure (write env.lib st false row).2) := by
  rw [serve_line env _ hl, recvLoop, if_neg (by decide), hp]
  simp only [show Ctx.next none = none from rfl]
  rw [writeStores_stop env.lib row st b hst a ha]

theorem writeStores_none (lib : Lib) (row : Row) : ∀ (sts : List Store), (writeStores lib row none sts).2.1 = none →
    ∀ st ∈ sts, (write lib st false row).2 = .ret none
  | [], _, _, h => by simp at h
  | s :: sts, h, st, hst => by
    rw [writeStores] at h
    simp only [show Ctx.done none = false from rfl, show Ctx.next none = none from rfl] at h
    split at h
    · next hw =>
      rcases List.mem_cons.1 hst with rfl | hst
      · exact hw
      · exact writeStores_none lib row sts h st hst
    · simp at h
    · simp at h
    · simp at h

theorem recvLoop_ok (lib : Lib) (scErr : Option Err) : ∀ (lines : List Bytes) (sts sts' : List Store) (b : Bytes),
    recvLoop lib scErr none lines sts = (sts', .ok b) →
    scErr = none ∧ ∃ rows : List Row, lines.map parseRow = rows.map (fun r => Out.val (.ok r)) ∧
      sts' = (sts.map fun st => (writes lib st (rows.map fun r => ⟨r, false⟩)).1) ∧
      ∀ st ∈ sts, ∀ p ∈ (writes lib st (rows.map fun r => ⟨r, false⟩)).2, p.2 = .ret none
  | [], sts, sts', b, h => by
    rw [recvLoop] at h
    by_cases hs : scErr = none
    · rw [if_pos hs] at h
      simp only [Prod.mk.injEq] at h
      refine ⟨hs, [], rfl, ?_, ?_⟩
      · rw [← h.1]; simp [writes]
      · intro st _ p hp; simp [writes] at hp
    · rw [if_neg hs] at h; simp at h
  | line :: lines, sts, sts', b, h => by
    rw [recvLoop, if_neg (by decide)] at h
    cases hp : parseRow line with
    | panic => rw [hp] at h; simp at h
    | val r =>
      cases r with
      | error e => rw [hp] at h; simp at h
      | ok row =>
        rw [hp] at h
        simp only [show Ctx.next none = none from rfl] at h
        cases hw : (writeStores lib row none sts).2.1 with
        | some r =>
          exfalso
          have hr : ∀ (sts : List Store) (c : Ctx) r, (writeStores lib row c sts).2.1 = some r → ∀ b, r ≠ .ok b := by
            intro sts
            induction sts with
            | nil => intro c r h; simp [writeStores] at h
            | cons st sts ih =>
              intro c r h b
              rw [writeStores] at h
              simp only at h
              split at h
              · exact ih _ r h b
              · simp only [Option.some.injEq] at h; rw [← h]; simp
              · simp only [Option.some.injEq] at h; rw [← h]; simp
              · simp only [Option.some.injEq] at h; rw [← h]; simp
          have hr := hr sts none r hw b
          have he : writeStores lib row none sts = ((writeStores lib row none sts).1, some r, (writeStores lib row none sts).2.2) := by rw [← hw]
          rw [he] at h
          simp only [Prod.mk.injEq] at h
          exact hr h.2
        | none =>
          have hall := writeStores_none lib row sts hw
          rw [writeStores_all lib row sts hall] at h
          simp only at h
          obtain ⟨h1, rows, e1, e2, e3⟩ := recvLoop_ok lib scErr lines _ sts' b h
          refine ⟨h1, row :: rows, by simp [hp, e1], ?_, ?_⟩
          · rw [e2, List.map_map]
            rfl
          · intro st hst p hpm
            rw [List.map_cons, writes] at hpm
            simp only [List.mem_cons] at hpm
            rcases hpm with rfl | hpm
            · exact hall st hst
            · exact e3 _ (List.mem_map.2 ⟨st, hst, rfl⟩) p hpm

theorem split_body (b : Bytes) : ∃ ls last, b = unlines ls ++ last ∧ (∀ l ∈ ls, 0x0a ∉ l) ∧ 0x0a ∉ last := by
  induction b with
  | nil => exact ⟨[], [], rfl, by simp, by simp⟩
  | cons x b ih =>
    obtain ⟨ls, last, rfl, h1, h2⟩ := ih
    by_cases hx : x = 0x0a
    · exact ⟨[] :: ls, last, by simp [unlines, hx], by simpa using h1, h2⟩
    · cases ls with
      | nil => exact ⟨[], x :: last, by simp [unlines], by simp, fun hm => (List.mem_cons.1 hm).elim (fun h => hx h.symm) h2⟩
      | cons l ls =>
        refine ⟨(x :: l) :: ls, last, by simp [unlines], ?_, h2⟩
        intro l' hl'
        rcases List.mem_cons.1 hl' with rfl | hl'
        · exact fun hm => (List.mem_cons.1 hm).elim (fun h => hx h.symm) (h1 l (by simp))
        · exact h1 l' (by simp [hl'])

/-- the lines of a body without the line ends: what the scanner hands over -/
def bodyLines (ls : List Bytes) (last : Bytes) : List Bytes := ls.map noCR ++ if last = [] then [] else [noCR last]

/-- **C43**, what 200 means: every body is made of lines; if posting it (without cancellation) is answered with 200, then every one of
them parsed, and each store has been given every row, in order, with success. -/
theorem C43_accepted (env : Env) (sts sts' : List Store) (body reply : Bytes)
    (h : Server.serve env sts (post body) = (sts', .ok reply)) :
    ∃ (ls : List Bytes) (last : Bytes) (rows : List Row), body = unlines ls ++ last ∧ (∀ l ∈ ls, 0x0a ∉ l) ∧ (0x0a ∉ last) ∧
      (bodyLines ls last).map parseRow = rows.map (fun r => Out.val (.ok r)) ∧
      sts' = (sts.map fun st => (writes env.lib st (rows.map fun r => ⟨r, false⟩)).1) ∧
      ∀ st ∈ sts, ∀ p ∈ (writes env.lib st (rows.map fun r => ⟨r, false⟩)).2, p.2 = .ret none := by
  obtain ⟨ls, last, rfl, h1, h2⟩ := split_body body
  rw [serve_post] at h
  obtain ⟨hs, rows, e1, e2, e3⟩ := recvLoop_ok env.lib _ _ _ _ _ h
  refine ⟨ls, last, rows, rfl, h1, h2, ?_, e2, e3⟩
  rw [← e1]
  congr 1
  have aux : ∀ ls : List Bytes, (∀ l ∈ ls, 0x0a ∉ l) → (scan none false (unlines ls ++ last)).2 = none →
      (scan none false (unlines ls ++ last)).1 = bodyLines ls last := by
    intro ls
    induction ls with
    | nil =>
      intro _ hs
      rw [show unlines [] ++ last = last from rfl] at hs ⊢
      by_cases hlen : 65535 < last.length
      · have := scan_long none h2 hlen (.inl rfl)
        rw [List.append_nil] at this
        rw [this] at hs
        simp at hs
      · rw [scan_last none ⟨h2, by omega⟩]
        simp [bodyLines]
    | cons l ls ih =>
      intro h hs
      have e : unlines (l :: ls) ++ last = l ++ 0x0a :: (unlines ls ++ last) := by simp [unlines]
      rw [e] at hs ⊢
      by_cases hlen : 65535 < l.length
      · rw [scan_long none (h l (by simp)) hlen (.inr ⟨_, rfl⟩)] at hs
        simp at hs
      · rw [scan_line none false ⟨h l (by simp), by omega⟩] at hs ⊢
        simp only at hs ⊢
        rw [ih (fun x hx => h x (by simp [hx])) hs]
        simp [bodyLines]
  exact (aux ls h1 hs).symm

/-- **C43**: the other ways to post are the same as posting the raw body: with an explicit media type text/plain or
application/octet-stream, and the value of `data` in a form. -/
theorem C43_media (env : Env) (sts : List Store) (body : Bytes) (req : Request) (h1 : req.path = asc "/obs") (h2 : req.method = asc "POST")
    (h3 : req.star = false) (h4 : req.ctx = none)
    (h : (∃ m, (m = asc "text/plain" ∨ m = asc "application/octet-stream") ∧ req.contentType ≠ [] ∧ env.parseMediaType req.contentType = .ok m ∧
        req.body = ⟨body, none, false⟩) ∨
      (req.contentType ≠ [] ∧ env.parseMediaType req.contentType = .ok (asc "application/x-www-form-urlencoded") ∧ body ≠ [] ∧ req.form (asc "data") = body)) :
    Server.serve env sts req = Server.serve env sts (post body) := by
  rw [serve_obs env sts req h1 h2 h3, serve_post]
  unfold recvObservation contentType
  rcases h with ⟨m, hm, hct, hp, hb⟩ | ⟨hct, hp, hb, hf⟩
  · rw [if_neg hct, hp]
    simp only
    rw [if_neg (by rcases hm with rfl | rfl <;> decide +kernel), if_pos hm, h4, hb]
    rfl
  · rw [if_neg hct, hp]
    simp only [if_true]
    rw [hf, if_neg hb, h4]
    rfl

/-- **C43 fails** when the client goes away: if the context is already cancelled, the request is answered with 200 although none of its
lines is applied. (The answer does not reach the client then, but it is what a middleware or a log would see.) -/
theorem C43_cancelled_refuted (env : Env) (sts : List Store) (l rest : Bytes) (hl : LineOk l) :
    Server.serve env sts { post (l ++ 0x0a :: rest) with ctx := some 0 } = (sts, .ok []) := by
  have := serve_raw env sts ⟨l ++ 0x0a :: rest, none, false⟩ (some 0)
  unfold post
  simp only
  rw [this]
  unfold recvLines
  simp only
  rw [scan_line none false hl]
  simp only [recvLoop]
  rw [if_pos (by decide)]

/-- **C43 fails** for bodies that are cut short: when reading the body fails in the middle of a line, the part of the line that has
arrived is applied as if it were a complete line; the answer is never 200. -/
theorem C43_truncated_refuted (env : Env) (sts : List Store) (ls : List Bytes) (part : Bytes) (e : Err) (hls : ∀ l ∈ ls, LineOk l)
    (hpart : LineOk part) :
    (Server.serve env sts { post (unlines ls ++ part) with body := ⟨unlines ls ++ part, some e, false⟩ }).1 =
      (Server.serve env sts (post (unlines ls ++ part))).1 ∧
    (Server.serve env sts { post (unlines ls ++ part) with body := ⟨unlines ls ++ part, some e, false⟩ }).2 ≠ .ok [] := by
  have h := serve_raw env sts ⟨unlines ls ++ part, some e, false⟩ none
  rw [serve_post]
  unfold post
  simp only
  rw [h]
  unfold recvLines
  simp only
  rw [scan_unlines (some e) false part ls hls, scan_last (some e) hpart, scan_unlines none false part ls hls, scan_last none hpart]
  simp only
  generalize ls.map noCR ++ (if part = [] then [] else [noCR part]) = lines
  constructor
  · clear h
    induction lines generalizing sts with
    | nil => rfl
    | cons l lines ih =>
      rw [recvLoop_cons env.lib (some e) l lines, recvLoop_cons env.lib none l lines]
      split
      · exact ih _
      · rfl
  · intro hok
    have : recvLoop env.lib (some e) none lines sts = ((recvLoop env.lib (some e) none lines sts).1, .ok []) := by rw [← hok]
    have := (recvLoop_ok env.lib (some e) lines sts _ _ this).1
    simp at this

/-- a line that arrives, one that does not parse, and one that is too long: the hypotheses of the theorems above are met -/
example : LineOk (asc "15;country=FR\r") ∧ parseRow (noCR (asc "15;country=FR\r")) = .val (.ok ⟨15000, [⟨asc "country", asc "FR"⟩]⟩) ∧
    LineOk [] ∧ parseRow (noCR []) = .val (.error .missingTimestamp) ∧
    ((0x0a : Byte) ∉ List.replicate 65536 (0x31 : Byte)) ∧ 65535 < (List.replicate 65536 (0x31 : Byte)).length := by
  refine ⟨⟨by decide +kernel, by decide +kernel⟩, by decide +kernel, ⟨by simp, by simp⟩, by decide +kernel, ?_, ?_⟩
  · rw [List.mem_replicate]
    exact fun h => absurd h.2 (by decide)
  · rw [List.length_replicate]
    decide

/-! ### C44 -/

/-- the path the mux serves without redirect, for a name without slashes other than `.` and `..` -/
theorem clean_collation (name : Bytes) (h : 0x2f ∉ name) (h1 : name ≠ asc ".") (h2 : name ≠ asc "..") :
    cleanPath (asc "/collation/" ++ name) = true := by
  have hn : elements name = [name] := by
    clear h1 h2
    induction name with
    | nil => rfl
    | cons b s ih =>
      simp only [List.mem_cons, not_or] at h
      rw [elements, if_neg (Ne.symm h.1), ih h.2]
  have he : elements (asc "/collation/" ++ name) = [[], asc "collation", name] := by
    have key : ∀ (p s : Bytes), (0x2f ∉ p) → elements (p ++ 0x2f :: s) = p :: elements s := by
      intro p s hp
      induction p with
      | nil => simp [elements]
      | cons b p ih =>
        simp only [List.mem_cons, not_or] at hp
        rw [List.cons_append, elements, if_neg (Ne.symm hp.1), ih hp.2]
    have : asc "/collation/" ++ name = [] ++ 0x2f :: (asc "collation" ++ 0x2f :: name) := by
      rw [show asc "/collation/" = 0x2f :: (asc "collation" ++ [0x2f]) by decide +kernel]
      simp
    rw [this, key [] _ (by simp), key (asc "collation") _ (by decide +kernel), hn]
  unfold cleanPath
  rw [he]
  simp only [List.dropLast, List.all_cons, List.all_nil, Bool.and_true, h1, h2, ne_eq, not_false_eq_true, decide_true]
  decide +kernel

/-- **C44**, /obs: only POST is served; the media type must parse, be one of the three, and a form must have `data`. -/
theorem C44_obs (env : Env) (sts : List Store) (req : Request) (hs : req.star = false) (hp : req.path = asc "/obs") :
    (req.method ≠ asc "POST" → Server.serve env sts req = (sts, .refused 405)) ∧
    (req.method = asc "POST" → req.contentType ≠ [] →
      (∀ e, env.parseMediaType req.contentType = .error e → Server.serve env sts req = (sts, .refused 400)) ∧
      (∀ m, env.parseMediaType req.contentType = .ok m → m ≠ asc "application/x-www-form-urlencoded" → m ≠ asc "text/plain" →
        m ≠ asc "application/octet-stream" → Server.serve env sts req = (sts, .refused 415)) ∧
      (env.parseMediaType req.contentType = .ok (asc "application/x-www-form-urlencoded") → req.form (asc "data") = [] →
        Server.serve env sts req = (sts, .refused 400))) := by
  constructor
  · intro hm
    unfold Server.serve
    rw [hs, hp, if_neg (by simp), if_neg, if_pos rfl, if_neg hm]
    rintro ⟨h, _⟩
    exact h (by decide +kernel)
  · intro hm hct
    rw [serve_obs env sts req hp hm hs]
    unfold recvObservation contentType
    rw [if_neg hct]
    refine ⟨?_, ?_, ?_⟩
    · intro e he
      rw [he]
    · intro m he h1 h2 h3
      rw [he]
      simp only
      rw [if_neg h1, if_neg (by rintro (h | h); exacts [h2 h, h3 h])]
    · intro he hd
      rw [he]
      simp only
      rw [if_pos trivial, hd, if_pos rfl]

theorem serve_collation (env : Env) (sts : List Store) (req : Request) (hs : req.star = false) (name : Bytes)
    (hp : req.path = asc "/collation/" ++ name) (hc : cleanPath req.path = true ∨ req.method = asc "CONNECT") :
    Server.serve env sts req = if name = [] then (sts, .refused 404) else if 0x2f ∈ name then (sts, .refused 404)
      else if req.method ≠ asc "POST" ∧ req.method ≠ asc "GET" then (sts, .refused 405) else (sts, queryCollation env sts name req) := by
  unfold Server.serve
  rw [hs, if_neg (by simp), if_neg]
  · have h1 : req.path ≠ asc "/obs" := by
      rw [hp]
      intro h
      have := congrArg (fun l => l.drop 1 |>.head?) h
      revert this
      rw [show asc "/collation/" = 0x2f :: 0x63 :: asc "ollation/" by decide +kernel, show asc "/obs" = 0x2f :: 0x6f :: asc "bs" by decide +kernel]
      simp only [List.cons_append, List.drop_succ_cons, List.drop_zero, List.head?_cons, Option.some.injEq]
      decide
    rw [if_neg h1, if_pos (by rw [hp]; exact List.prefix_append _ _)]
    simp only
    rw [hp, List.drop_left]
  · rintro ⟨h2, h3⟩
    rcases hc with hc | hc
    · exact h2 hc
    · exact h3 hc

/-- **C44**, /collation/…: no name and nested names are not found; only GET and POST are served; a malformed query is refused; a name no
store has is not found. None of this changes a store. -/
theorem C44_collation (env : Env) (sts : List Store) (req : Request) (hs : req.star = false) (name : Bytes)
    (hp : req.path = asc "/collation/" ++ name) (hc : cleanPath req.path = true ∨ req.method = asc "CONNECT") :
    (name = [] ∨ 0x2f ∈ name → Server.serve env sts req = (sts, .refused 404)) ∧
    (name ≠ [] → (0x2f ∉ name) →
      (req.method ≠ asc "POST" → req.method ≠ asc "GET" → Server.serve env sts req = (sts, .refused 405)) ∧
      (req.method = asc "POST" ∨ req.method = asc "GET" →
        (¬ HasShape (req.form (asc "q")) → Server.serve env sts req = (sts, .refused 400)) ∧
        (HasShape (req.form (asc "q")) → (∀ st ∈ sts, st.coll.name ≠ name) → Server.serve env sts req = (sts, .refused 404)))) := by
  rw [serve_collation env sts req hs name hp hc]
  refine ⟨?_, ?_⟩
  · rintro (h | h)
    · rw [if_pos h]
    · by_cases h0 : name = []
      · rw [if_pos h0]
      · rw [if_neg h0, if_pos h]
  · intro h0 h1
    rw [if_neg h0, if_neg h1]
    refine ⟨fun h2 h3 => by rw [if_pos ⟨h2, h3⟩], fun hm => ?_⟩
    rw [if_neg (by rintro ⟨h2, h3⟩; rcases hm with h | h; exacts [h2 h, h3 h])]
    unfold queryCollation
    refine ⟨fun hsh => ?_, fun hsh hn => ?_⟩
    · have := (C47_shape env.ord (req.form (asc "q"))).2.1 (fun h => hsh ((C47_shape env.ord (req.form (asc "q"))).1.1 h))
      rw [this]
    · obtain ⟨q, hq⟩ := (C47_shape env.ord (req.form (asc "q"))).1.2 hsh
      rw [hq]
      simp only
      congr 1
      clear hq hp hc
      induction sts with
      | nil => rfl
      | cons st sts ih =>
        rw [queryStores, if_neg (hn st (by simp))]
        exact ih fun s h => hn s (by simp [h])

/-- **C44**, the answer: a well-formed query is answered by the first store with the name: the criteria are repeated, then the results follow;
an error of the store is status 500. -/
theorem C44_answer (env : Env) (a b : List Store) (st : Store) (req : Request) (hs : req.star = false) (name : Bytes)
    (hp : req.path = asc "/collation/" ++ name) (hm : req.method = asc "POST" ∨ req.method = asc "GET")
    (h0 : name ≠ []) (h1 : 0x2f ∉ name) (h2 : name ≠ asc ".") (h3 : name ≠ asc "..")
    (ha : ∀ s ∈ a, s.coll.name ≠ name) (hst : st.coll.name = name) (q : Query) (hq : Query.roughParse env.ord (req.form (asc "q")) = .ok q) :
    (∀ res, Storage.read env.lib st q = .ret (res, none) →
      Server.serve env (a ++ st :: b) req = (a ++ st :: b, .ok (render env q.criteria res))) ∧
    (∀ res e, Storage.read env.lib st q = .ret (res, some e) → Server.serve env (a ++ st :: b) req = (a ++ st :: b, .refused 500)) ∧
    (Storage.read env.lib st q = .panic → Server.serve env (a ++ st :: b) req = (a ++ st :: b, .panic)) := by
  rw [serve_collation env _ req hs name hp (.inl (by rw [hp]; exact clean_collation name h1 h2 h3)), if_neg h0, if_neg h1,
    if_neg (by rintro ⟨h2, h3⟩; rcases hm with h | h; exacts [h2 h, h3 h])]
  unfold queryCollation
  rw [hq]
  simp only
  have key : queryStores env name q (a ++ st :: b) = queryStores env name q (st :: b) := by
    clear hp
    induction a with
    | nil => rfl
    | cons s a ih =>
      rw [List.cons_append, queryStores, if_neg (ha s (by simp))]
      exact ih fun s h => ha s (by simp [h])
  rw [key, queryStores, if_pos hst]
  refine ⟨fun res hr => by rw [hr], fun res e hr => by rw [hr], fun hr => by rw [hr]⟩

/-- **C44**, other paths: what is neither /obs nor under /collation/ is not found (/collation itself and paths the mux cleans are redirected). -/
theorem C44_other (env : Env) (sts : List Store) (req : Request) :
    (req.star = true → Server.serve env sts req = (sts, .refused 400)) ∧
    (req.star = false → cleanPath req.path = false → req.method ≠ asc "CONNECT" → Server.serve env sts req = (sts, .redirect)) ∧
    (req.star = false → cleanPath req.path = true → req.path ≠ asc "/obs" → ¬ asc "/collation/" <+: req.path → req.path ≠ asc "/collation" →
      Server.serve env sts req = (sts, .refused 404)) := by
  unfold Server.serve
  refine ⟨fun h => by rw [if_pos h], fun h1 h2 h3 => by rw [if_neg (by simp [h1]), if_pos ⟨by simp [h2], h3⟩],
    fun h1 h2 h3 h4 h5 => by rw [if_neg (by simp [h1]), if_neg (by simp [h2]), if_neg h3, if_neg h4, if_neg h5]⟩

theorem recvLoop_reply (lib : Lib) (scErr : Option Err) : ∀ (lines : List Bytes) (ctx : Ctx) (sts : List Store),
    (recvLoop lib scErr ctx lines sts).2 = .ok [] ∨ (recvLoop lib scErr ctx lines sts).2 = .refused 500 ∨
    (recvLoop lib scErr ctx lines sts).2 = .panic ∨ (recvLoop lib scErr ctx lines sts).2 = .hang
  | [], ctx, sts => by
    rw [recvLoop]
    split
    · exact .inl rfl
    · exact .inr (.inl rfl)
  | line :: lines, ctx, sts => by
    rw [recvLoop]
    split
    · exact .inl rfl
    · split
      · exact .inr (.inr (.inl rfl))
      · exact .inr (.inl rfl)
      · next row _ =>
        split
        · next sts' r c hw =>
          have aux : ∀ (sts : List Store) (c : Ctx) r, (writeStores lib row c sts).2.1 = some r → r = .refused 500 ∨ r = .panic ∨ r = .hang := by
            intro sts
            induction sts with
            | nil => intro c r h; simp [writeStores] at h
            | cons st sts ih =>
              intro c r h
              rw [writeStores] at h
              simp only at h
              split at h
              · exact ih _ r h
              · simp only [Option.some.injEq] at h; exact .inl h.symm
              · simp only [Option.some.injEq] at h; exact .inr (.inl h.symm)
              · simp only [Option.some.injEq] at h; exact .inr (.inr h.symm)
          exact .inr (aux sts _ r (by rw [hw]))
        · exact recvLoop_reply lib scErr lines _ _

/-- **C44**, what may change a statistic: a request that changes anything in the stores is a POST on /obs, and its answer is none of the
refusals 400, 404, 405 and 415 (nor a redirect). -/
theorem C44_unchanged (env : Env) (sts : List Store) (req : Request) (h : (Server.serve env sts req).1 ≠ sts) :
    req.path = asc "/obs" ∧ req.method = asc "POST" ∧
    ((Server.serve env sts req).2 = .ok [] ∨ (Server.serve env sts req).2 = .refused 500 ∨ (Server.serve env sts req).2 = .panic ∨
      (Server.serve env sts req).2 = .hang) := by
  unfold Server.serve at h ⊢
  split at h
  · exact absurd rfl h
  next h1 =>
  rw [if_neg h1]
  split at h
  · exact absurd rfl h
  next h2 =>
  rw [if_neg h2]
  split at h
  · next h3 =>
    rw [if_pos h3]
    split at h
    · next h4 =>
      rw [if_pos h4]
      refine ⟨h3, h4, ?_⟩
      unfold recvObservation at h ⊢
      split at h
      · exact absurd rfl h
      · split at h
        · next h6 =>
          rw [if_pos h6]
          split at h
          · exact absurd rfl h
          · next h5 =>
            rw [if_neg h5]
            exact recvLoop_reply _ _ _ _ _
        · next h6 =>
          rw [if_neg h6]
          split at h
          · next h5 =>
            rw [if_pos h5]
            exact recvLoop_reply _ _ _ _ _
          · exact absurd rfl h
    · exact absurd rfl h
  · split at h
    · simp only at h
      split at h
      · exact absurd rfl h
      · split at h
        · exact absurd rfl h
        · split at h
          · exact absurd rfl h
          · exact absurd rfl h
    · split at h
      · exact absurd rfl h
      · exact absurd rfl h

/-- A request refused with status 500 may have changed statistics: a good line followed by a blank one is refused, but the good line has
been recorded. -/
theorem C44_batch_refuted (env : Env) (sts : List Store) (l : Bytes) (hl : LineOk l) (row : Row) (hp : parseRow (noCR l) = .val (.ok row))
    (hall : ∀ st ∈ sts, (write env.lib st false row).2 = .ret none) :
    Server.serve env sts (post (unlines [l, []])) = (sts.map fun st => (write env.lib st false row).1, .refused 500) := by
  have h0 : LineOk [] := ⟨by simp, by simp⟩
  have := C43_batch env sts [l, []] [] (by
    intro x hx
    simp only [List.mem_cons, List.not_mem_nil, or_false] at hx
    rcases hx with rfl | rfl
    · exact hl
    · exact h0) h0
  rw [List.append_nil] at this
  rw [this]
  unfold linePosts
  rw [if_pos rfl, List.append_nil, List.map_cons, List.map_cons, List.map_nil, inOrder, C43_line env sts l hl row hp hall]
  rw [if_pos rfl, inOrder, C43_bad_line env _ [] h0 .missingTimestamp (by decide +kernel), if_neg (by simp)]

/-- the paths: the collation `city` is served, `a/b` is a nested name, and `/collation/..` is redirected -/
example : cleanPath (asc "/collation/city") = true ∧ cleanPath (asc "/collation/a/b") = true ∧ (0x2f ∈ asc "a/b") ∧
    cleanPath (asc "/collation/") = true ∧ cleanPath (asc "/collation/..") = false ∧ cleanPath (asc "//obs") = false ∧
    cleanPath (asc "/") = true ∧ ¬ HasShape (asc "select count(*)") := by
  refine ⟨by decide +kernel, by decide +kernel, by decide +kernel, by decide +kernel, by decide +kernel, by decide +kernel, by decide +kernel, ?_⟩
  intro h
  obtain ⟨q, hq⟩ := (C47_shape id _).1.2 h
  have : Query.roughParse id (asc "select count(*)") = .error .syntaxErr := by decide +kernel
  rw [this] at hq
  simp at hq

end Starbow.Props
