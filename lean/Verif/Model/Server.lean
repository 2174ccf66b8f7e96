import Verif.Model.Query
/-
Model of /repo/internal/server/server.go: parsing observations, the two request handlers and their registration.

Simplifications, used throughout:
* requests are handled one at a time (concurrent requests meet only in the stores' maps, see Verif/Model/BufmapConc.lean);
* what `net/http` does before the handlers run is part of the request: the method, the decoded path, the Content-Type header, the form
  values and what reading the body yields;
* a reply is the body of a successful answer, or the status code of a refusal (its text is left out), or a redirect. The Cache-control header
  set by `ServeHTTP` is left out. A panic in a handler aborts the connection (net/http recovers it);
* `bufio.Scanner`, `mime.ParseMediaType`, `strconv.Atoi` and the formatting of numbers by `fmt` are library code: the first is modelled
  by its documented behaviour, the others are parameters or contracts;
* the listening socket and the signal handling of `Serve` are left out.
-/
namespace Starbow.Server
open Starbow Starbow.Collation Starbow.Storage

/-- Go slice expression `b[lo:hi]`, which panics if the bounds are out of range -/
def sub (b : Bytes) (lo hi : Nat) : Out Bytes := if lo ≤ hi ∧ hi ≤ b.length then .val (slice b lo hi) else .panic

/-- Go index expression `b[i]`, which panics if the index is out of range -/
def at? (b : Bytes) (i : Nat) : Out Byte :=
  match b[i]? with
  | some x => .val x
  | none => .panic

/-- `bytes.IndexByte`; `none` is -1 -/
def indexByte : Bytes → Byte → Option Nat
  | [], _ => none
  | b :: s, c => if b = c then some 0 else (indexByte s c).map (· + 1)

/-- server.go:261-273 `parseFV` -/
def parseFV (data : Bytes) : Out FV :=
  match indexByte data 0x3d with
  | none => .val ⟨data, []⟩
  | some eq => do return ⟨← sub data 0 eq, ← sub data (eq + 1) data.length⟩

/-- server.go:218-222: the loop over the leading digits from position `p`; it ends at `pmax` or at the first byte that is no digit -/
def digitsLoop (data : Bytes) (pmax p : Nat) : Out Nat :=
  if p < pmax then do
    let b ← at? data p
    if b < 0x30 ∨ b > 0x39 then return p else digitsLoop data pmax (p + 1)
  else return p
termination_by pmax - p

/-- the number a string of decimal digits stands for -/
def decimal (s : Bytes) : Nat := s.foldl (fun n b => n * 10 + (b.toNat - 0x30)) 0

/-- `strconv.Atoi` on a non-empty string of decimal digits: the number, or an error if it does not fit into an int (64 bits) -/
def atoi (s : Bytes) : Except Err Int := if (decimal s : Int) ≤ maxInt64 then .ok (decimal s) else .error .atoi

/-- server.go:247-256: the loop over the delimited fields from position `p` -/
def fieldsLoop (data : Bytes) (delim : Byte) (p : Nat) (acc : List FV) : Out (List FV) :=
  if _h : p ≤ data.length then
    match indexByte (data.drop p) delim with
    | none => do return acc ++ [← parseFV (data.drop p)]
    | some offset => do
      let f ← sub data p (p + offset)
      fieldsLoop data delim (p + offset + 1) (acc ++ [← parseFV f])
  else .panic
termination_by data.length + 1 - p
decreasing_by omega

/-- server.go:212-215: at most 20 bytes are looked at for the timestamp -/
def timestampMax (data : Bytes) : Nat := if data.length < 20 then data.length else 20

/-- server.go:210-259 `parseRow`: the row or an error, or a panic. `dataTime` is the number of nanoseconds given to `time.Unix` on line 235:
`int64(ts)*1000`, which wraps around. -/
def parseRow (data : Bytes) : Out (Except Err Row) := do
  let p ← digitsLoop data (timestampMax data) 0
  if p = 0 then return .error .missingTimestamp
  let digits ← sub data 0 p
  match atoi digits with
  | .error e => return .error e
  | .ok ts =>
    let time := wrap64 (ts * 1000)
    if p = data.length then return .ok ⟨time, []⟩
    let delim ← at? data p
    return .ok ⟨time, ← fieldsLoop data delim (p + 1) []⟩

/-- what reading the body of a request to the end yields: bytes, then either the end or an error; `eofWithData` tells whether the end was
reported by the read that returned the last bytes rather than by a read of its own -/
structure Body where
  bytes : Bytes
  err : Option Err := none
  eofWithData : Bool := false

/-- `bufio.MaxScanTokenSize`: the size of the scanner's buffer -/
def maxToken : Nat := 65536

/-- `bufio.dropCR` -/
def dropCR (line : Bytes) : Bytes := if line.getLast? = some 0x0d then line.dropLast else line

/-- the bytes before the first newline, and those after it, if there is one -/
def cutLine : Bytes → Bytes × Option Bytes
  | [] => ([], none)
  | b :: s =>
    if b = 0x0a then ([], some s)
    else ((b :: (cutLine s).1), (cutLine s).2)

theorem cutLine_shorter (s : Bytes) : ∀ r, (cutLine s).2 = some r → r.length < s.length := by
  induction s with
  | nil => simp [cutLine]
  | cons b s ih =>
    intro r h
    rw [cutLine] at h
    split at h
    · simp only [Option.some.injEq] at h
      rw [← h]; simp
    · have := ih r h
      simp only [List.length_cons]; omega

/-- `bufio.Scanner` with `ScanLines` over a reader: the lines delivered by successive calls of `Scan` and the final `Err()`. A line ends at a
newline, which is dropped together with one carriage return before it; what is left at the end (also if the end is a read error) is
delivered as a line if it is not empty. The buffer takes 65536 bytes: a line that does not fit with its newline, or does not fit at all
before the end is seen, stops the scan with `ErrTooLong`. -/
def scan (err : Option Err) (eofWithData : Bool) (s : Bytes) : List Bytes × Option Err :=
  match h : cutLine s with
  | (line, some rest) =>
    if line.length + 1 > maxToken then ([], some .tooLong)
    else (dropCR line :: (scan err eofWithData rest).1, (scan err eofWithData rest).2)
  | (line, none) =>
    if line = [] then ([], err)
    else if line.length > (if eofWithData then maxToken else maxToken - 1) then ([], some .tooLong)
    else ([dropCR line], err)
termination_by s.length
decreasing_by all_goals exact cutLine_shorter s rest (by rw [h])

/-- when a context is cancelled: after that many of the points at which it might be looked at; `none`: never -/
abbrev Ctx := Option Nat

/-- is it cancelled now -/
def Ctx.done (c : Ctx) : Bool := c == some 0

/-- time passes -/
def Ctx.next (c : Ctx) : Ctx := c.map (· - 1)

/-- the answer to a request -/
inductive Reply where
  /-- status 200 -/
  | ok (body : Bytes)
  /-- `http.Error` or `http.NotFound` with this status -/
  | refused (status : Nat)
  /-- a redirect by the ServeMux -/
  | redirect
  /-- the handler panicked -/
  | panic
  /-- the handler never returns -/
  | hang
  deriving Repr, DecidableEq

/-- server.go:186-191: write the row to the stores in order; `none` if all succeeded -/
def writeStores (lib : Lib) (row : Row) : Ctx → List Store → List Store × Option Reply × Ctx
  | ctx, [] => ([], none, ctx)
  | ctx, st :: sts =>
    let w := write lib st ctx.done row
    match w.2 with
    | .ret none =>
      let r := writeStores lib row ctx.next sts
      (w.1 :: r.1, r.2)
    | .ret (some _) => (w.1 :: sts, some (.refused 500), ctx.next)
    | .panic => (w.1 :: sts, some .panic, ctx.next)
    | .hang => (w.1 :: sts, some .hang, ctx.next)

/-- server.go:170-196: the loop over the lines; `scErr` is what `sc.Err()` returns after the last one -/
def recvLoop (lib : Lib) (scErr : Option Err) : Ctx → List Bytes → List Store → List Store × Reply
  | _, [], sts => (sts, if scErr = none then .ok [] else .refused 500)
  | ctx, line :: lines, sts =>
    if ctx.done then (sts, .ok [])
    else
      match parseRow line with
      | .panic => (sts, .panic)
      | .val (.error _) => (sts, .refused 500)
      | .val (.ok row) =>
        match writeStores lib row ctx.next sts with
        | (sts', some r, _) => (sts', r)
        | (sts', none, ctx') => recvLoop lib scErr ctx' lines sts'

/-- a request as it reaches the mux -/
structure Request where
  method : Bytes
  /-- the decoded path of the URL -/
  path : Bytes
  /-- the request URI is `*` -/
  star : Bool := false
  /-- `Header.Get("Content-Type")`: empty if missing -/
  contentType : Bytes := []
  /-- `FormValue` -/
  form : Bytes → Bytes := fun _ => []
  body : Body := ⟨[], none, false⟩
  ctx : Ctx := none

/-- library functions and choices left open by Go -/
structure Env where
  lib : Lib
  /-- `mime.ParseMediaType`: the media type or an error -/
  parseMediaType : Bytes → Except Err Bytes
  /-- `fmt.Sprintf("%v", v)` for a float64 -/
  fmtFloat : F64 → Bytes
  /-- the order in which a map of fields is iterated over (rough.go:35) -/
  ord : List FM → List FM

/-- server.go:199-207 `contentType` -/
def contentType (env : Env) (req : Request) : Except Err Bytes :=
  if req.contentType = [] then .ok (asc "application/octet-stream") else env.parseMediaType req.contentType

/-- `strings.NewReader`: ends with a read of its own -/
def stringBody (s : Bytes) : Body := ⟨s, none, false⟩

/-- server.go:168-196 -/
def recvLines (env : Env) (ctx : Ctx) (sts : List Store) (b : Body) : List Store × Reply :=
  recvLoop env.lib (scan b.err b.eofWithData b.bytes).2 ctx (scan b.err b.eofWithData b.bytes).1 sts

/-- server.go:144-197 `recvObservation` -/
def recvObservation (env : Env) (sts : List Store) (req : Request) : List Store × Reply :=
  match contentType env req with
  | .error _ => (sts, .refused 400)
  | .ok ct =>
    if ct = asc "application/x-www-form-urlencoded" then
      if req.form (asc "data") = [] then (sts, .refused 400)
      else recvLines env req.ctx sts (stringBody (req.form (asc "data")))
    else if ct = asc "text/plain" ∨ ct = asc "application/octet-stream" then recvLines env req.ctx sts req.body
    else (sts, .refused 415)

/-- schema.go:136-138 `FMV.String` -/
def fmvString (env : Env) (f : FMV) : Bytes := f.m ++ asc "(" ++ f.f ++ asc ")=" ++ env.fmtFloat f.v

/-- server.go:293-303: what is written for a result -/
def render (env : Env) (crit : List FV) (res : List FMV) : Bytes :=
  crit.flatMap (fun c => c.f ++ [0x3d] ++ c.v ++ [0x0a]) ++ res.flatMap fun f => fmvString env f ++ [0x0a]

/-- server.go:285-308: the first store with the name answers -/
def queryStores (env : Env) (cname : Bytes) (q : Query) : List Store → Reply
  | [] => .refused 404
  | st :: sts =>
    if st.coll.name = cname then
      match Storage.read env.lib st q with
      | .panic => .panic
      | .hang => .hang
      | .ret (_, some _) => .refused 500
      | .ret (res, none) => .ok (render env q.criteria res)
    else queryStores env cname q sts

/-- server.go:276-309 `queryCollation` -/
def queryCollation (env : Env) (sts : List Store) (cname : Bytes) (req : Request) : Reply :=
  match Query.roughParse env.ord (req.form (asc "q")) with
  | .error _ => .refused 400
  | .ok q => queryStores env cname q sts

/-- the elements of a path: what is between the slashes -/
def elements : Bytes → List Bytes
  | [] => [[]]
  | b :: s =>
    if b = 0x2f then [] :: elements s
    else
      match elements s with
      | [] => [[b]]
      | e :: es => (b :: e) :: es

/-- the ServeMux leaves the path alone (it redirects to the cleaned path otherwise): it begins with a slash, no element after that is empty
(but the last may be), and none is `.` or `..` -/
def cleanPath (p : Bytes) : Bool :=
  match elements p with
  | [] :: e :: es => (e :: es).dropLast.all (fun e => e ≠ []) && (e :: es).all (fun e => e ≠ asc "." && e ≠ asc "..")
  | _ => false

/-- server.go:105-141 `registerHandlers` and 311-316 `ServeHTTP`. For method CONNECT the mux does not clean the path. (A URL in which
the prefix /collation/ itself is percent-encoded is treated like the plain one here; newer Go versions answer 404.) -/
def serve (env : Env) (sts : List Store) (req : Request) : List Store × Reply :=
  if req.star then (sts, .refused 400)
  else if ¬ cleanPath req.path ∧ req.method ≠ asc "CONNECT" then (sts, .redirect)
  else if req.path = asc "/obs" then
    if req.method = asc "POST" then recvObservation env sts req else (sts, .refused 405)
  else if asc "/collation/" <+: req.path then
    let name := req.path.drop (asc "/collation/").length
    if name = [] then (sts, .refused 404)
    else if 0x2f ∈ name then (sts, .refused 404)
    else if req.method ≠ asc "POST" ∧ req.method ≠ asc "GET" then (sts, .refused 405)
    else (sts, queryCollation env sts name req)
  else if req.path = asc "/collation" then (sts, .redirect)
  else (sts, .refused 404)

/-- requests one after the other -/
def serveAll (env : Env) (sts : List Store) : List Request → List Store × List Reply
  | [] => (sts, [])
  | r :: rs =>
    let x := serve env sts r
    let y := serveAll env x.1 rs
    (y.1, x.2 :: y.2)

end Starbow.Server
