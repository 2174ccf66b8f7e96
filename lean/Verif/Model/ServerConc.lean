import Verif.Model.Server
import Verif.Model.StoreConc
/-
Concurrent model of /repo/internal/server/server.go: net/http runs every request in a goroutine of its own, so any number of requests are
handled at the same time. The goroutines share nothing but the stores (server.go:39 `Stores`, which is not changed while serving), so a
transition is either the start of a request, a step of a handler on data of its own, or a step inside a store (Verif/Model/StoreConc.lean).

Simplifications, beyond those of Verif/Model/Server.lean:
* what the scanner delivers is fixed by the request (server.go:169); a slow body is a handler that waits before a line;
* a context that may be cancelled (`ctx ≠ none`) may be found cancelled at any of the points at which it is looked at;
* a goroutine that panics inside a map makes no further step and its request is never answered (net/http drops the connection).
-/
namespace Starbow.ServerConc
open Starbow Starbow.Collation Starbow.Server Starbow.Cell Starbow.Probe

/-- a store of the server: its collator and the number of slots of its map (demo.go:50-63) -/
structure Conf where
  coll : Collator
  slots : Nat

/-- what a request makes the server do -/
inductive Task where
  /-- answer at once -/
  | answer (r : Reply)
  /-- server.go:170-196: go through the lines; the second is what `sc.Err()` returns at the end -/
  | observe (lines : List Bytes) (scErr : Option Err)
  /-- server.go:286: read from that store -/
  | query (s : Nat) (q : Query)

/-- server.go:168-169 -/
def observeBody (b : Body) : Task := .observe (scan b.err b.eofWithData b.bytes).1 (scan b.err b.eofWithData b.bytes).2

/-- server.go:144-169, up to the loop -/
def observation (env : Env) (req : Request) : Task :=
  match contentType env req with
  | .error _ => .answer (.refused 400)
  | .ok ct =>
    if ct = asc "application/x-www-form-urlencoded" then
      if req.form (asc "data") = [] then .answer (.refused 400) else observeBody (stringBody (req.form (asc "data")))
    else if ct = asc "text/plain" ∨ ct = asc "application/octet-stream" then observeBody req.body
    else .answer (.refused 415)

/-- server.go:276-286 and 308: parse the query and look for the store -/
def lookup (env : Env) (confs : List Conf) (cname : Bytes) (req : Request) : Task :=
  match Query.roughParse env.ord (req.form (asc "q")) with
  | .error _ => .answer (.refused 400)
  | .ok q =>
    match confs.findIdx? fun c => c.coll.name = cname with
    | none => .answer (.refused 404)
    | some s => .query s q

/-- server.go:105-141 and 311-316, as `Server.serve` -/
def task (env : Env) (confs : List Conf) (req : Request) : Task :=
  if req.star then .answer (.refused 400)
  else if ¬ cleanPath req.path ∧ req.method ≠ asc "CONNECT" then .answer .redirect
  else if req.path = asc "/obs" then
    if req.method = asc "POST" then observation env req else .answer (.refused 405)
  else if asc "/collation/" <+: req.path then
    let name := req.path.drop (asc "/collation/").length
    if name = [] then .answer (.refused 404)
    else if 0x2f ∈ name then .answer (.refused 404)
    else if req.method ≠ asc "POST" ∧ req.method ≠ asc "GET" then .answer (.refused 405)
    else lookup env confs name req
  else if req.path = asc "/collation" then .answer .redirect
  else .answer (.refused 404)

/-- where a goroutine is; `j` is the number of its request -/
inductive PC where
  | idle
  /-- server.go:170: before line number `p`, with the lines `ls` still to come and `e` what `sc.Err()` will return -/
  | lines (j p : Nat) (ls : List Bytes) (e : Option Err)
  /-- server.go:186: the row `r` of line `p` is to be written to store `s` next -/
  | row (j p : Nat) (ls : List Bytes) (e : Option Err) (r : Row) (s : Nat)
  /-- server.go:187: inside that Write, call number `i` of the store -/
  | writing (j p : Nat) (ls : List Bytes) (e : Option Err) (r : Row) (s i : Nat)
  /-- server.go:287: before the Read -/
  | ask (j : Nat) (q : Query) (s : Nat)
  /-- inside it, call number `i` of the store -/
  | reading (j : Nat) (q : Query) (s i : Nat)

/-- The stores and the goroutines; and as history the requests received (a request's number is its index), the replies sent, and for each
store which request, and which line of it, made which call. -/
structure State where
  stores : Nat → StoreConc.State
  pc : Nat → PC
  reqs : List Request
  replies : List (Nat × Reply)
  origin : Nat → List (Nat × Nat)

/-- a server with fresh stores, no request yet -/
def init : State := ⟨fun _ => StoreConc.init, fun _ => .idle, [], [], fun _ => []⟩

/-- goroutine `t` goes on at `p` -/
def State.goto (σ : State) (t : Nat) (p : PC) : State := { σ with pc := upd σ.pc t p }

/-- goroutine `t` answers request `j` and ends -/
def State.reply (σ : State) (t j : Nat) (r : Reply) : State := { σ with pc := upd σ.pc t .idle, replies := σ.replies ++ [(j, r)] }

/-- goroutine `t` starts with the request: server.go:105-169, 276-286 -/
def State.receive (σ : State) (env : Env) (confs : List Conf) (t : Nat) (req : Request) : State :=
  let j := σ.reqs.length
  let σ := { σ with reqs := σ.reqs ++ [req] }
  match task env confs req with
  | .answer r => σ.reply t j r
  | .observe ls e => σ.goto t (.lines j 0 ls e)
  | .query s q => σ.goto t (.ask j q s)

/-- server.go:180-184: the next line is parsed -/
def State.parse (σ : State) (t j p : Nat) (line : Bytes) (ls : List Bytes) (e : Option Err) : State :=
  match parseRow line with
  | .panic => σ.reply t j .panic
  | .val (.error _) => σ.reply t j (.refused 500)
  | .val (.ok r) => σ.goto t (.row j p ls e r 0)

/-- goroutine `t` calls store `s`, which goes on as `st` -/
def State.enter (σ : State) (t s : Nat) (st : StoreConc.State) (from_ : Nat × Nat) (p : PC) : State :=
  { σ with stores := upd σ.stores s st, origin := upd σ.origin s (σ.origin s ++ [from_]), pc := upd σ.pc t p }

/-- server.go:287-306: the answer made of what Read returned -/
def queryReply (env : Env) (q : Query) : Out (List FMV × Option Err) → Reply
  | .panic => .panic
  | .val (_, some _) => .refused 500
  | .val (res, none) => .ok (render env q.criteria res)

/-- the context of request `j` can be cancelled -/
def State.MayCancel (σ : State) (j : Nat) : Prop := ∃ req, σ.reqs[j]? = some req ∧ req.ctx ≠ none

/-- One transition of the server. -/
inductive Step (env : Env) (confs : List Conf) : State → State → Prop where
  /-- a goroutine starts with a request -/
  | receive (σ : State) (t : Nat) (req : Request) (h : σ.pc t = .idle) : Step env confs σ (σ.receive env confs t req)
  /-- server.go:193-196: no line is left -/
  | finish (σ : State) (t j p : Nat) (e : Option Err) (h : σ.pc t = .lines j p [] e) :
      Step env confs σ (σ.reply t j (if e = none then .ok [] else .refused 500))
  /-- server.go:173-176: the context is cancelled: the handler returns, which sends status 200 -/
  | cancelLine (σ : State) (t j p : Nat) (line : Bytes) (ls : List Bytes) (e : Option Err) (h : σ.pc t = .lines j p (line :: ls) e)
      (hc : σ.MayCancel j) : Step env confs σ (σ.reply t j (.ok []))
  /-- server.go:177-185: it is not -/
  | parse (σ : State) (t j p : Nat) (line : Bytes) (ls : List Bytes) (e : Option Err) (h : σ.pc t = .lines j p (line :: ls) e) :
      Step env confs σ (σ.parse t j p line ls e)
  /-- server.go:186: all stores have the row -/
  | stored (σ : State) (t j p : Nat) (ls : List Bytes) (e : Option Err) (r : Row) (h : σ.pc t = .row j p ls e r confs.length) :
      Step env confs σ (σ.goto t (.lines j (p + 1) ls e))
  /-- storage.go:27-31: a key field is missing: Write returns nil -/
  | skip (σ : State) (t j p : Nat) (ls : List Bytes) (e : Option Err) (r : Row) (s : Nat) (c : Conf) (h : σ.pc t = .row j p ls e r s)
      (hs : confs[s]? = some c) (hk : keyValue r.data c.coll.keys = none) : Step env confs σ (σ.goto t (.row j p ls e r (s + 1)))
  /-- storage.go:33-37: the context is cancelled: Write returns its error -/
  | cancelWrite (σ : State) (t j p : Nat) (ls : List Bytes) (e : Option Err) (r : Row) (s : Nat) (c : Conf) (k : U64)
      (h : σ.pc t = .row j p ls e r s) (hs : confs[s]? = some c) (hk : keyValue r.data c.coll.keys = some k) (hc : σ.MayCancel j) :
      Step env confs σ (σ.reply t j (.refused 500))
  /-- storage.go:39-44: Write calls the map -/
  | write (σ : State) (t j p : Nat) (ls : List Bytes) (e : Option Err) (r : Row) (s : Nat) (c : Conf) (k : U64) (fn : CFn)
      (h : σ.pc t = .row j p ls e r s) (hs : confs[s]? = some c) (hi : (σ.stores s).m.pc t = .idle)
      (hk : keyValue r.data c.coll.keys = some k) (hf : StoreConc.Performs env.lib c.coll r fn) :
      Step env confs σ (σ.enter t s ⟨BufmapConc.call (σ.stores s).m t (.upd k fn), (σ.stores s).calls ++ [.write r]⟩ (j, p)
        (.writing j p ls e r s (σ.stores s).calls.length))
  /-- server.go:187-190: Write has returned -/
  | wrote (σ : State) (t j p : Nat) (ls : List Bytes) (e : Option Err) (r : Row) (s i : Nat) (ret : BufmapConc.Ret) (err : Option Err)
      (h : σ.pc t = .writing j p ls e r s i) (hr : (i, ret) ∈ (σ.stores s).m.rets) (he : StoreConc.writeReply ret = some err) :
      Step env confs σ (if err = none then σ.goto t (.row j p ls e r (s + 1)) else σ.reply t j (.refused 500))
  /-- storage.go:48-51: a key field is missing in the query: Read returns an empty result -/
  | noKey (σ : State) (t j : Nat) (q : Query) (s : Nat) (c : Conf) (h : σ.pc t = .ask j q s) (hs : confs[s]? = some c)
      (hk : keyValue q.criteria c.coll.keys = none) : Step env confs σ (σ.reply t j (queryReply env q (.val ([], none))))
  /-- storage.go:53: `make` panics -/
  | noBuffer (σ : State) (t j : Nat) (q : Query) (s : Nat) (c : Conf) (k : U64) (h : σ.pc t = .ask j q s) (hs : confs[s]? = some c)
      (hk : keyValue q.criteria c.coll.keys = some k) (hn : c.coll.size < 0) : Step env confs σ (σ.reply t j .panic)
  /-- storage.go:53-54: Read calls the map -/
  | read (σ : State) (t j : Nat) (q : Query) (s : Nat) (c : Conf) (k : U64) (h : σ.pc t = .ask j q s) (hs : confs[s]? = some c)
      (hi : (σ.stores s).m.pc t = .idle) (hk : keyValue q.criteria c.coll.keys = some k) (hn : 0 ≤ c.coll.size) :
      Step env confs σ (σ.enter t s
        ⟨BufmapConc.call (σ.stores s).m t (.get k (List.replicate c.coll.size.toNat 0)), (σ.stores s).calls ++ [.read q]⟩ (j, 0)
        (.reading j q s (σ.stores s).calls.length))
  /-- storage.go:55-63, server.go:287-306: the map has returned -/
  | answer (σ : State) (t j : Nat) (q : Query) (s i : Nat) (c : Conf) (ret : BufmapConc.Ret) (out : Out (List FMV × Option Err))
      (h : σ.pc t = .reading j q s i) (hs : confs[s]? = some c) (hr : (i, ret) ∈ (σ.stores s).m.rets)
      (ho : StoreConc.readReply env.lib c.coll q ret = some out) : Step env confs σ (σ.reply t j (queryReply env q out))
  /-- a goroutine inside a map makes its next step there -/
  | inside (σ : State) (t s : Nat) (c : Conf) (m' : BufmapConc.State) (hs : confs[s]? = some c)
      (h : BufmapConc.step c.slots c.coll.size.toNat (σ.stores s).m t = some m') :
      Step env confs σ { σ with stores := upd σ.stores s ⟨m', (σ.stores s).calls⟩ }

/-- any number of transitions -/
inductive Steps (env : Env) (confs : List Conf) : State → State → Prop where
  | refl (σ : State) : Steps env confs σ σ
  | tail {σ σ' σ'' : State} : Steps env confs σ σ' → Step env confs σ' σ'' → Steps env confs σ σ''

end Starbow.ServerConc
