import Verif.Model.ServerConc
import Verif.Spec.Fair
/-
For property C80: the runs of the server in which it is sent no more requests and its goroutines take turns.
-/
namespace Starbow.ServerConc
open Starbow Starbow.Collation Starbow.Server Starbow.Cell Starbow.Probe Starbow.Spec

/-- The transitions of `Step` other than the receipt of a request, with the goroutine `t` that makes them (`C80_moves`: a transition is
either the receipt of a request or one of these). -/
inductive Move (env : Env) (confs : List Conf) (t : Nat) : State → State → Prop where
  | finish (σ : State) (j p : Nat) (e : Option Err) (h : σ.pc t = .lines j p [] e) :
      Move env confs t σ (σ.reply t j (if e = none then .ok [] else .refused 500))
  | cancelLine (σ : State) (j p : Nat) (line : Bytes) (ls : List Bytes) (e : Option Err) (h : σ.pc t = .lines j p (line :: ls) e)
      (hc : σ.MayCancel j) : Move env confs t σ (σ.reply t j (.ok []))
  | parse (σ : State) (j p : Nat) (line : Bytes) (ls : List Bytes) (e : Option Err) (h : σ.pc t = .lines j p (line :: ls) e) :
      Move env confs t σ (σ.parse t j p line ls e)
  | stored (σ : State) (j p : Nat) (ls : List Bytes) (e : Option Err) (r : Row) (h : σ.pc t = .row j p ls e r confs.length) :
      Move env confs t σ (σ.goto t (.lines j (p + 1) ls e))
  | skip (σ : State) (j p : Nat) (ls : List Bytes) (e : Option Err) (r : Row) (s : Nat) (c : Conf) (h : σ.pc t = .row j p ls e r s)
      (hs : confs[s]? = some c) (hk : keyValue r.data c.coll.keys = none) : Move env confs t σ (σ.goto t (.row j p ls e r (s + 1)))
  | cancelWrite (σ : State) (j p : Nat) (ls : List Bytes) (e : Option Err) (r : Row) (s : Nat) (c : Conf) (k : U64)
      (h : σ.pc t = .row j p ls e r s) (hs : confs[s]? = some c) (hk : keyValue r.data c.coll.keys = some k) (hc : σ.MayCancel j) :
      Move env confs t σ (σ.reply t j (.refused 500))
  | write (σ : State) (j p : Nat) (ls : List Bytes) (e : Option Err) (r : Row) (s : Nat) (c : Conf) (k : U64) (fn : CFn)
      (h : σ.pc t = .row j p ls e r s) (hs : confs[s]? = some c) (hi : (σ.stores s).m.pc t = .idle)
      (hk : keyValue r.data c.coll.keys = some k) (hf : StoreConc.Performs env.lib c.coll r fn) :
      Move env confs t σ (σ.enter t s ⟨BufmapConc.call (σ.stores s).m t (.upd k fn), (σ.stores s).calls ++ [.write r]⟩ (j, p)
        (.writing j p ls e r s (σ.stores s).calls.length))
  | wrote (σ : State) (j p : Nat) (ls : List Bytes) (e : Option Err) (r : Row) (s i : Nat) (ret : BufmapConc.Ret) (err : Option Err)
      (h : σ.pc t = .writing j p ls e r s i) (hr : (i, ret) ∈ (σ.stores s).m.rets) (he : StoreConc.writeReply ret = some err) :
      Move env confs t σ (if err = none then σ.goto t (.row j p ls e r (s + 1)) else σ.reply t j (.refused 500))
  | noKey (σ : State) (j : Nat) (q : Query) (s : Nat) (c : Conf) (h : σ.pc t = .ask j q s) (hs : confs[s]? = some c)
      (hk : keyValue q.criteria c.coll.keys = none) : Move env confs t σ (σ.reply t j (queryReply env q (.val ([], none))))
  | noBuffer (σ : State) (j : Nat) (q : Query) (s : Nat) (c : Conf) (k : U64) (h : σ.pc t = .ask j q s) (hs : confs[s]? = some c)
      (hk : keyValue q.criteria c.coll.keys = some k) (hn : c.coll.size < 0) : Move env confs t σ (σ.reply t j .panic)
  | read (σ : State) (j : Nat) (q : Query) (s : Nat) (c : Conf) (k : U64) (h : σ.pc t = .ask j q s) (hs : confs[s]? = some c)
      (hi : (σ.stores s).m.pc t = .idle) (hk : keyValue q.criteria c.coll.keys = some k) (hn : 0 ≤ c.coll.size) :
      Move env confs t σ (σ.enter t s
        ⟨BufmapConc.call (σ.stores s).m t (.get k (List.replicate c.coll.size.toNat 0)), (σ.stores s).calls ++ [.read q]⟩ (j, 0)
        (.reading j q s (σ.stores s).calls.length))
  | answer (σ : State) (j : Nat) (q : Query) (s i : Nat) (c : Conf) (ret : BufmapConc.Ret) (out : Out (List FMV × Option Err))
      (h : σ.pc t = .reading j q s i) (hs : confs[s]? = some c) (hr : (i, ret) ∈ (σ.stores s).m.rets)
      (ho : StoreConc.readReply env.lib c.coll q ret = some out) : Move env confs t σ (σ.reply t j (queryReply env q out))
  | inside (σ : State) (s : Nat) (c : Conf) (m' : BufmapConc.State) (hs : confs[s]? = some c)
      (h : BufmapConc.step c.slots c.coll.size.toNat (σ.stores s).m t = some m') :
      Move env confs t σ { σ with stores := upd σ.stores s ⟨m', (σ.stores s).calls⟩ }

/-- The states `ρ 0`, `ρ 1`, ... of the server when no more requests come in and the goroutines take turns as `sched` says: whoever's turn
it is makes one of the steps it can make, and if there is none (it has no request, or waits for a mutex), nothing happens. Every
goroutine has its turn again and again. -/
structure Run (env : Env) (confs : List Conf) (sched : Nat → Nat) (ρ : Nat → State) : Prop where
  fair : Fair sched
  turn : ∀ n, Move env confs (sched n) (ρ n) (ρ (n + 1)) ∨ (ρ (n + 1) = ρ n ∧ ∀ σ', ¬ Move env confs (sched n) (ρ n) σ')

end Starbow.ServerConc
