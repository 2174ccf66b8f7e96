import Verif.Props.BufmapLive
import Verif.Props.StoreConc
import Verif.Proof.RecordSafe
import Verif.Props.StoreRace
/-
Property C74 for a store: every Write and every Read returns.
-/
namespace Starbow.StoreConc
open Starbow Starbow.Collation Starbow.BufmapConc Starbow.Cell Starbow.Spec Starbow.Probe

/-- a run of the map with calls of a store is a run of the store -/
theorem restore {lib : Lib} {c : Collator} {l : Nat} {invs : List Op} {calls : List Call} (hlen : calls.length = invs.length)
    (hok : ∀ i op, invs[i]? = some op → CallOk lib c calls i op) {τ : BufmapConc.State}
    (h : BufmapConc.Steps l c.size.toNat BufmapConc.init τ) (hp : τ.invs <+: invs) :
    Steps lib c l init ⟨τ, calls.take τ.invs.length⟩ := by
  generalize hi : BufmapConc.init = σ₀ at h
  induction h with
  | refl => subst hi; exact .refl _
  | @tail σ' σ'' h0 h1 ih =>
    have hpre := invs_grow h1
    have hs := ih (hpre.trans hp)
    cases h1 with
    | call t op h =>
      refine .tail hs ?_
      rw [call_invs] at hp
      have hlt : σ'.invs.length < invs.length := by have := hp.length_le; simp at this; omega
      have hop : invs[σ'.invs.length]? = some op := by
        obtain ⟨more, hm⟩ := hp
        rw [← hm]; simp
      have hc := hok _ _ hop
      have htake : ∀ x, calls[σ'.invs.length]? = some x → calls.take (σ'.invs.length + 1) = calls.take σ'.invs.length ++ [x] := by
        intro x hx
        rw [List.take_add_one, hx]; rfl
      rw [call_invs, List.length_append, List.length_singleton]
      cases op with
      | upd k fn =>
        obtain ⟨r, h1, h2, h3⟩ := hc
        rw [htake _ h1]
        exact .write ⟨σ', calls.take σ'.invs.length⟩ t r k fn h h2 h3
      | get k buf =>
        obtain ⟨q, h1, h2, rfl⟩ := hc
        rw [htake _ h1]
        exact .read ⟨σ', calls.take σ'.invs.length⟩ t q k h h2
    | step _ t h =>
      rw [(step_cases h).1]
      exact .tail hs (.step ⟨σ', _⟩ t _ h)

/-- whatever was served in whatever order, the record is in order -/
theorem served_hold {lib : Lib} {sch : Schema} {L : List (Owner × Collation.Cell)} {D : List (Bytes × Measure)} {pos : Int}
    (h : Laid ⟨compile sch, pos⟩ L D) (ws : List Served) : Hold ⟨compile sch, pos⟩ L [] (servedRecord lib (compile sch) ws) := by
  induction ws using List.reverseRecOn with
  | nil => exact hold_blank h
  | append_singleton ws s ih => rw [servedRecord_snoc]; exact Storage.update_length lib h ih _ _

/-- no Write of a store ever panics -/
theorem store_calm {lib : Lib} {sch : Schema} (hv : ValidSchema sch) {l : Nat} (hl : 0 < l) {σ : State}
    (hr : Steps lib (compile sch) l init σ) : AllCalm l (compile sch).size.toNat σ.m.invs := by
  intro τ hτ hp t k x e hpc
  have hc := callsOk_steps (callsOk_init lib (compile sch)) hr
  have hs := restore hc.len hc.ok hτ hp
  have hI := inv_reach hl hτ
  have ht := hI.thr t
  rw [hpc] at ht
  have hw := hI.cells.wok t x e .add1 (by unfold BufmapConc.wOf; rw [hpc]; rfl)
  have hlog := log_served hl hs (x := x) rfl
  have hb : bytesOf (compile sch).size.toNat τ.cells x = _ := hw.2.2
  obtain ⟨L, D, pos, h, hD⟩ := laid_compile sch hv
  have hrun := runAll_served (writesOf τ.cells.log x) (fun e he => (hlog e he).2)
  have hcs := callsOk_steps (callsOk_init lib (compile sch)) hs
  obtain ⟨r, _, _, hperf⟩ := hcs.ok _ _ ht.1
  obtain ⟨p1, _, p3⟩ := hperf (bytesOf (compile sch).size.toNat τ.cells x) e.init (bytesOf_length ..)
  refine ⟨fun w hwm => by have := p1 w hwm; rwa [bytesOf_length] at this, ?_⟩
  rw [p3, hb, hrun]
  obtain ⟨b', er, hu, _, _⟩ := hold_row lib h (served_hold (lib := lib) h _) e.init r
  rw [hu]
  simp [ending]

end Starbow.StoreConc

namespace Starbow.Props
open Starbow Starbow.Collation Starbow.BufmapConc Starbow.Cell Starbow.Spec Starbow.Probe Starbow.StoreConc

/-- **C74** (store), partial. Let any Writes and Reads of a store be in progress or done, in any interleaving so far, whatever the
observations, and let no more calls be made. Then under every fair schedule all Writes return, from some moment on, and so do all Reads of
keys whose slot can be sliced. Missing: Reads of keys in the last slots, which panic (C30_panics, C30_silent). -/
theorem C74_store_partial (lib : Lib) (sch : Schema) (hv : ValidSchema sch) (l : Nat) (hl : 0 < l) (σ : StoreConc.State)
    (hr : StoreConc.Steps lib (compile sch) l StoreConc.init σ) (sched : Nat → Nat) (hf : Fair sched) :
    ∃ N, ∀ n, N ≤ n → ∀ id call, σ.calls[id]? = some call →
      (∀ q k, call = .read q → keyValue q.criteria sch.keys = some k →
        Readable l (compile sch).size.toNat (runFrom (BufmapConc.step l (compile sch).size.toNat) sched σ.m n).keys k) →
      ∃ r, (id, r) ∈ (runFrom (BufmapConc.step l (compile sch).size.toNat) sched σ.m n).rets := by
  obtain ⟨N, hN⟩ := returns_of_calm l _ hl σ.m (steps_m hr) (store_calm hv hl hr) sched hf
  have hc := callsOk_steps (callsOk_init lib (compile sch)) hr
  refine ⟨N, fun n hn id call hcall hcase => ?_⟩
  have hlt : id < σ.m.invs.length := by
    rw [← hc.len]
    exact (List.getElem?_eq_some_iff.1 hcall).1
  have hop : σ.m.invs[id]? = some σ.m.invs[id] := List.getElem?_eq_getElem hlt
  refine hN n hn id _ hop ?_
  intro k buf ho
  have := hc.ok _ _ hop
  rw [ho] at this
  obtain ⟨q, h1, h2, _⟩ := this
  rw [hcall] at h1
  rw [Storage.compile_keys] at h2
  exact hcase q k (Option.some.inj h1) h2

theorem three_calls (lib : Lib) (c : Collator) (l : Nat) (r : Row) (k : U64) (h0 : k ≠ 0) (hk : keyValue r.data c.keys = some k) (q : Query)
    (hq : keyValue q.criteria c.keys = some k) :
    ∃ σ, StoreConc.Steps lib c l StoreConc.init σ ∧ σ.calls = [.write r, .write r, .read q] ∧ σ.m.rets = [] := by
  have hp := performs_rewrite lib c r
  refine ⟨_, .tail (.tail (.tail (.refl _) (.write _ 0 r k _ rfl hk hp)) (.write _ 1 r k _ ?_ hk hp)) (.read _ 2 q k ?_ hq), rfl, ?_⟩
  · simp only [BufmapConc.call, if_neg h0]; rfl
  · simp only [BufmapConc.call, if_neg h0]; rfl
  · simp only [BufmapConc.call, if_neg h0]; rfl

/-- the hypotheses are met: two Writes of one key and a Read of it are in progress, in a store of 900 slots for the demo's records -/
example (lib : Lib) : ∃ σ, StoreConc.Steps lib (compile Demo.country) 900 StoreConc.init σ ∧ ValidSchema Demo.country ∧
    σ.calls = [.write ⟨0, [⟨asc "country", asc "FR"⟩]⟩, .write ⟨0, [⟨asc "country", asc "FR"⟩]⟩, .read (countQuery [⟨asc "country", asc "FR"⟩])] ∧
    σ.m.rets = [] ∧ 900 ≤ (compile Demo.country).size.toNat + 1 ∧ ∃ sched, Fair sched := by
  have hk : keyValue [⟨asc "country", asc "FR"⟩] (compile Demo.country).keys = some 12582602682680778473 := by decide +kernel
  obtain ⟨σ, h1, h2, h3⟩ := three_calls lib (compile Demo.country) 900 ⟨0, [⟨asc "country", asc "FR"⟩]⟩ _ (by decide) hk
    (countQuery [⟨asc "country", asc "FR"⟩]) hk
  exact ⟨σ, h1, country_valid, h2, h3, by decide +kernel, _, fair_unpair⟩

end Starbow.Props
