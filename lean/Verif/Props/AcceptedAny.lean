import Verif.Proof.AcceptedAny
import Verif.Props.Accepted
/-
Property theorems C86 in general: which observations are accepted, also when keys share home slots.
-/
namespace Starbow.Props
open Starbow.Collation Starbow.Spec Starbow.Storage Starbow.Server

/-! ### specification -/

/-- `fs`, one of the observations `obs`, fits the collation with its table of `l` slots: its key value does not have the hash 0 and finds a slot (see
Spec/Seats); its values are numbers where a number is wanted; and if the slot is the home slot, the fields whose distinct values are counted are in the first
of the observations with this key hash -/
structure Fits (lib : Lib) (sch : Schema) (l : Nat) (obs : List (List FV)) (fs : List FV) : Prop where
  key : keyValue fs sch.keys ≠ some 0
  room : ∀ k, keyValue fs sch.keys = some k → slotAfter sch.keys l (obs.map obsOf) k ≠ none
  number : ∀ fv ∈ fs, ∀ m, Declares sch fv.f m → (m ≠ .count ∧ ∀ p, m ≠ .cardinality p) → lib.parseFloat fv.v ≠ none
  first : ∀ k, keyValue fs sch.keys = some k → slotAfter sch.keys l (obs.map obsOf) k = some (k.toNat % l) →
    ∀ fv ∈ fs, ∀ p, Declares sch fv.f (.cardinality p) → ∀ g rest, (obs.filter fun x => keyValue x sch.keys = some k) = g :: rest → ∃ x ∈ g, x.f = fv.f

/-! ### proofs -/

theorem rowsWith_obs (keys : List Bytes) (obs : List (List FV)) (k : U64) :
    rowsWith keys k (obs.map obsOf) = (obs.filter fun x => keyValue x keys = some k).map fun x => ⟨0, x⟩ := by
  unfold rowsWith
  rw [List.map_map, List.filter_map]
  rfl

/-- **C86**, one store: a fresh store accepts a history of observations if and only if each of those that have the key fields fits the collation. -/
theorem C86_store (lib : Lib) (sch : Schema) (hv : ValidSchema sch) (l : Nat) (hl : 0 < l) (obs : List (List FV)) :
    (∀ p ∈ (writes lib (newStore sch l) (obs.map obsOf)).2, p.2 = .ret none) ↔ ∀ fs ∈ obs, WithKeys sch.keys fs → Fits lib sch l obs fs := by
  obtain ⟨L, D, pos, h, hD⟩ := laid_compile sch hv
  rw [accepted_law lib h hD hl]
  constructor
  · rintro ⟨c1, c2⟩ fs hfs hk
    obtain ⟨k, hk⟩ := withKeys_iff.1 hk
    obtain ⟨_, h0, hslot⟩ := c1 (obsOf fs) (List.mem_map_of_mem hfs) k hk
    have hmem : fs ∈ obs.filter fun x => keyValue x sch.keys = some k := List.mem_filter.2 ⟨hfs, decide_eq_true hk⟩
    obtain ⟨g, rest, hg⟩ := List.exists_cons_of_ne_nil (List.ne_nil_of_mem hmem)
    obtain ⟨x, hx⟩ := Option.ne_none_iff_exists'.1 hslot
    have c2 := c2 k x h0 hx
    rw [rowsWith_obs, hg] at c2
    rw [hg] at hmem
    refine ⟨?_, ?_, ?_, ?_⟩
    · rw [hk]; simpa using h0
    · intro k' hk'
      rw [hk] at hk'
      rw [← Option.some.inj hk']
      exact hslot
    · intro fv hfv m hd hm
      by_cases hxh : x = k.toNat % l
      · obtain ⟨buf, hr⟩ := c2.1 hxh
        exact ((C25_accepted_iff lib sch hv _ _).1 ⟨buf, hr⟩).1 fv.f m hd hm fv.v
          (mem_valuesOf (rows := (g :: rest).map fun x => (⟨0, x⟩ : Row)) (r := ⟨0, fs⟩) (List.mem_map.2 ⟨fs, hmem, rfl⟩) hfv rfl)
      · exact c2.2 hxh ⟨0, fs⟩ (List.mem_map.2 ⟨fs, hmem, rfl⟩) fv hfv m hd hm
    · intro k' hk' hsl fv hfv p hd g' rest' hg'
      rw [hk] at hk'
      have := Option.some.inj hk'
      subst this
      rw [hx] at hsl
      obtain ⟨buf, hr⟩ := c2.1 (Option.some.inj hsl)
      have n2 := ((C25_accepted_iff lib sch hv _ _).1 ⟨buf, hr⟩).2
      rw [hg] at hg'
      obtain ⟨rfl, rfl⟩ := List.cons.inj hg'
      by_contra hne
      have e1 := n2 fv.f p hd (values_nil.2 (by
        intro r hr' x hx e
        rw [List.mem_singleton] at hr'
        subst hr'
        exact hne ⟨x, hx, e⟩))
      rcases List.mem_cons.1 hmem with rfl | hmem
      · exact hne ⟨fv, hfv, rfl⟩
      · exact values_nil.1 e1 ⟨0, fs⟩ (List.mem_map.2 ⟨fs, hmem, rfl⟩) fv hfv rfl
  · intro hs
    refine ⟨?_, ?_⟩
    · intro o ho k hk
      obtain ⟨fs, hfs, rfl⟩ := List.mem_map.1 ho
      have hfit := hs fs hfs (withKeys_iff.2 ⟨_, hk⟩)
      refine ⟨rfl, ?_, hfit.room k hk⟩
      rintro rfl
      exact hfit.key hk
    · intro k x h0 hx
      have hin : ∀ y ∈ obs.filter (fun y => keyValue y sch.keys = some k), Fits lib sch l obs y ∧ keyValue y sch.keys = some k := by
        intro y hy
        rw [List.mem_filter] at hy
        have hk : keyValue y sch.keys = some k := by simpa using hy.2
        exact ⟨hs y hy.1 (withKeys_iff.2 ⟨k, hk⟩), hk⟩
      rw [rowsWith_obs]
      refine ⟨?_, ?_⟩
      · intro hxh
        subst hxh
        cases hg : obs.filter fun y => keyValue y sch.keys = some k with
        | nil => exact ⟨blank (compile sch), rfl⟩
        | cons g rest =>
          have hg' := hg
          rw [hg] at hin
          rw [List.map_cons]
          refine (C25_accepted_iff lib sch hv _ _).2 ⟨?_, ?_⟩
          · intro f m hd hm v hvm
            unfold valuesOf at hvm
            obtain ⟨fv, hfv, hf⟩ := List.mem_filterMap.1 hvm
            obtain ⟨r, hr, hfv⟩ := List.mem_flatMap.1 hfv
            split at hf
            · next e =>
              subst e
              rw [← Option.some.inj hf]
              rw [← List.map_cons (f := fun x => (⟨0, x⟩ : Row))] at hr
              obtain ⟨y, hy, rfl⟩ := List.mem_map.1 hr
              exact (hin y hy).1.number fv hfv m hd hm
            · simp at hf
          · intro f p hd hnil
            rw [values_nil] at hnil ⊢
            intro r hr fv hfv e
            obtain ⟨y, hy, rfl⟩ := List.mem_map.1 hr
            subst e
            obtain ⟨hfit, hk⟩ := hin y (by simp [hy])
            obtain ⟨z, hz, ez⟩ := hfit.first k hk hx fv hfv p hd g rest hg'
            exact hnil ⟨0, g⟩ (by simp) z hz ez
      · intro _ r hr
        obtain ⟨y, hy, rfl⟩ := List.mem_map.1 hr
        intro fv hfv m hd hm
        exact (hin y hy).1.number fv hfv m hd hm

/-- **C86**, the server: of fresh collations. In a history of posts of correctly written observations and any other requests, all posts are accepted if and
only if every observation fits every collation whose key fields it has. -/
theorem C86_server (env : Env) (confs : List (Schema × Nat)) (hv : ∀ c ∈ confs, ValidSchema c.1 ∧ 0 < c.2) (steps : List Step)
    (hc : ∀ s ∈ steps, s.Correct) :
    List.Forall₂ Step.Accepted steps (serveAll env (confs.map fun c => newStore c.1 c.2) (steps.map Step.request)).2 ↔
      ∀ c ∈ confs, ∀ fs ∈ observations steps, WithKeys c.1.keys fs → Fits env.lib c.1 c.2 (observations steps) fs := by
  rw [(steps_allTake env steps hc _).1]
  constructor
  · intro ht c hcm
    rw [← C86_store env.lib c.1 (hv c hcm).1 c.2 (hv c hcm).2]
    exact ht _ (List.mem_map.2 ⟨c, hcm, rfl⟩)
  · intro hs st hst
    obtain ⟨c, hcm, rfl⟩ := List.mem_map.1 hst
    exact (C86_store env.lib c.1 (hv c hcm).1 c.2 (hv c hcm).2 _).2 (hs c hcm)

end Starbow.Props
