import Verif.Proof.Accepted
import Verif.Props.Packaging
/-
Property theorems C86: which observations are accepted.
-/
namespace Starbow.Props
open Starbow.Collation Starbow.Spec Starbow.Storage Starbow.Server

/-! ### specification -/

/-- the observation has all the key fields -/
def WithKeys (keys : List Bytes) (fs : List FV) : Prop := ∀ key ∈ keys, ∃ fv ∈ fs, fv.f = key

/-- `fs`, one of the observations `obs`, suits the collation: its key value does not have the hash 0, its values are numbers where a number is wanted, and
the fields whose distinct values are counted are in the first of the observations with this key value -/
structure Suits (lib : Lib) (sch : Schema) (obs : List (List FV)) (fs : List FV) : Prop where
  key : keyValue fs sch.keys ≠ some 0
  number : ∀ fv ∈ fs, ∀ m, Declares sch fv.f m → (m ≠ .count ∧ ∀ p, m ≠ .cardinality p) → lib.parseFloat fv.v ≠ none
  first : ∀ fv ∈ fs, ∀ p, Declares sch fv.f (.cardinality p) → ∀ g rest, (obs.filter fun x => AgreeOn sch.keys x fs) = g :: rest → ∃ x ∈ g, x.f = fv.f

/-- observations with different key values have different home slots in a table of `l` slots -/
def KeysApart (keys : List Bytes) (l : Nat) (obs : List (List FV)) : Prop :=
  ∀ x ∈ obs, ∀ y ∈ obs, ∀ kx ky, keyValue x keys = some kx → keyValue y keys = some ky → kx.toNat % l = ky.toNat % l → AgreeOn keys x y

/-! ### proofs -/

theorem valueOf_ne_none {fs : List FV} {key : Bytes} : valueOf fs key ≠ none ↔ ∃ fv ∈ fs, fv.f = key := by
  unfold valueOf
  rw [ne_eq, Option.map_eq_none_iff, List.find?_eq_none]
  simp

theorem withKeys_iff {keys : List Bytes} {fs : List FV} : WithKeys keys fs ↔ ∃ k, keyValue fs keys = some k := by
  constructor
  · intro h
    exact key_defined fs keys fun k hk => valueOf_ne_none.2 (h k hk)
  · rintro ⟨k, hk⟩ key hkey
    rw [keyValue_eq] at hk
    by_contra hne
    have hnone : keyBytes fs keys = none := by
      have hv : valueOf fs key = none := by
        by_contra h
        exact hne (valueOf_ne_none.1 h)
      clear hk
      unfold keyBytes
      induction keys with
      | nil => simp at hkey
      | cons x keys ih =>
        rw [List.foldr_cons]
        rcases List.mem_cons.1 hkey with rfl | hkey
        · rw [hv]; rfl
        · rw [ih hkey]; cases valueOf fs x <;> rfl
    rw [hnone] at hk
    simp at hk

theorem values_nil {f : Bytes} {rows : List Row} : valuesOf f rows = [] ↔ ∀ r ∈ rows, ∀ fv ∈ r.data, fv.f ≠ f := by
  unfold valuesOf
  rw [List.filterMap_eq_nil_iff]
  constructor
  · intro h r hr fv hfv e
    have := h fv (List.mem_flatMap.2 ⟨r, hr, hfv⟩)
    rw [if_pos e] at this
    simp at this
  · intro h fv hfv
    obtain ⟨r, hr, hfv⟩ := List.mem_flatMap.1 hfv
    rw [if_neg (h r hr fv hfv)]

theorem homes_of_apart {keys : List Bytes} {l : Nat} {obs : List (List FV)} (h : KeysApart keys l obs) : HomesApart keys l (obs.map obsOf) := by
  intro o ho o' ho' k k' hk hk' hm
  obtain ⟨x, hx, rfl⟩ := List.mem_map.1 ho
  obtain ⟨y, hy, rfl⟩ := List.mem_map.1 ho'
  have := C28_key keys x y (h x hx y hy k k' hk hk' hm)
  rw [show keyValue x keys = some k from hk, show keyValue y keys = some k' from hk'] at this
  exact Option.some.inj this

theorem rowsWith_agree {keys : List Bytes} {l : Nat} {obs : List (List FV)} (h : KeysApart keys l obs) {fs : List FV} (hfs : fs ∈ obs) {k : U64}
    (hk : keyValue fs keys = some k) :
    rowsWith keys k (obs.map obsOf) = (obs.filter fun x => AgreeOn keys x fs).map fun x => ⟨0, x⟩ := by
  unfold rowsWith
  rw [List.map_map, List.filter_map]
  congr 1
  apply List.filter_congr
  intro x hx
  refine decide_eq_decide.2 ?_
  constructor
  · intro hx'
    exact h x hx fs hfs k k hx' hk rfl
  · intro ha
    show keyValue x keys = some k
    rw [C28_key keys x fs ha, hk]

/-- **C86**, one store, partial: a fresh store accepts a history of observations if and only if each of those that have the key fields suits the collation.
Provided observations with different key values have different home slots. -/
theorem C86_store_apart (lib : Lib) (sch : Schema) (hv : ValidSchema sch) (l : Nat) (hl : 0 < l) (obs : List (List FV)) (happ : KeysApart sch.keys l obs) :
    (∀ p ∈ (writes lib (newStore sch l) (obs.map obsOf)).2, p.2 = .ret none) ↔ ∀ fs ∈ obs, WithKeys sch.keys fs → Suits lib sch obs fs := by
  obtain ⟨L, D, pos, h, hD⟩ := laid_compile sch hv
  rw [accepted_iff lib h hl _ (homes_of_apart happ)]
  constructor
  · rintro ⟨c1, c2⟩ fs hfs hk
    obtain ⟨k, hk⟩ := withKeys_iff.1 hk
    have h0 := (c1 (obsOf fs) (List.mem_map_of_mem hfs) k hk).2
    obtain ⟨buf, hr⟩ := c2 k h0
    rw [rowsWith_agree happ hfs hk] at hr
    have hmem : fs ∈ obs.filter fun x => AgreeOn sch.keys x fs := by
      rw [List.mem_filter]
      exact ⟨hfs, decide_eq_true fun _ _ => rfl⟩
    obtain ⟨g, rest, hg⟩ := List.exists_cons_of_ne_nil (List.ne_nil_of_mem hmem)
    rw [hg] at hr hmem
    obtain ⟨n1, n2⟩ := (C25_accepted_iff lib sch hv _ _).1 ⟨buf, hr⟩
    refine ⟨?_, ?_, ?_⟩
    · rw [hk]; simpa using h0
    · intro fv hfv m hd hm
      exact n1 fv.f m hd hm fv.v (mem_valuesOf (rows := (g :: rest).map fun x => (⟨0, x⟩ : Row)) (r := ⟨0, fs⟩) (List.mem_map.2 ⟨fs, hmem, rfl⟩) hfv rfl)
    · intro fv hfv p hd g' rest' hg'
      rw [hg] at hg'
      obtain ⟨rfl, rfl⟩ := List.cons.inj hg'
      by_contra hne
      have e1 := n2 fv.f p hd (values_nil.2 (by
        intro r hr' x hx e
        rw [List.mem_singleton] at hr'
        subst hr'
        exact hne ⟨x, hx, e⟩))
      rcases List.mem_cons.1 hmem with rfl | hmem
      · exact hne ⟨fv, hfv, rfl⟩
      · exact values_nil.1 e1 ⟨0, fs⟩ (List.mem_map.2 ⟨fs, hmem, rfl⟩) fv hfv rfl
  · intro hs
    refine ⟨?_, ?_⟩
    · intro o ho k hk
      obtain ⟨fs, hfs, rfl⟩ := List.mem_map.1 ho
      refine ⟨rfl, ?_⟩
      rintro rfl
      exact (hs fs hfs (withKeys_iff.2 ⟨_, hk⟩)).key hk
    · intro k h0
      by_cases hne : rowsWith sch.keys k (obs.map obsOf) = []
      · rw [hne]; exact ⟨blank (compile sch), rfl⟩
      · obtain ⟨r, hr⟩ := List.exists_mem_of_ne_nil _ hne
        have hex : ∃ fs ∈ obs, keyValue fs sch.keys = some k := by
          unfold rowsWith at hr
          rw [List.mem_filter] at hr
          obtain ⟨hr1, hr2⟩ := hr
          obtain ⟨o, ho, rfl⟩ := List.mem_map.1 hr1
          obtain ⟨fs, hfs, rfl⟩ := List.mem_map.1 ho
          exact ⟨fs, hfs, of_decide_eq_true hr2⟩
        obtain ⟨fs, hfs, hk⟩ := hex
        rw [rowsWith_agree happ hfs hk] at hne ⊢
        have hin : ∀ x ∈ obs.filter fun x => AgreeOn sch.keys x fs, x ∈ obs ∧ AgreeOn sch.keys x fs := by
          intro x hx
          rw [List.mem_filter] at hx
          exact ⟨hx.1, by simpa using hx.2⟩
        have hsuit : ∀ x ∈ obs.filter fun x => AgreeOn sch.keys x fs, Suits lib sch obs x := by
          intro x hx
          obtain ⟨h1, h2⟩ := hin x hx
          exact hs x h1 (withKeys_iff.2 ⟨k, by rw [C28_key sch.keys x fs h2, hk]⟩)
        have hsame : ∀ x ∈ obs.filter fun x => AgreeOn sch.keys x fs,
            (obs.filter fun y => AgreeOn sch.keys y x) = obs.filter fun y => AgreeOn sch.keys y fs := by
          intro x hx
          obtain ⟨_, h2⟩ := hin x hx
          apply List.filter_congr
          intro y _
          rw [decide_eq_decide]
          exact ⟨fun h key hkey => (h key hkey).trans (h2 key hkey), fun h key hkey => (h key hkey).trans (h2 key hkey).symm⟩
        obtain ⟨g, rest, hg⟩ := List.exists_cons_of_ne_nil (fun e => hne (by rw [e]; rfl) : (obs.filter fun x => AgreeOn sch.keys x fs) ≠ [])
        rw [hg] at hsuit hsame ⊢
        rw [List.map_cons]
        refine (C25_accepted_iff lib sch hv _ _).2 ⟨?_, ?_⟩
        · intro f m hd hm v hvm
          unfold valuesOf at hvm
          obtain ⟨fv, hfv, hf⟩ := List.mem_filterMap.1 hvm
          obtain ⟨r, hr, hfv⟩ := List.mem_flatMap.1 hfv
          split at hf
          · next e =>
            subst e
            rw [← Option.some.inj hf]
            rw [← List.map_cons (f := fun x => (⟨0, x⟩ : Row))] at hr
            obtain ⟨x, hx, rfl⟩ := List.mem_map.1 hr
            exact (hsuit x hx).number fv hfv m hd hm
          · simp at hf
        · intro f p hd hnil
          rw [values_nil] at hnil ⊢
          intro r hr fv hfv e
          obtain ⟨x, hx, rfl⟩ := List.mem_map.1 hr
          subst e
          obtain ⟨y, hy, ey⟩ := (hsuit x (by simp [hx])).first fv hfv p hd g rest (hsame x (by simp [hx]))
          exact hnil ⟨0, g⟩ (by simp) y hy ey

/-- **C86**, the server, partial: of fresh collations. In a history of posts of correctly written observations and any other requests, all posts are
accepted if and only if every observation suits every collation whose key fields it has. Provided for each collation observations with different key values
have different home slots. -/
theorem C86_apart (env : Env) (confs : List (Schema × Nat)) (hv : ∀ c ∈ confs, ValidSchema c.1 ∧ 0 < c.2) (steps : List Step)
    (hc : ∀ s ∈ steps, s.Correct) (happ : ∀ c ∈ confs, KeysApart c.1.keys c.2 (observations steps)) :
    List.Forall₂ Step.Accepted steps (serveAll env (confs.map fun c => newStore c.1 c.2) (steps.map Step.request)).2 ↔
      ∀ c ∈ confs, ∀ fs ∈ observations steps, WithKeys c.1.keys fs → Suits env.lib c.1 (observations steps) fs := by
  rw [(steps_allTake env steps hc _).1]
  constructor
  · intro ht c hcm
    rw [← C86_store_apart env.lib c.1 (hv c hcm).1 c.2 (hv c hcm).2 _ (happ c hcm)]
    exact ht _ (List.mem_map.2 ⟨c, hcm, rfl⟩)
  · intro hs st hst
    obtain ⟨c, hcm, rfl⟩ := List.mem_map.1 hst
    exact (C86_store_apart env.lib c.1 (hv c hcm).1 c.2 (hv c hcm).2 _ (happ c hcm)).2 (hs c hcm)

end Starbow.Props
