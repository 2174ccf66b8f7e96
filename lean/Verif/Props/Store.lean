import Verif.Proof.Store
import Verif.Model.Demo
import Mathlib.Data.Fintype.EquivFin
import Mathlib.Data.Fintype.Option
import Mathlib.Data.Fintype.Pigeonhole
import Verif.Props.Fnv
/-
Property theorems C26, C28, C29 and the store part of C48, C49, C58, C59.
-/
namespace Starbow.Props
open Starbow.Collation Starbow.Spec Starbow.Storage Starbow.Bufmap

/-! ### C28: routing -/

/-- the value of a field: that of the first pair with the name -/
def valueOf (fvs : List FV) (k : Bytes) : Option Bytes := (fvs.find? fun fv => fv.f = k).map FV.v

/-- two rows (or a row and a query) agree on the key fields -/
def AgreeOn (keys : List Bytes) (a b : List FV) : Prop := ∀ k ∈ keys, valueOf a k = valueOf b k

theorem lookupField_eq (fvs : List FV) (k : Bytes) : lookupField fvs k = (valueOf fvs k).map fun v => ⟨k, v⟩ := by
  unfold lookupField valueOf
  have : (fun fv : FV => k == fv.f) = fun fv => decide (fv.f = k) := by
    funext fv
    rw [Bool.eq_iff_iff]
    simp only [beq_iff_eq, decide_eq_true_eq]
    exact eq_comm
  rw [this, Option.map_map]
  cases h : fvs.find? fun fv => decide (fv.f = k) with
  | none => rfl
  | some fv =>
    have := List.find?_some h
    simp only [decide_eq_true_eq] at this
    rw [Option.map_some, Function.comp_apply, ← this]

/-- the key hash is the FNV-1 hash of the names and values of the key fields, strung together -/
def keyBytes (fvs : List FV) (keys : List Bytes) : Option Bytes :=
  keys.foldr (fun k t => (valueOf fvs k).bind fun v => t.map fun b => k ++ v ++ b) (some [])

theorem keyLoop_eq (fvs : List FV) (keys : List Bytes) : ∀ h : U64,
    keyLoop fvs keys h = (keyBytes fvs keys).map fun b => b.foldl Fnv.step1 h := by
  induction keys with
  | nil => intro h; rfl
  | cons k keys ih =>
    intro h
    rw [keyLoop, lookupField_eq]
    have e : keyBytes fvs (k :: keys) = (valueOf fvs k).bind fun v => (keyBytes fvs keys).map fun b => k ++ v ++ b := rfl
    rw [e]
    cases valueOf fvs k with
    | none => rfl
    | some v =>
      simp only [Option.map_some, Option.bind_some]
      rw [ih]
      cases keyBytes fvs keys with
      | none => rfl
      | some b => simp [Fnv.write1, List.foldl_append]

theorem keyValue_eq (fvs : List FV) (keys : List Bytes) : keyValue fvs keys = (keyBytes fvs keys).map Fnv.sum64 := by
  unfold keyValue
  rw [keyLoop_eq]
  cases keyBytes fvs keys <;> rfl

/-- **C28**, routing: rows that agree on the values of the key fields get the same key, whatever else they carry and in whatever
order. -/
theorem C28_key (keys : List Bytes) (a b : List FV) (h : AgreeOn keys a b) : keyValue a keys = keyValue b keys := by
  rw [keyValue_eq, keyValue_eq]
  congr 1
  unfold keyBytes
  induction keys with
  | nil => rfl
  | cons k keys ih =>
    rw [List.foldr_cons, List.foldr_cons, h k (by simp), ih fun k' hk' => h k' (by simp [hk'])]

/-- … in particular leaving out fields that are not key fields, … -/
theorem C28_other_fields (keys : List Bytes) (a : List FV) : keyValue (a.filter fun fv => fv.f ∈ keys) keys = keyValue a keys := by
  apply C28_key
  intro k hk
  unfold valueOf
  rw [List.find?_filter]
  congr 2
  funext fv
  by_cases h : fv.f = k
  · simp [h, hk]
  · simp [h]

/-- … or any rearrangement of a row that keeps the order of the values of each field, … -/
theorem C28_repeated (keys : List Bytes) (a b : List FV) (h : ∀ f, (a.filter fun fv => fv.f = f) = b.filter fun fv => fv.f = f) :
    keyValue a keys = keyValue b keys := by
  apply C28_key
  intro k _
  have hv : ∀ c : List FV, valueOf c k = valueOf (c.filter fun fv => fv.f = k) k := by
    intro c
    unfold valueOf
    rw [List.find?_filter]
    congr 2
    funext fv
    by_cases h : fv.f = k <;> simp [h]
  rw [hv a, hv b, h k]

/-- … or any rearrangement of a row that carries each field once. -/
theorem C28_reorder (keys : List Bytes) (a b : List FV) (hp : a.Perm b) (hn : (a.map FV.f).Nodup) :
    keyValue a keys = keyValue b keys := by
  apply C28_key
  intro k _
  unfold valueOf
  have hn' : (b.map FV.f).Nodup := (hp.map FV.f).nodup_iff.1 hn
  have key : ∀ {c : List FV} {fv : FV}, (c.map FV.f).Nodup → fv ∈ c → fv.f = k → c.find? (fun fv => decide (fv.f = k)) = some fv := by
    intro c fv hc hm hf
    cases hfind : c.find? (fun fv => decide (fv.f = k)) with
    | none => have := List.find?_eq_none.1 hfind fv hm; simp [hf] at this
    | some fv' =>
      have h1 := List.mem_of_find?_eq_some hfind
      have h2 := List.find?_some hfind
      simp only [decide_eq_true_eq] at h2
      rw [List.inj_on_of_nodup_map hc h1 hm (h2.trans hf.symm)]
  cases hfind : a.find? (fun fv => decide (fv.f = k)) with
  | none =>
    have : b.find? (fun fv => decide (fv.f = k)) = none := by
      rw [List.find?_eq_none] at hfind ⊢
      exact fun fv hfv => hfind fv (hp.mem_iff.2 hfv)
    rw [this]
  | some fv =>
    have h1 := List.mem_of_find?_eq_some hfind
    have h2 := List.find?_some hfind
    simp only [decide_eq_true_eq] at h2
    rw [key hn' (hp.mem_iff.1 h1) h2]

/-- **C28**, queries: queries that agree on the key fields (and ask for the same measures) get the same answer from any store. -/
theorem C28_query (lib : Lib) (st : Store) (q q' : Query) (h : AgreeOn st.coll.keys q.criteria q'.criteria)
    (hm : q.fieldMeasures = q'.fieldMeasures) : read lib st q = read lib st q' := by
  unfold Storage.read
  rw [C28_key _ _ _ h, hm]

/-- **C28**, incomplete keys: an observation without one of the key fields is ignored without error (even if the context is
cancelled), a query without one gets the empty result. -/
theorem C28_missing (lib : Lib) (st : Store) (k : Bytes) (hk : k ∈ st.coll.keys) (c : Bool) :
    (∀ r : Row, (∀ fv ∈ r.data, fv.f ≠ k) → write lib st c r = (st, .ret none)) ∧
    (∀ q : Query, (∀ fv ∈ q.criteria, fv.f ≠ k) → read lib st q = .ret ([], none)) := by
  have key : ∀ (a : List FV), (∀ fv ∈ a, fv.f ≠ k) → keyValue a st.coll.keys = none := by
    intro a ha
    have hv : valueOf a k = none := by
      unfold valueOf
      rw [Option.map_eq_none_iff, List.find?_eq_none]
      intro fv hfv
      simpa using ha fv hfv
    rw [keyValue_eq, Option.map_eq_none_iff]
    generalize st.coll.keys = keys at hk
    unfold keyBytes
    induction keys with
    | nil => simp at hk
    | cons k' keys ih =>
      rw [List.foldr_cons]
      rcases List.mem_cons.1 hk with rfl | hk
      · rw [hv]; rfl
      · rw [ih hk]
        cases valueOf a k' <;> rfl
  constructor
  · intro r hr; unfold write; rw [key _ hr]
  · intro q hq; unfold Storage.read; rw [key _ hq]

example : AgreeOn [asc "country"] [⟨asc "height", asc "3"⟩, ⟨asc "country", asc "FR"⟩] [⟨asc "country", asc "FR"⟩, ⟨asc "tz", asc "x"⟩] := by
  intro k hk
  simp only [List.mem_singleton] at hk
  subst hk
  decide

/-! ### C29: different key values -/

/-- **C29 fails** (1): names and values are hashed without separators. With two key fields `a`, `b`, the values `v ++ b`, `w` and
`v`, `b ++ w` always get the same record. -/
theorem C29_no_separator (a b v w : Bytes) (hab : a ≠ b) :
    keyValue [⟨a, v ++ b⟩, ⟨b, w⟩] [a, b] = keyValue [⟨a, v⟩, ⟨b, b ++ w⟩] [a, b] := by
  rw [keyValue_eq, keyValue_eq]
  have h1 : ∀ x y : Bytes, valueOf [⟨a, x⟩, ⟨b, y⟩] a = some x := by
    intro x y; unfold valueOf; simp
  have h2 : ∀ x y : Bytes, valueOf [⟨a, x⟩, ⟨b, y⟩] b = some y := by
    intro x y; unfold valueOf; simp [hab]
  simp [keyBytes, h1, h2]

/-- … so that the observation of one is reported under the other: queries for the two get the same answer, always. -/
theorem C29_refuted (lib : Lib) (st : Store) (a b v w : Bytes) (hab : a ≠ b) (hk : st.coll.keys = [a, b]) (fm : List FM) :
    read lib st ⟨fm, [⟨a, v ++ b⟩, ⟨b, w⟩]⟩ = read lib st ⟨fm, [⟨a, v⟩, ⟨b, b ++ w⟩]⟩ := by
  unfold Storage.read
  rw [hk]
  simp only
  rw [C29_no_separator a b v w hab]

theorem key_defined (a : List FV) (keys : List Bytes) (h : ∀ k ∈ keys, valueOf a k ≠ none) : ∃ x, keyValue a keys = some x := by
  rw [keyValue_eq]
  suffices ∃ t, keyBytes a keys = some t by obtain ⟨t, ht⟩ := this; exact ⟨_, by rw [ht]; rfl⟩
  induction keys with
  | nil => exact ⟨[], rfl⟩
  | cons k keys ih =>
    obtain ⟨t, ht⟩ := ih fun k' hk' => h k' (by simp [hk'])
    obtain ⟨x, hx⟩ := Option.ne_none_iff_exists'.1 (h k (by simp))
    exact ⟨k ++ x ++ t, by
      show (valueOf a k).bind (fun v => (keyBytes a keys).map fun b => k ++ v ++ b) = _
      rw [hx, ht]; rfl⟩

/-- **C29 fails** (2): whatever the key fields and the values of all but one of them, some two values of the remaining one share a
record (there are only 2^64 keys). -/
theorem C29_collision (keys : List Bytes) (k : Bytes) (rest : List FV)
    (hrest : ∀ k' ∈ keys, k' ≠ k → valueOf rest k' ≠ none) :
    ∃ v w : Bytes, v ≠ w ∧ ∃ x, keyValue (⟨k, v⟩ :: rest) keys = some x ∧ keyValue (⟨k, w⟩ :: rest) keys = some x := by
  have hinf : Infinite Bytes := inferInstanceAs (Infinite (List Byte))
  have hfin : Finite U64 := Finite.of_injective (fun b : U64 => (⟨b.toNat, b.isLt⟩ : Fin (2 ^ 64))) (by
    intro a b h
    simp only [Fin.mk.injEq] at h
    exact BitVec.eq_of_toNat_eq h)
  have : Finite (Option U64) := inferInstance
  obtain ⟨v, w, hne, he⟩ := Finite.exists_ne_map_eq_of_infinite fun v : Bytes => keyValue (⟨k, v⟩ :: rest) keys
  obtain ⟨x, hx⟩ := key_defined (⟨k, v⟩ :: rest) keys (by
    intro k' hk'
    by_cases hkk : k' = k
    · subst hkk; simp [valueOf]
    · have : valueOf (⟨k, v⟩ :: rest) k' = valueOf rest k' := by
        unfold valueOf; rw [List.find?_cons_of_neg (by simpa using fun e => hkk e.symm)]
      rw [this]; exact hrest k' hk' hkk)
  exact ⟨v, w, hne, x, hx, he.symm.trans hx⟩

/-- **C29 fails** (3): a concrete pair for the program's own collation: these 14 bytes and "FR". -/
theorem C29_country_collision :
    keyValue [⟨asc "country", [0x02, 0x10, 0x02, 0x0c, 0x17, 0x0b, 0x7f, 0x17, 0x08, 0x1a, 0x0c, 0x00, 0x01, 0x05]⟩] Demo.country.keys =
      keyValue [⟨asc "country", asc "FR"⟩] Demo.country.keys := by
  decide +kernel

/-- **C29**, partial: rows whose key values differ in one field, only within four consecutive bytes (so all codes of the same
length up to four), never get the same key. Missing: everything else (see the refutations). -/
theorem C29_codes_partial (keys : List Bytes) (hn : keys.Nodup) (a b : List FV) (k pre u v suf : Bytes) (hk : k ∈ keys)
    (ha : valueOf a k = some (pre ++ u ++ suf)) (hb : valueOf b k = some (pre ++ v ++ suf)) (hl : u.length = v.length)
    (h4 : u.length ≤ 4) (hne : u ≠ v) (hall : ∀ k' ∈ keys, k' ≠ k → valueOf a k' = valueOf b k')
    (hdef : ∀ k' ∈ keys, valueOf a k' ≠ none) : keyValue a keys ≠ keyValue b keys := by
  rw [keyValue_eq, keyValue_eq]
  have key : ∃ x y, keyBytes a keys = some (x ++ u ++ y) ∧ keyBytes b keys = some (x ++ v ++ y) := by
    induction keys with
    | nil => simp at hk
    | cons k' keys ih =>
      have ea : keyBytes a (k' :: keys) = (valueOf a k').bind fun v => (keyBytes a keys).map fun b => k' ++ v ++ b := rfl
      have eb : keyBytes b (k' :: keys) = (valueOf b k').bind fun v => (keyBytes b keys).map fun b => k' ++ v ++ b := rfl
      rw [ea, eb]
      obtain ⟨hn1, hn2⟩ := List.nodup_cons.1 hn
      by_cases hkk : k' = k
      · subst hkk
        have hrest : keyBytes a keys = keyBytes b keys := by
          have : AgreeOn keys a b := fun k'' hk'' => hall k'' (by simp [hk'']) (by rintro rfl; exact hn1 hk'')
          unfold keyBytes
          clear ih ea eb hk hall hdef hn hn1 hn2
          induction keys with
          | nil => rfl
          | cons k keys ih =>
            rw [List.foldr_cons, List.foldr_cons, this k (by simp), ih fun k' hk' => this k' (by simp [hk'])]
        obtain ⟨t, ht⟩ : ∃ t, keyBytes a keys = some t := by
          obtain ⟨x, hx⟩ := key_defined a keys fun k'' hk'' => hdef k'' (by simp [hk''])
          rw [keyValue_eq] at hx
          cases hb : keyBytes a keys with
          | none => rw [hb] at hx; simp at hx
          | some t => exact ⟨t, rfl⟩
        rw [ha, hb, ← hrest, ht]
        exact ⟨k' ++ pre, suf ++ t, by simp, by simp⟩
      · have hk' : k ∈ keys := by
          rcases List.mem_cons.1 hk with rfl | h
          · exact absurd rfl hkk
          · exact h
        obtain ⟨x, y, e1, e2⟩ := ih hn2 hk' (fun k'' h => hall k'' (by simp [h])) (fun k'' h => hdef k'' (by simp [h]))
        obtain ⟨z, hz⟩ := Option.ne_none_iff_exists'.1 (hdef k' (by simp))
        rw [← hall k' (by simp) hkk, hz, e1, e2]
        exact ⟨k' ++ z ++ x, y, by simp, by simp⟩
  obtain ⟨x, y, e1, e2⟩ := key
  rw [e1, e2]
  intro h
  exact (C02_four_bytes x y u v hl h4 hne).1 (Option.some.inj h)

example : keyValue [⟨asc "country", asc "GT"⟩] Demo.country.keys ≠ keyValue [⟨asc "country", asc "UZ"⟩] Demo.country.keys :=
  C29_codes_partial Demo.country.keys (by decide) _ _ (asc "country") [] (asc "GT") (asc "UZ") [] (by decide) (by decide) (by decide)
    (by decide) (by decide) (by decide) (by decide) (by decide)

/-! ### C58: every key value can be recorded -/

/-- the value of `country` whose key is zero -/
def zeroValue : Bytes := [0x16, 0x00, 0x05, 0x02, 0x02, 0x0b, 0x79, 0x6e, 0x05, 0x01, 0x69, 0x0f, 0x0e, 0x02]

theorem zero_key : keyValue [⟨asc "country", zeroValue⟩] Demo.country.keys = some 0 := by decide +kernel

/-- **C58 fails**: observations of a certain country are refused with ErrInvalidKey by every store of the program's country
collation, even an empty one. -/
theorem C58_refuted (lib : Lib) (st : Store) (hk : st.coll.keys = Demo.country.keys) (fvs : List FV)
    (hf : ∀ fv ∈ fvs, fv.f ≠ asc "country") (t : Int) :
    write lib st false ⟨t, ⟨asc "country", zeroValue⟩ :: fvs⟩ = (st, .ret (some .invalidKey)) := by
  have hkey : keyValue (⟨asc "country", zeroValue⟩ :: fvs) Demo.country.keys = some 0 := by
    rw [← zero_key]
    apply C28_key
    intro k hk
    have : k = asc "country" := by simpa [Demo.country] using hk
    subst this
    unfold valueOf
    rw [List.find?_cons_of_pos (by simp), List.find?_cons_of_pos (by simp)]
  unfold write
  rw [hk]
  simp only
  rw [hkey]
  simp only [Bool.false_eq_true, if_false]
  rw [C33_invalid_key]

end Starbow.Props
