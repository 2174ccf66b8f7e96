import Verif.Props.AcceptedAny
import Verif.Props.OrderDemo
/-
Instances of C86: the same observations are refused on their own and accepted after one of another country.
-/
namespace Starbow.Props
open Starbow.Collation Starbow.Spec Starbow.Storage Starbow.Server

def gt : List FV := [⟨asc "country", asc "GT"⟩]
def uz : List FV := [⟨asc "country", asc "UZ"⟩]
/-- with the airport TAS -/
def uzTas : List FV := [⟨asc "country", asc "UZ"⟩, ⟨asc "iata", asc "TAS"⟩]

theorem gt_uz_facts : keyValue gt Demo.country.keys = some 12582601583169150300 ∧ keyValue uz Demo.country.keys = some 12582586190006355300 ∧
    keyValue uzTas Demo.country.keys = some 12582586190006355300 ∧
    slotAfter Demo.country.keys Demo.slots ([gt, uz, uzTas].map obsOf) 12582601583169150300 = some 300 ∧
    slotAfter Demo.country.keys Demo.slots ([gt, uz, uzTas].map obsOf) 12582586190006355300 = some 301 ∧
    slotAfter Demo.country.keys Demo.slots ([uz, uzTas].map obsOf) 12582586190006355300 = some 300 ∧
    (∀ fs ∈ [gt, uz, uzTas], ∀ fv ∈ fs, fv.f ≠ asc "height" ∧ fv.f ≠ asc "*") ∧ (∀ fv ∈ gt, fv.f ≠ asc "iata") := by decide +kernel

theorem no_tz : ∀ fs ∈ [gt, uz, uzTas], ¬ WithKeys Demo.tz.keys fs := by
  have : ∀ fs ∈ [gt, uz, uzTas], ∀ fv ∈ fs, fv.f ≠ asc "tz" := by decide +kernel
  intro fs hfs hk
  obtain ⟨fv, hfv, e⟩ := hk (asc "tz") (by simp [Demo.tz])
  exact this fs hfs fv hfv e

theorem gt_uz_number (lib : Lib) : ∀ fs ∈ [gt, uz, uzTas], ∀ fv ∈ fs, ∀ m, Declares Demo.country fv.f m → (m ≠ .count ∧ ∀ p, m ≠ .cardinality p) →
    lib.parseFloat fv.v ≠ none := by
  obtain ⟨_, _, _, _, _, _, hf, _⟩ := gt_uz_facts
  intro fs hfs fv hfv m hd hm
  rcases country_declares hd with ⟨_, e⟩ | ⟨e, _⟩ | ⟨_, e⟩
  · exact absurd e hm.1
  · exact absurd e (hf fs hfs fv hfv).1
  · exact absurd e (hm.2 10)

theorem gt_uz_plain : ∀ fs ∈ [gt, uz, uzTas], Plainly fs := by decide +kernel

/-- instance of C86: in the program an observation of UZ and then one with an airport are not both accepted, because the first has no airport; but
after an observation of GT, which takes their slot, all three are accepted. -/
theorem C86_gt_uz (env : Env) : ¬ AllAccepted env [uz, uzTas] ∧ AllAccepted env [gt, uz, uzTas] := by
  obtain ⟨k1, k2, k3, s1, s2, s3, hf, hi⟩ := gt_uz_facts
  have hC := fun obs (hpl : ∀ fs ∈ obs, Plainly fs) => C86_server env demoColls demoColls_valid (oneByOne obs) (oneByOne_correct hpl)
  simp only [demoColls_stores, oneByOne_obs] at hC
  constructor
  · intro hacc
    have hs := (hC [uz, uzTas] (fun fs hfs => gt_uz_plain fs (by simp only [List.mem_cons, List.not_mem_nil, or_false] at hfs ⊢; tauto))).1 hacc
    have hs := (hs (Demo.country, Demo.slots) (by simp [demoColls]) uzTas (by simp) (withKeys_iff.2 ⟨_, k3⟩)).first _ k3
      (by simp only; rw [s3]; decide) ⟨asc "iata", asc "TAS"⟩ (by simp [uzTas]) 10 (.inr ⟨by decide +kernel, _, .tail _ (.head _), by decide +kernel⟩) uz [uzTas] (by
        simp only
        rw [List.filter_cons, if_pos (by simp [k2]), List.filter_cons, if_pos (by simp [k3])]
        rfl)
    obtain ⟨x, hx, e⟩ := hs
    have : ∀ x ∈ uz, x.f ≠ asc "iata" := by decide +kernel
    exact this x hx e
  · refine (hC [gt, uz, uzTas] gt_uz_plain).2 ?_
    intro c hc fs hfs hk
    simp only [demoColls, List.mem_cons, List.not_mem_nil, or_false] at hc
    rcases hc with rfl | rfl
    · have hnum := gt_uz_number env.lib fs hfs
      have hkk : (fs = gt ∧ keyValue fs Demo.country.keys = some 12582601583169150300) ∨ keyValue fs Demo.country.keys = some 12582586190006355300 := by
        simp only [List.mem_cons, List.not_mem_nil, or_false] at hfs
        rcases hfs with rfl | rfl | rfl
        · exact .inl ⟨rfl, k1⟩
        · exact .inr k2
        · exact .inr k3
      refine ⟨?_, ?_, hnum, ?_⟩
      · simp only
        rcases hkk with ⟨_, e⟩ | e <;> (rw [e]; decide)
      · intro k hk
        simp only at hk ⊢
        rcases hkk with ⟨_, e⟩ | e <;> (rw [e] at hk; rw [← Option.some.inj hk])
        · rw [s1]; simp
        · rw [s2]; simp
      · intro k hk hsl fv hfv p hd g rest hg
        simp only at hk hsl
        rcases hkk with ⟨rfl, e⟩ | e
        · rcases country_declares hd with ⟨_, e⟩ | ⟨_, e⟩ | ⟨e, _⟩
          · simp at e
          · simp at e
          · exact absurd e (hi fv hfv)
        · rw [e] at hk
          rw [← Option.some.inj hk, s2] at hsl
          exact absurd hsl (by decide)
    · exact absurd hk (no_tz fs hfs)

/-- instance of C86: in a table of one slot UZ finds no place after GT -/
theorem C86_full (lib : Lib) : ¬ ∀ p ∈ (writes lib (newStore Demo.country 1) ([gt, uz].map obsOf)).2, p.2 = .ret none := by
  rw [C86_store lib Demo.country country_valid 1 (by decide)]
  intro h
  have h1 := (h uz (by simp) (withKeys_iff.2 ⟨_, gt_uz_facts.2.1⟩)).room _ gt_uz_facts.2.1
  have : slotAfter Demo.country.keys 1 ([gt, uz].map obsOf) 12582586190006355300 = none := by decide +kernel
  exact h1 this

end Starbow.Props
