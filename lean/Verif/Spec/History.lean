import Verif.Model.Basic
/-
Histories of the two value-set summaries (bloom filter, HyperLogLog counter).
-/
namespace Starbow.Spec

/-- A history: `some v` is `Add v`, `none` is `Reset`. -/
abbrev AddHist := List (Option Bytes)

/-- one step of `live` -/
def liveStep (acc : List Bytes) : Option Bytes → List Bytes
  | some v => acc ++ [v]
  | none => []

/-- The values added since creation or the last Reset. -/
def live (h : AddHist) : List Bytes := h.foldl liveStep []

end Starbow.Spec
