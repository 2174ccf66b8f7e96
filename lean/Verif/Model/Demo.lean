import Verif.Model.Collation
/-
Model of /repo/demo.go and of the settings of /repo/starbow.go: the collations the program serves.
-/
namespace Starbow.Demo
open Starbow Starbow.Collation Starbow.Storage

/-- demo.go:11-27 -/
def country : Schema :=
  { name := asc "country", keys := [asc "country"], recordMeasures := [.count],
    measures := [(asc "height", [.mean, .sum, .variance, .max, .min]), (asc "iata", [.cardinality 10])] }

/-- demo.go:29-45 -/
def tz : Schema :=
  { name := asc "tz", keys := [asc "tz"], recordMeasures := [.count],
    measures := [(asc "country", [.cardinality 8]), (asc "height", [.cardinality 8])] }

/-- demo.go:57 `bufmap.New(5000, coll.Size())` -/
def slots : Nat := 5000

/-- demo.go:50-63 `addDemoCollation`: one store. `Compile` never fails. `bufmap.New` would panic on a negative size. -/
def store (sch : Schema) : Store := ⟨Bufmap.new slots (compile sch).size.toNat, compile sch⟩

/-- demo.go:10-48 `setupDemo` -/
def stores : List Store := [store country, store tz]

end Starbow.Demo
