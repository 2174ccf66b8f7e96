import Verif.Model.Stat64
/-
Model of /repo/internal/stats/stats.go: mean, variance, sum and standard error of a list of numbers. As for stat64, the code is
written once for any arithmetic: the program runs it on doubles, and the same definitions are read over the rationals to say what is
computed without rounding.
-/
namespace Starbow.Stats
open Starbow.Stat64

/-- stats.go:28-34 `Sum` -/
def sum {α : Type} [Arith α] (vals : List α) : α := vals.foldl Arith.add Arith.zero

/-- stats.go:17-21: the squared distances from the mean, added up from zero -/
def squares {α : Type} [Arith α] (mean : α) (vals : List α) : α :=
  vals.foldl (fun acc v => Arith.add acc (Arith.mul (Arith.sub v mean) (Arith.sub v mean))) Arith.zero

/-- `float64(len(vals))`, stats.go:9 -/
def count {α : Type} [Arith α] (vals : List α) : α := Arith.ofCount (BitVec.ofNat 64 vals.length)

/-- stats.go:8-25 `Meanvar`: mean and variance; `none` stands for NaN. (The comparisons of the count with 0 and 1 are made on the
length here: the conversion to a double gives 0 and 1 for no other lengths.) -/
def meanvar {α : Type} [Arith α] : List α → Option α × Option α
  | [] => (none, none)
  | [v] => (some v, none)
  | vals =>
    let mean := Arith.div (sum vals) (count vals)
    (some mean, some (Arith.div (squares mean vals) (count vals)))

/-- stats.go:37-43 `See`, on doubles -/
def see (vals : List F64) (e : F64) : F64 :=
  F64.sqrt (F64.div (squares e vals) (F64.ofInt ((vals.length : Int) - 2)))

end Starbow.Stats
