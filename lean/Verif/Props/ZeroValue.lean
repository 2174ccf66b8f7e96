import Verif.Props.Hll
import Verif.Props.Bloom
import Verif.Model.HllEst
import Verif.Model.BloomEst
/-
Properties C11, C13 and C16 for the zero values `Counter{}` and `Bloom{}` (var c hll.Counter; var b bloom.Bloom).

`Counter{}` has mask 0 and threshold 0, as initParams would set them for p = 0; its alpha is 0 where initParams would set 0.673. The model derives all three from `p`, which makes a
difference only to the numbers that Count, HarmonicCount and PoissonCount return; they return none here.
-/
namespace Starbow.Props
open Starbow.Spec

/-- hll.go:82-89, the zero value `Counter{}` -/
def zeroCounter : Hll.Counter := ⟨0#8, ⟨[], 0, 0#8⟩⟩

/-- bloom.go:26-30, the zero value `Bloom{}` -/
def zeroBloom : Bloom.Filter := ⟨⟨[], 0, 0#8⟩, 0, 0#8⟩

/-- **C16 for `Counter{}`**: Add panics for every value, and so do Count, HarmonicCount and PoissonCount. -/
theorem C16_hll_zero_value (log : F64 → F64) : (∀ v, Hll.add zeroCounter v = .panic) ∧ Hll.count log zeroCounter = .panic ∧
    Hll.harmonicCount zeroCounter = .panic ∧ Hll.poissonCount zeroCounter = .panic := by
  refine ⟨fun v => ?_, ?_, ?_, ?_⟩
  · have hi : Hll.idx 0#8 (Fnv.sum64 v) = 0#64 := by
      unfold Hll.idx
      rw [show Hll.mask 0#8 = 0#64 by decide +kernel, BitVec.and_zero]
      decide +kernel
    unfold Hll.add zeroCounter
    simp only [hi]
    rfl
  · rfl
  · rfl
  · rfl

/-- **C13 for `Counter{}`**: it may be read into: ReadFrom of a written counter gives that counter. -/
theorem C13_zero_value (c : Hll.Counter) (hc : Hll.WF c) (p : Bool) (r : Reader) (hr : Delivers p r (Hll.writeTo c Writer.buffer).2.out) :
    ∃ rest, Hll.readFrom zeroCounter r = .val (c, Hll.lenOf c, none, rest) := C13_readFrom c hc zeroCounter p r hr

/-- **C16 for `Bloom{}`**: nothing panics: it reports every value as present, whatever was added. -/
theorem C16_bloom_zero_value (v : Bytes) : Bloom.add zeroBloom v = .val zeroBloom ∧ Bloom.has zeroBloom v = .val true := ⟨rfl, rfl⟩

end Starbow.Props
