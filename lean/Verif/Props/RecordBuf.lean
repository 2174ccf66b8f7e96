import Verif.Props.Record
import Verif.Model.Demo
/-
Property C77 for `Collator.Read`: a measure of a record is read from its own bytes.
-/
namespace Starbow.Props
open Starbow Starbow.Collation Starbow.Spec

/-- **C77**, records: asked for a measure the collation maintains, `Collator.Read` looks at the bytes of that measure and at no others: two
buffers that agree there give the same answer, however long they are; and a buffer that ends before they do makes it panic. -/
theorem C77_record (lib : Lib) (s : Schema) (hv : ValidSchema s) (f n : Bytes) (r : Cell) (hr : readerAt (compile s) f n = some r) :
    0 ≤ r.low ∧ r.low < r.high ∧
    (∀ buf : Bytes, (buf.length : Int) < r.high → ask lib (compile s) buf f n = .panic) ∧
    (∀ buf buf' : Bytes, r.high ≤ buf.length → r.high ≤ buf'.length → (∀ i : Nat, r.low ≤ i → (i : Int) < r.high → buf[i]? = buf'[i]?) →
      ask lib (compile s) buf f n = ask lib (compile s) buf' f n) := by
  obtain ⟨h1, _, h3⟩ := C23_layout s hv
  obtain ⟨pl, w, hw, e1, e2, _⟩ := h3 f n r hr
  obtain ⟨a, b, _⟩ := h1 pl w hw
  rw [e1] at a b
  rw [e2] at b
  refine ⟨a, b, ?_, ?_⟩
  · intro buf h
    rw [ask_reply lib hr]
    unfold Cell.read
    rw [if_pos (.inr (.inr h))]
    rfl
  · intro buf buf' h h' heq
    rw [ask_reply lib hr, ask_reply lib hr]
    congr 1
    unfold Cell.read
    rw [if_neg (by omega), if_neg (by omega)]
    congr 1
    unfold slice
    apply List.ext_getElem?
    intro i
    rw [List.getElem?_take, List.getElem?_take, List.getElem?_drop, List.getElem?_drop]
    split
    · next hi => exact heq _ (by omega) (by omega)
    · rfl

/-- concrete case: in the records of the program's country collation, 900 bytes, the number of distinct `iata` is kept in the last 780; a buffer of
899 bytes makes its reader panic -/
example (lib : Lib) (buf : Bytes) (h : buf.length = 899) :
    readerAt (compile Demo.country) (asc "iata") (asc "uniquecount") = some ⟨120, 900, .cardinality 10⟩ ∧
    ask lib (compile Demo.country) buf (asc "iata") (asc "uniquecount") = .panic := by
  have hr : readerAt (compile Demo.country) (asc "iata") (asc "uniquecount") = some ⟨120, 900, .cardinality 10⟩ := by decide +kernel
  refine ⟨hr, (C77_record lib Demo.country ?_ _ _ _ hr).2.2.1 buf (by rw [h]; decide)⟩
  intro f ms p h1 h2
  simp only [Demo.country, List.mem_cons, Prod.mk.injEq, List.not_mem_nil, or_false] at h1
  rcases h1 with ⟨rfl, rfl⟩ | ⟨rfl, rfl⟩
  · simp at h2
  · simp at h2; omega

end Starbow.Props
