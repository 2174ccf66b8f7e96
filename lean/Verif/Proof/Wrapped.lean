import Verif.Props.Bitbucket
/- Helper lemmas for the two summaries that wrap a bit bucket behind a 2-byte header. -/
namespace Starbow
open Spec Bitbucket

theorem hdr2_ok {p : Bool} {r : Reader} {d : Bytes} (hr : Delivers p r d) (hl : 2 ≤ d.length) :
    ∃ r1, readFull r 2 [] = ((d.take 2, none), r1) ∧ Delivers p r1 (d.drop 2) := by
  obtain ⟨r1, h1, h2⟩ := readFull_ok (p := p) 2 2 [] d r (by simp) (by simp) hr hl
  exact ⟨r1, by simpa using h1, h2⟩

theorem hdr2_short {p : Bool} {r : Reader} {d : Bytes} (hr : Delivers p r d) (hl : d.length < 2) :
    ∃ r1 e, readFull r 2 [] = ((d, some e), r1) ∧
      (if e = Err.eof then Err.unexpectedEOF else e) = Err.unexpectedEOF := by
  obtain ⟨r1, h1⟩ := readFull_short (p := p) 2 2 [] d r (by simp) (by simp) hr hl
  refine ⟨r1, _, by simpa using h1, ?_⟩
  by_cases h : d = [] <;> simp [h]

/-- any proper prefix of a serialised bucket is refused -/
theorem Bitbucket.readFrom_truncated (b : BB) (hb : WF b) (b0 : BB) (p : Bool) (r : Reader) (k : Nat)
    (hk : k < lenOf b) (hr : Delivers p r ((writeTo b Writer.buffer).2.out.take k)) :
    ∃ b' rest, readFrom b0 r = .val (b', k, some .unexpectedEOF, rest) := by
  by_cases h10 : 10 ≤ k
  · exact Props.C06_truncated_data b hb b0 p r k h10 hk hr
  · have hl : ((writeTo b Writer.buffer).2.out.take k).length = k := by
      rw [List.length_take, (Props.C05_write b hb).2.1]; omega
    obtain ⟨rest, h⟩ := Props.C06_truncated_header b0 p r _ hr (by omega)
    rw [hl] at h
    exact ⟨b0, rest, h⟩

theorem Bitbucket.out_cons (b : BB) (k : Nat) : ∀ (pre : Bytes), pre.length = 2 →
    (pre ++ (writeTo b Writer.buffer).2.out).take 2 = pre ∧
    (pre ++ (writeTo b Writer.buffer).2.out).drop 2 = (writeTo b Writer.buffer).2.out := by
  intro pre h
  exact ⟨List.take_left' h, List.drop_left' h⟩

end Starbow
