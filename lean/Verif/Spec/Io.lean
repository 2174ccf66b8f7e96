import Verif.Model.Io
/-
Specification vocabulary for readers: "the reader delivers the byte string d, cut into arbitrary
non-empty pieces, then ends".
-/
namespace Starbow.Spec

/-- `Delivers plain r d`: reading `r` to the end yields exactly the bytes `d`; no other error than the
final EOF occurs and no read returns `0, nil`. If `plain` is `false` the last piece may come together
with the EOF (as the io.Reader contract permits); if `true` the EOF comes in a read of its own. -/
inductive Delivers : Bool → Reader → Bytes → Prop where
  | nil (p : Bool) : Delivers p [] []
  | cons {p : Bool} {r : Reader} {d c : Bytes} (hc : c ≠ []) (h : Delivers p r d) :
      Delivers p (⟨c, none⟩ :: r) (c ++ d)
  | last (c : Bytes) : Delivers false [⟨c, some .eof⟩] c

end Starbow.Spec
