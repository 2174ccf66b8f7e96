import Verif.Model.Basic
/-
Vocabulary for the property about reading answers back: what a client that looks at the body of an answer takes it for. Nothing here mentions the
server.
-/
namespace Starbow.Spec
open Starbow

/-- a line of an answer, without the newline -/
inductive AnswerLine where
  /-- `f=v` -/
  | criterion (f v : Bytes)
  /-- `m(f)=v` -/
  | result (m f v : Bytes)
  deriving Repr, DecidableEq

/-- as it is written -/
def AnswerLine.text : AnswerLine → Bytes
  | .criterion f v => f ++ asc "=" ++ v
  | .result m f v => m ++ asc "(" ++ f ++ asc ")=" ++ v

/-- no `=`, no `(` and no newline -/
def PlainField (s : Bytes) : Prop := ∀ b ∈ s, b ≠ 0x3d ∧ b ≠ 0x28 ∧ b ≠ 0x0a

/-- the parts are such that the line can be told apart: a criterion's name has no `=` and no `(`; a measure's name neither; a printed number has no `)`;
and nothing has a newline. (The name of the field of a measure may have anything else.) -/
def AnswerLine.Plain : AnswerLine → Prop
  | .criterion f v => PlainField f ∧ 0x0a ∉ v
  | .result m f v => PlainField m ∧ 0x0a ∉ f ∧ 0x0a ∉ v ∧ 0x29 ∉ v

/-- the body can be taken for these lines -/
def Reads (body : Bytes) (ls : List AnswerLine) : Prop := (∀ l ∈ ls, l.Plain) ∧ body = ls.flatMap fun l => l.text ++ asc "\n"

end Starbow.Spec
