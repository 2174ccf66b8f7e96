import Verif.Model.Collation
/-
Vocabulary for the query properties: texts of the form
  select m(f), m(f) where k='v' and k='v'
described piece by piece, and what they mean. Nothing here mentions regular expressions.
-/
namespace Starbow.Spec
open Starbow.Collation

/-- white space: tab, newline, form feed, carriage return, space -/
def Space (b : Byte) : Prop := b = 0x09 ∨ b = 0x0a ∨ b = 0x0c ∨ b = 0x0d ∨ b = 0x20

instance (b : Byte) : Decidable (Space b) := by unfold Space; infer_instance

/-- lower case of an ASCII letter -/
def lower (b : Byte) : Byte := if 0x41 ≤ b ∧ b ≤ 0x5a then b + 0x20 else b

/-- `s` is the word `w` (given in lower case) in some mixture of upper and lower case -/
def Spells (w s : Bytes) : Prop := s.map lower = w

/-- a text consisting of white space only, at least one -/
def Gap (s : Bytes) : Prop := s ≠ [] ∧ ∀ b ∈ s, Space b

/-- the word `where` (any case), with white space on both sides, occurs in the text -/
def MentionsWhere (s : Bytes) : Prop :=
  ∃ a x w y b, s = a ++ x :: (w ++ y :: b) ∧ Space x ∧ Space y ∧ Spells (asc "where") w

/-- one selection: a measure of a field -/
structure Sel where
  m : Bytes
  f : Bytes
  deriving Repr, DecidableEq

/-- the text of a selection: `m(f)` -/
def Sel.text (s : Sel) : Bytes := s.m ++ asc "(" ++ s.f ++ asc ")"

/-- a name that can stand in a selection: not empty; no comma, white space or parenthesis -/
def PlainName (s : Bytes) : Prop := s ≠ [] ∧ ∀ b ∈ s, ¬ Space b ∧ b ≠ 0x2c ∧ b ≠ 0x28 ∧ b ≠ 0x29

/-- what may stand between two selections: commas and white space other than newlines, at least one -/
def SelSep (s : Bytes) : Prop := s ≠ [] ∧ ∀ b ∈ s, (Space b ∨ b = 0x2c) ∧ b ≠ 0x0a

/-- the text of a criterion: `k='v'` -/
def critText (c : FV) : Bytes := c.f ++ asc "='" ++ c.v ++ asc "'"

/-- a criterion that can be written: the field name is not empty and without white space and quotes; the value is not empty and without
quotes and newlines, does not mention `where` as a separate word inside, and does not end in `=` -/
structure PlainCrit (c : FV) : Prop where
  f_ne : c.f ≠ []
  f_plain : ∀ b ∈ c.f, ¬ Space b ∧ b ≠ 0x27
  v_ne : c.v ≠ []
  v_plain : ∀ b ∈ c.v, b ≠ 0x27 ∧ b ≠ 0x0a
  v_where : ¬ MentionsWhere c.v
  v_end : c.v.getLast? ≠ some 0x3d

/-- what may stand between two criteria: anything without quotes and newlines that ends in white space and does not mention `where`,
such as ` and ` -/
structure CritSep (s : Bytes) : Prop where
  plain : ∀ b ∈ s, b ≠ 0x27 ∧ b ≠ 0x0a
  ends : ∃ a x, s = a ++ [x] ∧ Space x
  no_where : ¬ MentionsWhere s

/-- the pieces of a query text -/
structure QText where
  /-- white space before `select` -/
  lead : Bytes
  /-- the word `select` -/
  kwSelect : Bytes
  gap1 : Bytes
  /-- the first selection -/
  sel : Sel
  /-- further selections, each with the separator before it -/
  sels : List (Bytes × Sel)
  gap2 : Bytes
  /-- the word `where` -/
  kwWhere : Bytes
  gap3 : Bytes
  /-- the first criterion -/
  crit : FV
  /-- further criteria, each with the separator before it -/
  crits : List (Bytes × FV)
  /-- white space at the end -/
  trail : Bytes

/-- the selections, in order -/
def QText.selections (q : QText) : List Sel := q.sel :: q.sels.map Prod.snd

/-- the criteria, in order -/
def QText.criteria (q : QText) : List FV := q.crit :: q.crits.map Prod.snd

/-- the text itself -/
def QText.text (q : QText) : Bytes :=
  q.lead ++ q.kwSelect ++ q.gap1 ++ q.sel.text ++ q.sels.flatMap (fun p => p.1 ++ p.2.text) ++ q.gap2 ++ q.kwWhere ++ q.gap3 ++
    critText q.crit ++ q.crits.flatMap (fun p => p.1 ++ critText p.2) ++ q.trail

/-- all pieces are of the form described -/
structure QText.Ordinary (q : QText) : Prop where
  lead : ∀ b ∈ q.lead, Space b
  kwSelect : Spells (asc "select") q.kwSelect
  gap1 : Gap q.gap1
  sel : PlainName q.sel.m ∧ PlainName q.sel.f
  sels : ∀ p ∈ q.sels, SelSep p.1 ∧ PlainName p.2.m ∧ PlainName p.2.f
  gap2 : Gap q.gap2
  kwWhere : Spells (asc "where") q.kwWhere
  gap3 : Gap q.gap3
  crit : PlainCrit q.crit
  crits : ∀ p ∈ q.crits, CritSep p.1 ∧ PlainCrit p.2
  trail : ∀ b ∈ q.trail, Space b

/-- `fms` lists exactly the selections, grouped by field: every field once, with its measures in the order they were selected -/
def GroupsOf (sels : List Sel) (fms : List FM) : Prop :=
  (fms.map FM.f).Nodup ∧
  ∀ f ms, ⟨f, ms⟩ ∈ fms ↔ ms ≠ [] ∧ ms = (sels.filter fun s => s.f = f).map Sel.m

/-- the byte sequences that match a letter of a keyword regardless of case: for s also U+017F -/
def LetterOf (c : Byte) (s : Bytes) : Prop := s = [c] ∨ s = [c - 0x20] ∨ (c = 0x73 ∧ s = [0xc5, 0xbf])

/-- a keyword written in any case, each s possibly as U+017F -/
inductive Keyword : Bytes → Bytes → Prop where
  | nil : Keyword [] []
  | cons {c : Byte} {w a s : Bytes} : LetterOf c a → Keyword w s → Keyword (c :: w) (a ++ s)

/-- the text has the shape `select X where Y` -/
def HasShape (t : Bytes) : Prop :=
  ∃ lead sel gap1 x gap2 wh gap3 y trail, t = lead ++ sel ++ gap1 ++ x ++ gap2 ++ wh ++ gap3 ++ y ++ trail ∧
    (∀ b ∈ lead, Space b) ∧ Keyword (asc "select") sel ∧ Gap gap1 ∧ (x ≠ [] ∧ 0x0a ∉ x) ∧ Gap gap2 ∧ Keyword (asc "where") wh ∧ Gap gap3 ∧
    (y ≠ [] ∧ 0x0a ∉ y) ∧ ∀ b ∈ trail, Space b

end Starbow.Spec
