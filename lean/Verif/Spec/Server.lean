import Verif.Model.Server
import Verif.Spec.Store
import Verif.Spec.Query
/-
Vocabulary for the server properties: observation lines, bodies made of lines, requests.
-/
namespace Starbow.Spec
open Starbow.Collation Starbow.Storage Starbow.Server

/-- a decimal digit -/
def Digit (b : Byte) : Prop := 0x30 ≤ b ∧ b ≤ 0x39

instance (b : Byte) : Decidable (Digit b) := by unfold Digit; infer_instance

/-- the number a string of digits stands for: the last digit counts once, the one before ten times, and so on -/
def decimalValue : Bytes → Nat
  | [] => 0
  | b :: s => (b.toNat - 0x30) * 10 ^ s.length + decimalValue s

/-- the text of a field: `name=value` -/
def fieldText (f : FV) : Bytes := f.f ++ asc "=" ++ f.v

/-- the line: the timestamp, then each field after the delimiter -/
def obsLine (ts : Bytes) (d : Byte) (fs : List FV) : Bytes := ts ++ fs.flatMap fun f => d :: fieldText f

/-- what a piece of a line between delimiters says: the name is what stands before the first `=` (everything if there is none), the value is
what stands after it -/
def fieldOf (t : Bytes) : FV := ⟨t.takeWhile (· ≠ 0x3d), (t.dropWhile (· ≠ 0x3d)).drop 1⟩

/-- the timestamp of a line: the digits at its start, at most 20 of them -/
def leadingDigits (line : Bytes) : Bytes := (line.takeWhile fun b => Digit b).take 20

/-- posting a body as it is (no Content-Type header, no cancellation, the body arrives completely) -/
def post (body : Bytes) : Request := { method := asc "POST", path := asc "/obs", body := ⟨body, none, false⟩ }

/-- lines, each ended by a newline -/
def unlines (ls : List Bytes) : Bytes := ls.flatMap fun l => l ++ [0x0a]

/-- a line of a body: no newline inside, and short enough for the scanner's buffer -/
def LineOk (l : Bytes) : Prop := (0x0a ∉ l) ∧ l.length ≤ 65535

/-- the line without the carriage return at its end, if there is one -/
def noCR (l : Bytes) : Bytes := if l.getLast? = some 0x0d then l.dropLast else l

/-- requests one after the other, until one is not answered with 200 -/
def inOrder (env : Env) (sts : List Store) : List Request → List Store × Reply
  | [] => (sts, Reply.ok [])
  | r :: rs => if (Server.serve env sts r).2 = Reply.ok [] then inOrder env (Server.serve env sts r).1 rs else Server.serve env sts r

/-- querying a collation by GET -/
def askFor (name q : Bytes) : Request :=
  { method := asc "GET", path := asc "/collation/" ++ name, form := fun k => if k = asc "q" then q else [] }

/-! ### histories of the server -/

/-- an observation as a client writes it down: timestamp, delimiter, fields -/
structure Line where
  ts : Bytes
  d : Byte
  fs : List FV

/-- its text -/
def Line.text (l : Line) : Bytes := obsLine l.ts l.d l.fs

/-- it is written correctly: digits at the start (a time before 11 April 2262), a delimiter that is no digit and not `=`, which occurs neither in
names nor in values, no `=` in names; and as a line of a body: no newline, no carriage return at its end, at most 65535 bytes -/
structure Line.Correct (l : Line) : Prop where
  ts_ne : l.ts ≠ []
  ts_digits : ∀ b ∈ l.ts, Digit b
  ts_short : l.ts.length ≤ 20
  ts_small : decimalValue l.ts * 1000 < 2 ^ 63
  d_nodigit : ¬ Digit l.d
  d_noeq : l.d ≠ 0x3d
  fields : ∀ f ∈ l.fs, (l.d ∉ f.f) ∧ (0x3d ∉ f.f) ∧ l.d ∉ f.v
  no_newline : 0x0a ∉ l.text
  no_cr : l.text.getLast? ≠ some 0x0d
  fits : l.text.length ≤ 65535

/-- what clients do: post observations, any number in one request, or make any other request -/
inductive Step where
  | posted (ls : List Line)
  | other (req : Request)

/-- the request made -/
def Step.request : Step → Request
  | .posted ls => post (unlines (ls.map Line.text))
  | .other req => req

/-- the observations are correct; the other requests are not posts of observations -/
def Step.Correct : Step → Prop
  | .posted ls => ∀ l ∈ ls, l.Correct
  | .other req => ¬ (req.path = asc "/obs" ∧ req.method = asc "POST")

/-- the request was accepted, if it was a post of observations -/
def Step.Accepted : Step → Reply → Prop
  | .posted _, r => r = .ok []
  | .other _, _ => True

/-- the observations (their fields) posted in a history, in order -/
def observations : List Step → List (List FV)
  | [] => []
  | .posted ls :: steps => ls.map Line.fs ++ observations steps
  | .other _ :: steps => observations steps

/-- `l` is a line of the text: between newlines or the ends of the text -/
def LineOf (text l : Bytes) : Prop :=
  ∃ before after, text = before ++ (l ++ after) ∧ (0x0a ∉ l) ∧ (before = [] ∨ before.getLast? = some 0x0a) ∧
    (after = [] ∨ after.head? = some 0x0a)

end Starbow.Spec
