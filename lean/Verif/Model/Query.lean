import Verif.Model.Collation
/-
Model of /repo/internal/query/rough.go: the three regular expressions, Go's way of matching them, and `RoughParse`.

Go's `regexp` package is not in /repo. What is modelled is its documented meaning for the expressions used here: of all matches of
an expression at a position, the one "a backtracking engine would have found first" (leftmost-first semantics), a search returns the
leftmost match, and `FindAll` returns successive non-overlapping matches.

Simplifications:
* Go matches runes, the model matches bytes. Every class in the three expressions is, or is the complement of, a set of ASCII
  characters, and every complement contains U+FFFD (as which an invalid byte is read), so a rune belongs to a class exactly if all
  its bytes do; all boundaries between parts of the expressions are next to an ASCII character or at an end of the text, so no
  match can end inside a rune. The one other rune involved is U+017F (long s), which `(?i)s` also matches; its two bytes C5 BF are
  spelled out.
* repetition is only needed for character classes, so `star` takes a class.
-/
namespace Starbow.Query
open Starbow Starbow.Collation

/-- regular expressions, as far as rough.go:11-13 need them -/
inductive Re where
  /-- one character of a class -/
  | cls (p : Byte → Bool)
  | seq (a b : Re)
  | alt (a b : Re)
  /-- `p*`, greedy -/
  | star (p : Byte → Bool)
  /-- a capturing group -/
  | group (a : Re)
  /-- `$` -/
  | eol

/-- the ways `p*` can match at the start of the text, as what is left of the text, longest match first -/
def starRun (p : Byte → Bool) : Bytes → List Bytes
  | [] => [[]]
  | b :: s => if p b then starRun p s ++ [b :: s] else [b :: s]

/-- all the ways an expression matches at the start of a text, in the order in which a backtracking engine tries them: what is left of
the text, and the captured groups in order -/
def Re.run : Re → Bytes → List (Bytes × List Bytes)
  | .cls _, [] => []
  | .cls p, b :: s => if p b then [(s, [])] else []
  | .seq a b, s => (a.run s).flatMap fun x => (b.run x.1).map fun y => (y.1, x.2 ++ y.2)
  | .alt a b, s => a.run s ++ b.run s
  | .star p, s => (starRun p s).map fun r => (r, [])
  | .group a, s => (a.run s).map fun x => (x.1, s.take (s.length - x.1.length) :: x.2)
  | .eol, s => if s = [] then [(s, [])] else []

/-- `FindStringSubmatch` for an expression that starts with `^`: the groups of the first match at the start of the text -/
def submatch (r : Re) (s : Bytes) : Option (List Bytes) := ((r.run s).head?).map Prod.snd

/-- `FindAllStringSubmatch(s, -1)`: the groups of the leftmost first match, then those of the matches in the rest. (The expressions it is
used for match no empty text; Go treats empty matches specially, the model stops at one.) -/
def findAll (r : Re) (s : Bytes) : List (List Bytes) :=
  match (r.run s).head? with
  | some (rest, caps) => if rest.length < s.length then caps :: findAll r rest else []
  | none =>
    match s with
    | [] => []
    | _ :: t => findAll r t
termination_by s.length

/-- `\s`: tab, newline, form feed, carriage return, space -/
def ws (b : Byte) : Bool := b == 0x09 || b == 0x0a || b == 0x0c || b == 0x0d || b == 0x20

/-- `x+` is `xx*` -/
def plus (p : Byte → Bool) : Re := .seq (.cls p) (.star p)

/-- the character `c` -/
def lit (c : Byte) : Re := .cls fun b => b == c

/-- the letter `c` (given in lower case) under `(?i)`: either case; for s also the two bytes of U+017F -/
def letter (c : Byte) : Re :=
  if c = 0x73 then .alt (.cls fun b => b == 0x73 || b == 0x53) (.seq (lit 0xc5) (lit 0xbf))
  else .cls fun b => b == c || b == c - 0x20

/-- a word under `(?i)`, followed by `r` -/
def word : Bytes → Re → Re
  | [], r => r
  | c :: cs, r => .seq (letter c) (word cs r)

/-- `.`: anything but a newline -/
def dot (b : Byte) : Bool := b != 0x0a

/-- rough.go:11 `(?i)^\s*select\s+(.+)\s+where\s+(.+)\s*$`, after the `^` -/
def queryRe : Re :=
  .seq (.star ws) (word (asc "select") (.seq (plus ws) (.seq (.group (plus dot))
    (.seq (plus ws) (word (asc "where") (.seq (plus ws) (.seq (.group (plus dot)) (.seq (.star ws) .eol))))))))

/-- `[^,\s]` -/
def selCls (b : Byte) : Bool := !(b == 0x2c || ws b)

/-- rough.go:12 `([^,\s]+)\(([^,\s]+)\)` -/
def selectRe : Re := .seq (.group (plus selCls)) (.seq (lit 0x28) (.seq (.group (plus selCls)) (lit 0x29)))

/-- `\S` -/
def nonWs (b : Byte) : Bool := !ws b

/-- `[^']` -/
def notQuote (b : Byte) : Bool := b != 0x27

/-- rough.go:13 `(\S+)='([^']+)'` -/
def whereRe : Re := .seq (.group (plus nonWs)) (.seq (lit 0x3d) (.seq (lit 0x27) (.seq (.group (plus notQuote)) (lit 0x27))))

/-- rough.go:32 `fields[f] = append(fields[f], m)`; the Go map as the list of its entries, in order of first insertion -/
def addField (fields : List FM) (f m : Bytes) : List FM :=
  match fields with
  | [] => [⟨f, [m]⟩]
  | e :: es => if e.f = f then ⟨f, e.m ++ [m]⟩ :: es else e :: addField es f m

/-- rough.go:27-33: the selections; `none` stands for the error of line 30 -/
def collect : List (List Bytes) → List FM → Option (List FM)
  | [], fields => some fields
  | s :: ss, fields =>
    match s with
    | [m, f] => collect ss (addField fields f m)
    | _ => none

/-- rough.go:39-45: the criteria; `none` stands for the error of line 42 -/
def criteria : List (List Bytes) → Option (List FV)
  | [] => some []
  | w :: ws =>
    match w with
    | [f, v] => (criteria ws).map (⟨f, v⟩ :: ·)
    | _ => none

/-- rough.go:17-48 `RoughParse`. `ord` is the order in which line 35 iterates over the map of fields: Go leaves it open. -/
def roughParse (ord : List FM → List FM) (s : Bytes) : Except Err Query :=
  match submatch queryRe s with
  | some [sel, wh] =>
    match collect (findAll selectRe sel) [] with
    | none => .error .syntaxErr
    | some fields =>
      match criteria (findAll whereRe wh) with
      | none => .error .syntaxErr
      | some crit => .ok ⟨ord fields, crit⟩
  | _ => .error .syntaxErr

end Starbow.Query
