import Verif.Py.Basic

/-! # Model of `booktest/tokenizer.py` -/

namespace Verif.Model
open Verif.Py

/-- `c == " " or c == "\t"` (tokenizer.py:30-31). -/
def isBlank (c : Char) : Bool := c = ' ' || c = '\t'

/-- The optional fraction of a number: `'.'` followed by at least one numeric character
(tokenizer.py:43-48).  Input: the text from position `i`; output: consumed part and rest. -/
def fraction (u : Unicode) : Str → Str × Str
  | c :: d :: cs =>
    if c = '.' && u.isNumeric d then
      (c :: (d :: cs).takeWhile u.isNumeric, (d :: cs).dropWhile u.isNumeric)
    else ([], c :: d :: cs)
  | s => ([], s)

/-- The number branch (tokenizer.py:36-50): optional sign, digits, optional fraction.
`none` when the text does not start with a number, in which case the Python code falls through
with `self.at` unchanged. -/
def number (u : Unicode) (s : Str) : Option (Str × Str) :=
  match s with
  | [] => none
  | c :: cs =>
    if c = '+' || c = '-' || u.isNumeric c then
      let sign : Str := if c = '+' || c = '-' then [c] else []
      let body : Str := if c = '+' || c = '-' then cs else c :: cs
      match body with
      | d :: _ =>
        if u.isNumeric d then
          let digits := body.takeWhile u.isNumeric
          let f := fraction u (body.dropWhile u.isNumeric)
          some (sign ++ digits ++ f.1, f.2)
        else none
      | [] => none
    else none

/-- `TestTokenizer.__next__` (tokenizer.py:25-57).  The cursor `at` into `buf` is represented by
the unread suffix of `buf`; `none` is `StopIteration`; otherwise the token and the new suffix.
Note the last case: on a NUL character neither branch advances the cursor, the token is `""`. -/
def Tokenizer.next (u : Unicode) (s : Str) : Option (Str × Str) :=
  match s with
  | [] => none
  | c :: cs =>
    if isBlank c then some ((c :: cs).takeWhile isBlank, (c :: cs).dropWhile isBlank)
    else match number u (c :: cs) with
      | some r => some r
      | none =>
        if u.isAlnum c then
          some ((c :: cs).takeWhile u.isAlnum, (c :: cs).dropWhile u.isAlnum)
        else if c ≠ '\x00' then some ([c], cs)
        else some ([], c :: cs)

/-- The loop `for t in TestTokenizer(text)` with an explicit bound on the iterations. -/
def tokenizeFuel (u : Unicode) : Nat → Str → Option (List Str)
  | 0, s => match Tokenizer.next u s with
    | none => some []
    | some _ => none
  | n + 1, s => match Tokenizer.next u s with
    | none => some []
    | some (t, r) => (tokenizeFuel u n r).map (t :: ·)

/-- All tokens of a text, `none` when the iteration never ends.  One iteration per character is
enough whenever every iteration advances; that `none` really means an infinite loop is proved
in `Verif.Props.Tokenizer` (C02). -/
def tokenize (u : Unicode) (s : Str) : Option (List Str) := tokenizeFuel u s.length s

/-- `BufferIterator` over a `TestTokenizer` (tokenizer.py:60-84).  `has_head` is `head.isSome`. -/
structure BufIter where
  head : Option Str
  rest : Str
deriving DecidableEq, Repr

/-- `self.head = next(self.iterator)` with `StopIteration` handling (tokenizer.py:78-83). -/
def BufIter.pull (u : Unicode) (s : Str) : BufIter :=
  match Tokenizer.next u s with
  | none => ⟨none, s⟩
  | some (t, r) => ⟨some t, r⟩

/-- `BufferIterator(TestTokenizer(s))` (tokenizer.py:61-66). -/
def BufIter.of (u : Unicode) (s : Str) : BufIter := BufIter.pull u s

/-- `BufferIterator.has_next` (tokenizer.py:71-72). -/
def BufIter.hasNext (b : BufIter) : Bool := b.head.isSome

/-- `BufferIterator.__next__` (tokenizer.py:74-84): returns the buffered head and buffers the next
token; `none` is `StopIteration`. -/
def BufIter.next (u : Unicode) (b : BufIter) : Option (Str × BufIter) :=
  match b.head with
  | none => none
  | some h => some (h, BufIter.pull u b.rest)

end Verif.Model
