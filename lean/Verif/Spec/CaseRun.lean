import Verif.Model.CaseRun

/-! # Specification vocabulary for test case runs -/

namespace Verif.Spec
open Verif.Py Verif.Model

/-- The calls that mark an error: `fail()`, a false assertion, an exceeded time limit. -/
def marksError : Op → Bool
  | .fail => true
  | .assertln c _ => !c
  | .must _ c _ => !c
  | .tmsln over _ _ => over
  | _ => false

/-- The calls that mark a difference on their own account (not by comparing a token): `diff()` and
`tset()`. -/
def marksDiff : Op → Bool
  | .diff => true
  | .tset _ _ => true
  | _ => false

/-- The calls that only show something: ignored text, a fulfilled assertion, a measured time within its
limit. -/
def ignored : Op → Bool
  | .i _ => true
  | .iln _ => true
  | .ifloatln _ _ => true
  | .assertln c _ => c
  | .must _ c _ => c
  | .tmsln over _ _ => !over
  | _ => false

/-- The calls whose printed text depends on the snapshot, because they quote the old value. -/
def quotesOld : Op → Bool
  | .ifloatln _ _ => true
  | .tmsln over _ _ => !over
  | _ => false

/-- The width of a table column: the longest of its name and the texts of its cells. -/
def colWidth (rows : Nat) (c : Str × List Str) : Nat :=
  ((c.1 :: (List.range rows).map (fun i => c.2.getD i [])).map List.length).foldr max 0

/-- A cell is shown on one line, without surrounding white space. -/
def cellShown (u : Unicode) (x : Str) : Str :=
  strip u (x.map (fun c => if c = '\r' ∨ c = '\n' then ' ' else c))

/-- A row of padded texts between bars. -/
def barRow (cells : List (Nat × Str)) : Str :=
  '|' :: (cells.map (fun c => c.2 ++ List.replicate (c.1 - c.2.length) ' ' ++ ['|'])).flatten

/-- The lines of a table: names, dashes, one line per row. -/
def tableLines (u : Unicode) (tb : Table) : List Str :=
  barRow (tb.cols.map (fun c => (colWidth tb.rows c, c.1))) ::
  barRow (tb.cols.map (fun c => (colWidth tb.rows c, List.replicate (colWidth tb.rows c) '-'))) ::
  (List.range tb.rows).map (fun i =>
    barRow (tb.cols.map (fun c => (colWidth tb.rows c, cellShown u (c.2.getD i [])))))

/-- The text a call prints, apart from the newline a header prints in front of itself. -/
def printed (u : Unicode) : Op → Str
  | .t x => x
  | .i x => x
  | .tln x => x ++ ['\n']
  | .iln x => x ++ ['\n']
  | .anchor x => x
  | .anchorln x => x ++ ['\n']
  | .header x => x ++ ['\n', '\n']
  | .diff => []
  | .fail => []
  | .assertln true _ => "ok\n".toList
  | .assertln false (some (c :: cs)) => c :: cs ++ ['\n']
  | .assertln false _ => "FAILED\n".toList
  | .must x true _ => " * MUST ".toList ++ x ++ "...ok\n".toList
  | .must x false (some (c :: cs)) => " * MUST ".toList ++ x ++ "...".toList ++ c :: cs ++ ['\n']
  | .must x false _ => " * MUST ".toList ++ x ++ "...FAILED\n".toList
  | .tlist is p => (is.map (fun i => p ++ i ++ ['\n'])).flatten
  | .tset is p => (is.map (fun i => p ++ i ++ ['\n'])).flatten
  | .keyvalueln k v => k ++ ' ' :: v ++ ['\n']
  | .ifloatln x (some un) => x ++ ' ' :: un ++ ['\n']
  | .ifloatln x none => x ++ ['\n']
  | .tmsln true f _ => f ++ ['\n']
  | .tmsln false _ x => x ++ " ms\n".toList
  | .tdf tb => ((tableLines u tb).map (· ++ ['\n'])).flatten

/-- The text printed by a sequence of calls after `before` has been printed: a header prints a
newline first unless nothing has been committed yet. -/
def printedAll (u : Unicode) : List Op → Str → Str
  | [], before => before
  | .header h :: os, before =>
    printedAll u os (before ++ (if '\n' ∈ before then ['\n'] else []) ++ printed u (.header h))
  | o :: os, before => printedAll u os (before ++ printed u o)

/-- The part of a text up to and including its last newline. -/
def upToLastNewline (s : Str) : Str := (s.reverse.dropWhile (· ≠ '\n')).reverse

/-- Number of lines with a difference, the open line included. -/
def diffMarks (s : St) : Nat := s.diffs + (if s.lineDiff.isSome then 1 else 0)
/-- Number of lines with an error, the open line included. -/
def errMarks (s : St) : Nat := s.errors + (if s.lineError.isSome then 1 else 0)

/-- Where an anchor with predicate `p` takes the cursor from line `k` (0-based, `ls.length` is the end
of the file): the first matching line at or after the cursor; if there is none, the first matching
line from the top; if there is none at all, it stays. -/
def AnchorTarget (p : Str → Bool) (ls : List Str) (k j : Nat) : Prop :=
  (∃ l, k ≤ j ∧ ls[j]? = some l ∧ p l = true ∧
    ∀ i x, k ≤ i → i < j → ls[i]? = some x → p x = false) ∨
  ((∀ i x, k ≤ i → ls[i]? = some x → p x = false) ∧
    ∃ l, ls[j]? = some l ∧ p l = true ∧ ∀ i x, i < j → ls[i]? = some x → p x = false) ∨
  ((∀ l ∈ ls, p l = false) ∧ j = k)

/-- A test that prints whole lines, each checked (`true`, `tln`) or not (`false`, `iln`). -/
def lineOps (ps : List (Bool × Str)) : List Op :=
  ps.map (fun p => if p.1 then .tln p.2 else .iln p.2)

/-- Line by line: is the line checked and different from the snapshot line with the same number
(or is there no such line)? -/
def differs (ls : List Str) (ps : List (Bool × Str)) : List Bool :=
  ps.zipIdx.map (fun p => p.1.1 && decide (ls[p.2]? ≠ some p.1.2))

/-- A line of the case report: a line that differs is shown with the snapshot line beside it. -/
def reportLine (ls : List Str) (p : (Bool × Str) × Nat) : Str :=
  if p.1.1 && decide (ls[p.2]? ≠ some p.1.2) then
    "? ".toList ++ p.1.2 ++ List.replicate (60 - p.1.2.length) ' ' ++ " | ".toList ++
      (ls[p.2]?).getD "EOF".toList
  else "  ".toList ++ p.1.2

/-- A line of text that can be printed: no newline inside, and no NUL (on which the tokenizer
hangs). -/
def PlainLine (l : Str) : Prop := '\n' ∉ l ∧ '\x00' ∉ l

/-- What is known about one committed line: its text, the snapshot line beside it, whether an error
and whether a difference was marked on it, and the column of the first mark. -/
structure LogLine where
  text : Str
  snapshot : Option Str
  err : Bool
  diff : Bool
  pos : Nat

/-- The line(s) of the case report for a committed line: one, and a second one with a caret below
marked lines if that is switched on. -/
def LogLine.shown (point : Bool) (l : LogLine) : List Str :=
  if l.err || l.diff then
    [(if l.err then "! ".toList else "? ".toList) ++ l.text ++
        List.replicate (60 - l.text.length) ' ' ++ " | ".toList ++ l.snapshot.getD "EOF".toList] ++
      (if point then ["  ".toList ++ List.replicate l.pos ' ' ++ ['^']] else [])
  else ["  ".toList ++ l.text]

end Verif.Spec
