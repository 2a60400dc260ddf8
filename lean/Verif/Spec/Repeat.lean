import Verif.Spec.CaseRun

/-! # Specification vocabulary for repeated runs (C08)

A test prints *pieces*: each text handed to the tokenizer by one call.  A run can be repeated if no
token straddles two pieces (the snapshot is read line by line, so there it would be one token), and
if anchors and sets are used at the beginning of a line. -/

namespace Verif.Spec
open Verif.Py Verif.Model

/-- The texts a call hands to the tokenizer one after the other, apart from the newline a header
prints first. -/
def pieces (u : Unicode) : Op → List Str
  | .t x => [x]
  | .i x => [x]
  | .tln x => [x, ['\n']]
  | .iln x => [x, ['\n']]
  | .anchor x => [x]
  | .anchorln x => [x, ['\n']]
  | .header x => [x, ['\n'], [], ['\n']]
  | .assertln true _ => ["ok".toList, ['\n']]
  | .must x true _ => [" * MUST ".toList ++ x ++ "...".toList, "ok".toList, ['\n']]
  | .tlist is p => is.flatMap (fun i => [p ++ i, ['\n']])
  | .tset is p => is.flatMap (fun i => [p ++ i, ['\n']])
  | .keyvalueln k v => [k, ' ' :: v, ['\n']]
  | .tdf tb =>
    [barRow (tb.cols.map (fun c => (colWidth tb.rows c, c.1))), ['\n'],
     barRow (tb.cols.map (fun c => (colWidth tb.rows c, List.replicate (colWidth tb.rows c) '-'))),
     ['\n']] ++
    (List.range tb.rows).flatMap (fun i => ['|'] ::
      tb.cols.flatMap (fun c => [cellShown u (c.2.getD i []),
        List.replicate (colWidth tb.rows c - (cellShown u (c.2.getD i [])).length) ' ', ['|']]) ++
      [[], ['\n']])
  | _ => []

/-- The newline a header prints first, unless no line is finished yet. -/
def lead (before : Str) : Op → List Str
  | .header _ => if '\n' ∈ before then [['\n']] else []
  | _ => []

/-- All pieces of a test after `before` has been printed. -/
def allPieces (u : Unicode) : List Op → Str → List Str
  | [], _ => []
  | o :: os, before =>
    lead before o ++ pieces u o ++
      allPieces u os (before ++ (lead before o ++ pieces u o).flatten)

/-- The tokens of the pieces, piece by piece. -/
def pieceToks (u : Unicode) : List Str → Option (List Str)
  | [] => some []
  | p :: ps => do
    let a ← tokenize u p
    let b ← pieceToks u ps
    some (a ++ b)

/-- No token straddles two pieces: cutting the pieces into tokens one by one gives the tokens of the
whole text. -/
def Aligned (u : Unicode) (ps : List Str) : Prop :=
  ∃ ts, pieceToks u ps = some ts ∧ tokenize u ps.flatten = some ts

/-- Nothing has been printed on the current line. -/
def AtLineStart (before : Str) : Prop := before = [] ∨ ∃ b, before = b ++ ['\n']

/-- The text up to the first newline. -/
def firstLine (x : Str) : Str := x.takeWhile (· ≠ '\n')

/-- When a call can be repeated, given what is printed before and after it: it marks nothing itself
and does not quote the snapshot; anchors and sets are at the beginning of a line; a set has no
duplicates and is not followed by a line with the same prefix. -/
def Repeats (before after : Str) : Op → Prop
  | .anchor _ => AtLineStart before
  | .anchorln _ => AtLineStart before
  | .keyvalueln _ _ => AtLineStart before
  | .header _ => '\n' ∈ before ∨ before = []
  | .tset is p => AtLineStart before ∧ is.Nodup ∧ (∀ i ∈ is, '\n' ∉ p ++ i) ∧
      ('\n' ∉ after ∨ ¬ p <+: firstLine after)
  | .diff => False
  | .fail => False
  | .assertln c _ => c = true
  | .must _ c _ => c = true
  | .ifloatln _ _ => False
  | .tmsln _ _ _ => False
  | _ => True

/-- All calls of the test can be repeated. -/
def AllRepeat (u : Unicode) : List Op → Str → Prop
  | [], _ => True
  | o :: os, before =>
    let b := before ++ (lead before o ++ pieces u o).flatten
    Repeats before (allPieces u os b).flatten o ∧ AllRepeat u os b

/-- A text without NUL and carriage return. -/
def Clean (x : Str) : Prop := '\x00' ∉ x ∧ '\r' ∉ x

/-- A table whose column names are clean and whose cells contain no NUL. -/
def PlainTable (tb : Table) : Prop := ∀ c ∈ tb.cols, Clean c.1 ∧ ∀ x ∈ c.2, '\x00' ∉ x

/-- Calls that print whole lines and mark nothing themselves. -/
def LineCall : Op → Prop
  | .tln x => Clean x
  | .iln x => Clean x
  | .anchorln x => Clean x
  | .header x => Clean x
  | .assertln c _ => c = true
  | .must x c _ => c = true ∧ Clean x
  | .tlist is p => ∀ i ∈ is, Clean (p ++ i)
  | .keyvalueln k v => Clean k ∧ Clean v ∧
      (k = [] ∨ ∃ y, k.getLast? = some y ∧ y ≠ ' ' ∧ y ≠ '\t')
  | .tdf tb => PlainTable tb
  | _ => False

end Verif.Spec
