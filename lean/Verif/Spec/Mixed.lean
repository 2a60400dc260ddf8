import Verif.Spec.Repeat
import Verif.Spec.Lines

/-! # Specification vocabulary for lines of checked and unchecked text (C75)

A test prints texts, each of them checked (`true`) or not.  The texts are cut into tokens; a checked
token is compared with the token at the same position of the snapshot line with the same number. -/

namespace Verif.Spec
open Verif.Py Verif.Model

/-- The texts a call prints and whether they are checked, for the calls that only print and do not
move in the snapshot, do not quote it, and mark nothing themselves. -/
def parts (u : Unicode) : Op → Option (List (Str × Bool))
  | .t x => some [(x, true)]
  | .i x => some [(x, false)]
  | .tln x => some [(x, true), (['\n'], true)]
  | .iln x => some [(x, false), (['\n'], false)]
  | .assertln true _ => some [("ok".toList, false), (['\n'], false)]
  | .must x true _ =>
    some [(" * MUST ".toList ++ x ++ "...".toList, false), ("ok".toList, false), (['\n'], false)]
  | .tlist is p => some (is.flatMap (fun i => [(p ++ i, true), (['\n'], true)]))
  | .tdf tb => some (
    [(barRow (tb.cols.map (fun c => (colWidth tb.rows c, c.1))), false), (['\n'], false),
     (barRow (tb.cols.map (fun c => (colWidth tb.rows c, List.replicate (colWidth tb.rows c) '-'))),
       true), (['\n'], true)] ++
    (List.range tb.rows).flatMap (fun i => (['|'], true) ::
      tb.cols.flatMap (fun c => [(cellShown u (c.2.getD i []), true),
        (List.replicate (colWidth tb.rows c - (cellShown u (c.2.getD i [])).length) ' ', false),
        (['|'], true)]) ++ [([], true), (['\n'], true)]))
  | _ => none

/-- The texts printed by a sequence of such calls. -/
def allParts (u : Unicode) : List Op → Option (List (Str × Bool))
  | [] => some []
  | o :: os => do
    let a ← parts u o
    let b ← allParts u os
    some (a ++ b)

/-- The tokens of the texts, text by text. -/
def partToks (u : Unicode) (ps : List (Str × Bool)) : List (Str × Bool) :=
  ps.flatMap (fun p => ((tokenize u p.1).getD []).map (fun t => (t, p.2)))

/-- The finished lines: each ends with its newline; a last line without a newline is left out. -/
def tokLines : List (Str × Bool) → List (List (Str × Bool))
  | [] => []
  | p :: ps =>
    if p.1 = ['\n'] then [p] :: tokLines ps
    else match tokLines ps with
      | [] => []
      | l :: ls => (p :: l) :: ls

/-- The `j`-th token of a snapshot line; behind its last token there are only newlines.  Behind the
last line of the snapshot there are no tokens. -/
def snapTok (u : Unicode) (x : Option Str) (j : Nat) : Option Str :=
  x.map (fun y => ((tokenize u y).getD []).getD j ['\n'])

/-- The index of the first checked token of a line that differs from the snapshot line `x`. -/
def firstBad (u : Unicode) (x : Option Str) (line : List (Str × Bool)) : Option Nat :=
  line.zipIdx.findIdx? (fun p => p.1.2 && decide (snapTok u x p.2 ≠ some p.1.1))

/-- The text of some tokens. -/
def toksText (l : List (Str × Bool)) : Str := (l.map (·.1)).flatten

/-- What becomes of a finished line that is the `k`-th of the output: its text, the `k`-th line of the
snapshot, and where the first difference is. -/
def comparedLine (u : Unicode) (ls : List Str) (p : List (Str × Bool) × Nat) : LogLine where
  text := toksText p.1.dropLast
  snapshot := ls[p.2]?
  err := false
  diff := (firstBad u ls[p.2]? p.1).isSome
  pos := match firstBad u ls[p.2]? p.1 with
    | some j => (toksText (p.1.take j)).length
    | none => 0

end Verif.Spec
