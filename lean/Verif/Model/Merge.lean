import Verif.Py.Dict
import Verif.Model.Parallel

/-! # Model of the merging of the workers' files in `booktest/runs.py`

A batch directory is the list of its files, in the order of `os.listdir`, with their texts.  Encodings
are not modelled. -/

namespace Verif.Model
open Verif.Py

/-- A directory: names and texts. -/
abbrev BatchDir := List (Str × Str)

/-- The body of the inner loop (runs.py:390-395). -/
def mergeFile (merged : Dict (List Str)) (f : Str × Str) : Dict (List Str) :=
  if endsWith f.1 ".txt".toList then
    merged.set f.1 ((merged.get f.1).getD [] ++ readFileLines f.2)
  else merged

/-- The body of the outer loop (runs.py:388-395); `none`: there is no such directory. -/
def mergeDir (merged : Dict (List Str)) : Option BatchDir → Dict (List Str)
  | none => merged
  | some files => files.foldl mergeFile merged

/-- `batch_dirs` (runs.py:240-244) and the loops (runs.py:387-395): the directories of the tests in the
order of the list of tests. -/
def mergeBatches (dirs : Str → Option BatchDir) (cases : List Str) : Dict (List Str) :=
  (cases.map (fun n => dirs (batchName n))).foldl mergeDir []

/-- The text of `write_lines` (reports.py:38-41). -/
def linesText (ls : List Str) : Str := join "\n".toList ls ++ "\n".toList

/-- The files written to the output directory (runs.py:397-399). -/
def mergedFiles (dirs : Str → Option BatchDir) (cases : List Str) : Dict Str :=
  ((mergeBatches dirs cases).filter (fun p => p.1 ≠ "cases.txt".toList)).map
    (fun p => (p.1, linesText p.2))

end Verif.Model
