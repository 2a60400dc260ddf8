import Verif.Model.Run
import Verif.Py.Path

/-! # Model of the commands of `Tests.exec_parsed` (`booktest/tests.py:406-512`)

`--forget`, `--garbage`, `--clean`, `-l` and `--path`. The review is in `Model/ReviewAll.lean`, the
configuration in `Model/Config.lean`, the runs in `Model/Run.lean` and `Model/Parallel.lean`. -/

namespace Verif.Model
open Verif.Py

/-! ### Listing -/

/-- What `-l` and, as file names, `--path` print (tests.py:440-441, 461-465, 481-484). -/
def listed {fl : Durations} (cfg : Config) (rs : List (Rec fl)) (cases : List Str) : List Str :=
  (doneAndTodo cfg rs cases).2

/-! ### Forgetting -/

/-- `--forget` (tests.py:491-494): the records that are kept. -/
def forgetRecords {fl : Durations} (rs : List (Rec fl)) (cases : List Str) : List (Rec fl) :=
  rs.filter (fun r => !cases.contains r.1)

/-- `--forget` (tests.py:491-494): what it does to the report (reports.py:172-182), or `none` if the report
cannot be decoded. The output directory exists; without it `open` raises. -/
def forget (u : Unicode) (fl : Durations) (cases : List Str) (file : Option Bytes) : Option (List (Ev fl)) :=
  (ofFile u fl file).map (fun rs => .truncate :: (forgetRecords rs cases).map .write)

/-! ### Garbage -/

/-- `is_garbage` (tests.py:406-412). -/
def isGarbage (notGarbage : List Str) (file : Str) : Bool :=
  !notGarbage.any (fun ng => ng == file || (endsWith ng "/".toList && startsWith file ng))

/-- The names that are not garbage (tests.py:416-420). -/
def liveNames (expDir : Str) (names : List Str) : List Str :=
  names.flatMap (fun n => [pathJoin expDir (n ++ ".md".toList), pathJoin expDir (n ++ "/".toList)]) ++
    [pathJoin expDir "index.md".toList]

/-- The name that `os.walk` gives to the file with the given path below the root (tests.py:421-423): it
joins the names of the directories one by one. -/
def walkPath (root : Str) (file : List Str) : Str := file.foldl pathJoin root

/-- `garbage` (tests.py:414-426), with the files below the root in the order of `os.walk`. Links to
directories, which `os.walk` does not follow, are not modelled. -/
def garbage (rootDir : Str) (names : List Str) (files : List (List Str)) : List Str :=
  (files.map (walkPath rootDir)).filter (isGarbage (liveNames rootDir names))

/-- The files that are left after `--clean` (tests.py:476-480). Removing a file is assumed to succeed. -/
def cleanFiles (rootDir : Str) (names : List Str) (files : List (List Str)) : List (List Str) :=
  files.filter (fun f => !(garbage rootDir names files).contains (walkPath rootDir f))

end Verif.Model
