import Verif.Model.Shell
import Verif.Model.Parallel
import Verif.Model.Worker

/-! # Model of the batch directories of a parallel run -/

namespace Verif.Model
open Verif.Py

/-- `os.makedirs(p, exist_ok=True)`: raises an exception if a file is in the way (the directories made
before it is noticed are left out of the model). -/
def makedirs (p : Path) (fs : FS) : Except FsErr FS :=
  if (mkdirs fs p).isDir p then .ok (mkdirs fs p) else .error .notADirectory

/-- The directory of the batches (runs.py:25-29, 131-134). -/
def batchesDir (outDir : Str) : Str := pathJoin outDir ".batches".toList

/-- The batch directory of a test (`case_batch_dir_and_report_file`, runs.py:101-104). -/
def batchDirOf (outDir name : Str) : Str := pathJoin (batchesDir outDir) (batchName name)

/-- The directories that `ParallelRunner` makes for the tests (runs.py:156, 163-164). -/
def makeBatchDirs (cwd : Path) (outDir : Str) : List Str → FS → Except FsErr FS
  | [], fs => .ok fs
  | name :: names, fs =>
    match makedirs (resolve cwd (batchDirOf outDir name)) fs with
    | .error x => .error x
    | .ok fs => makeBatchDirs cwd outDir names fs

/-- `ParallelRunner.__init__` (runs.py:131-136, 156, 163-164): the directories. -/
def runnerDirs (cwd : Path) (outDir : Str) (cases : List Str) (fs : FS) : Except FsErr FS :=
  match makedirs (resolve cwd (batchesDir outDir)) fs with
  | .error x => .error x
  | .ok fs => makeBatchDirs cwd outDir cases fs

/-- The files when the workers of a parallel run are started (runs.py:297-305, before the loop): `none` if the shell
command is not modelled. -/
def startBatches (cwd : Path) (outDir : Str) (cases : List Str) (fs : FS) : Option (Except FsErr FS) :=
  match prepareBatchDir cwd outDir fs with
  | none => none
  | some (.error ()) => some (.error .invalid)
  | some (.ok fs) => some (runnerDirs cwd outDir cases fs)

/-- The report in the batch directory of a test (runs.py:230-231). -/
def batchReport (cwd : Path) (outDir name : Str) (fs : FS) : Option Bytes :=
  match fs.get (resolve cwd (batchDirOf outDir name) ++ ["cases.txt".toList]) with
  | some (.file text) => some (encode text)
  | _ => none

/-- What a worker does to the report of its batch if there is one already (runs.py:80-91,
testrun.py:112-191). -/
def workerOver (u : Unicode) (fl : Durations) (cfg : Config) (outcome : List Str → Str → Outcome fl)
    (case : Str) (file : Option Bytes) : List (Ev fl) × Option Result :=
  runAsync u fl (jobConfig cfg) outcome [case] file

end Verif.Model
