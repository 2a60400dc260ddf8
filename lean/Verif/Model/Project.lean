import Verif.Model.Review
import Verif.Model.Run
import Verif.Model.Index

/-! # Model of whole runs: test functions, files, reviews and the report together

This file puts the models of `TestCaseRun`, of the review step, of the run loop and of the index
together: a run starts from a file system and a case report, executes test functions, and leaves a
file system and a case report.

Simplifications: the test functions are deterministic and have no arguments; they write files only
through `t.file` (plain file names) and do not touch the file system otherwise; the output files are
written at once when the test ends; the console output, the temporary files and `metrics.json` are
left out; test names contain no characters that are special to the shell (`mkdir -p {dir}` is run
by a shell) and no empty parts. The case report is kept beside the file system, as the bytes of
`cases.txt`. -/

namespace Verif.Model
open Verif.Py

/-! ### File operations -/

/-- `mkdir -p`, for the components below a directory: stops at a file that is in the way. -/
def mkdirsFrom (fs : FS) (base : Path) : List Str → FS
  | [] => fs
  | c :: cs =>
    match fs.get (base ++ [c]) with
    | some (.file _) => fs
    | some .dir => mkdirsFrom fs (base ++ [c]) cs
    | none => mkdirsFrom ((base ++ [c], .dir) :: fs) (base ++ [c]) cs

/-- `os.system(f"mkdir -p {p}")`. -/
def mkdirs (fs : FS) (p : Path) : FS := mkdirsFrom fs [] p

/-- `open(p, "w")`, writing a text and closing the file. -/
def openW (p : Path) (text : Str) (fs : FS) : Except FsErr FS :=
  match fs.get p with
  | some .dir => .error .isADirectory
  | _ => if fs.isDir p.dropLast then .ok (fs.write p text) else .error .notFound

/-- `os.mkdir(p)`. -/
def mkdir (p : Path) (fs : FS) : Except FsErr FS :=
  if fs.exists_ p then .error .invalid
  else if fs.isDir p.dropLast then .ok ((p, .dir) :: fs) else .error .notFound

/-! ### One test -/

/-- A test function: its calls, the files it writes through `t.file`, the text that goes to its log,
and the value it returns (`none` for `None`, else as it is pickled). -/
structure TestFn where
  body : Test
  files : List (Str × Str)
  log : Str
  returns : Option Str

/-- A project: how texts are compared, the directory of the books, and the test functions. -/
structure Project where
  u : Unicode
  pointErrorPos : Bool
  refmt : Str → Option Str
  root : Path
  tests : Str → TestFn

/-- `out_dir = os.path.join(root_dir, ".out")` (tests.py:360). -/
def Project.out (P : Project) : Path := P.root ++ [".out".toList]

/-- The path of a file of a test in a directory: `path.join(base_dir, name + ext)`
(testcaserun.py:49-71, tests.py:53). -/
def filePath (d : Path) (name ext : Str) : Path := d ++ split '/' (name ++ ext)

/-- The directory of a test's files: `path.join(d, relative_dir)` (testcaserun.py:28, 47, 58). -/
def baseDir (d : Path) (name : Str) : Path := d ++ (split '/' name).dropLast

/-- The snapshot that is read: `none` if there is none. -/
def snapshotText (fs : FS) (p : Path) : Option Str :=
  match fs.get p with
  | some (.file c) => some c
  | _ => none

/-- The environment in which the calls of a test are executed. -/
def Project.env (P : Project) (snapshot : Option Str) : Env :=
  ⟨P.u, snapshot, P.pointErrorPos, P.refmt⟩

/-- `t.file(name)` and writing the file (testcaserun.py:143-154). -/
def writeFile (out : Path) (name : Str) (f : Str × Str) (fs : FS) : Except FsErr FS :=
  if fs.exists_ (dirPath out name) then openW (dirPath out name ++ [f.1]) f.2 fs
  else match mkdir (dirPath out name) fs with
    | .error x => .error x
    | .ok fs => openW (dirPath out name ++ [f.1]) f.2 fs

/-- All files that a test writes. -/
def writeFiles (out : Path) (name : Str) : List (Str × Str) → FS → Except FsErr FS
  | [], fs => .ok fs
  | f :: rest, fs =>
    match writeFile out name f fs with
    | .error x => .error x
    | .ok fs => writeFiles out name rest fs

/-- Opening the three output files (testcaserun.py:269-274, 417-426) with the given contents. -/
def writeOutputs (out : Path) (name md txt log : Str) (fs : FS) : Except FsErr FS := do
  let fs ← openW (filePath out name ".md".toList) md fs
  let fs ← openW (filePath out name ".txt".toList) txt fs
  openW (filePath out name ".log".toList) log fs

/-- `save_test_result` on disk (testrun.py:78-86). -/
def saveValue (out : Path) (name : Str) (value : Option Str) (fs : FS) : Except FsErr FS :=
  match value with
  | none =>
    if fs.exists_ (filePath out name ".bin".toList) then fs.remove (filePath out name ".bin".toList)
    else .ok fs
  | some v => openW (filePath out name ".bin".toList) v fs

/-- How `run_case` ends: with a result and a request, with an exception, or never. -/
inductive CaseEnd where
  | done (r : Result) (q : Request)
  | eof
  | error (x : FsErr)
  | hangs
deriving DecidableEq, Repr

/-- The end of `run_case` (testrun.py:102-107, testcaserun.py:226-258): the review and the storing of
the returned value. -/
def endCase (P : Project) (cfg : Config) (name : Str) (v : Result) (answers : List Str) (fs : FS) :
    (FS × List Str) × CaseEnd :=
  match caseReview cfg P.root P.out name (.res v) answers fs with
  | (fs, .eof, rest) => ((fs, rest), .eof)
  | (fs, .error x, rest) => ((fs, rest), .error x)
  | (fs, .done (.text _) _, rest) => ((fs, rest), .error .invalid)
  | (fs, .done (.res r) q, rest) =>
    if r = .OK ∨ r = .DIFF then
      match saveValue P.out name (P.tests name).returns fs with
      | .error x => ((fs, rest), .error x)
      | .ok fs => ((fs, rest), .done r q)
    else ((fs, rest), .done r q)

/-- The directories made when a test is created (testcaserun.py:47-48, 58-59). -/
def makeDirs (P : Project) (name : Str) (fs : FS) : FS :=
  mkdirs (mkdirs fs (baseDir P.root name)) (baseDir P.out name)

/-- `run_case` (testrun.py:88-107) with `TestCaseRun.__init__`, `start` and `end`
(testcaserun.py:23-104, 189-201, 226-258). The second component of the state are the lines the user
will enter. -/
def runCase (P : Project) (cfg : Config) (name : Str) (st : FS × List Str) :
    (FS × List Str) × CaseEnd :=
  let fs0 := makeDirs P name st.1
  match purge P.out name fs0 with
  | .error x => ((fs0, st.2), .error x)
  | .ok fs1 =>
    match writeOutputs P.out name [] [] [] fs1 with
    | .error x => ((fs1, st.2), .error x)
    | .ok fs2 =>
      let e := P.env (snapshotText fs0 (filePath P.root name ".md".toList))
      if fs0.isDir (filePath P.root name ".md".toList) then ((fs2, st.2), .error .isADirectory)
      else match runTest e (P.tests name).body with
        | none => ((fs2, st.2), .hangs)
        | some s =>
          match writeFiles P.out name (P.tests name).files fs2 with
          | .error x => ((fs2, st.2), .error x)
          | .ok fs3 =>
            match writeOutputs P.out name s.out (s.rep.map (· ++ "\n".toList)).flatten
                (P.tests name).log fs3 with
            | .error x => ((fs3, st.2), .error x)
            | .ok fs4 => endCase P cfg name (verdict e s) st.2 fs4

/-! ### A run -/

/-- The state after some tests have been executed one after the other. -/
def runCases (P : Project) (cfg : Config) (names : List Str) (st : FS × List Str) : FS × List Str :=
  names.foldl (fun st n => (runCase P cfg n st).1) st

/-- What the run loop sees of a test, given the tests that were executed before it. -/
def projectOutcome {fl : Durations} (P : Project) (cfg : Config) (dur : Str → fl.D)
    (st : FS × List Str) (before : List Str) (name : Str) : Outcome fl :=
  match (runCase P cfg name (runCases P cfg before st)).2 with
  | .done r q => some (r, q, dur name)
  | _ => none

/-- The names that were executed, the last one perhaps without success. -/
def ranNames {fl : Durations} (evs : List (Ev fl)) : List Str :=
  evs.filterMap fun
    | .exec n _ => some n
    | _ => none

/-- The state that a run leaves. -/
structure RunEnd where
  fs : FS
  answers : List Str
  report : Option Bytes
  /-- The returned value; `none` if an exception escapes. -/
  result : Option Result

/-- `TestRun.run_async` (testrun.py:112-191) on a project: `all` are the names of all tests (for the
index), `selected` those to run. If the index cannot be written, the run raises an exception. -/
def runProject {fl : Durations} (P : Project) (cfg : Config) (dur : Str → fl.D)
    (all selected : List Str) (fs : FS) (answers : List Str) (report : Option Bytes) : RunEnd :=
  let fs := mkdirs fs P.out
  let r := runAsync P.u fl cfg (projectOutcome P cfg dur (fs, answers)) selected report
  let st := runCases P cfg (ranNames r.1) (fs, answers)
  let report := applyEvs report r.1
  match r.2 with
  | none => ⟨st.1, st.2, report, none⟩
  | some rv =>
    match openW (P.root ++ ["index.md".toList]) (indexText all) st.1 with
    | .error _ => ⟨st.1, st.2, report, none⟩
    | .ok fs => ⟨fs, st.2, report, some rv⟩

end Verif.Model
