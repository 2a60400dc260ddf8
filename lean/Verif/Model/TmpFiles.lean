import Verif.Model.Dependents

/-! # Model of temporary files (`booktest/testcaserun.py:127-142`)

`runCase` for tests that make, write and read files through `t.tmp_path`, `t.tmp_dir` and `t.tmp_file`, and go on
according to what they find.

Simplifications: those of `Model/Project`, except that temporary files are there. The names that are given to `t.tmp_path`
and `t.tmp_dir` are plain file names, and tests use files below their directory of temporary files only. A test uses its
temporary files before it makes the calls of `TestFn`: nothing that those calls do can be seen in that directory, and
nothing else can be seen in the files that they write. The error of `os.mkdir` and `open` is `notFound` also where a file is
in the place of a directory. -/

namespace Verif.Model
open Verif.Py

/-- What a test does with temporary files. The path of `write` and `read` begins with the name that is given to
`t.tmp_path`. -/
inductive TmpCall where
  /-- `t.tmp_path(name)` or `t.tmp_file(name)` -/
  | path (name : Str)
  /-- `t.tmp_dir(name)` -/
  | dir (name : Str)
  /-- `os.mkdir(path.join(t.tmp_path(name), *rest))` -/
  | make (name : Str) (rest : List Str)
  /-- `open(path.join(t.tmp_path(name), *rest), "w").write(text)` -/
  | write (name : Str) (rest : List Str) (text : Str)
  /-- `open(path.join(t.tmp_path(name), *rest)).read()` -/
  | read (name : Str) (rest : List Str)

/-- A test function that uses temporary files: after each use it goes on according to what it gets, which may be an
exception (`TestFn.body` is what it does when it raises the exception itself). -/
inductive TmpTest where
  | rest (f : TestFn)
  | use (c : TmpCall) (k : Except FsErr Str → TmpTest)

/-- `out_tmp_dir_name` (testcaserun.py:62). -/
def tmpDir (out : Path) (name : Str) : Path := dirPath out (name ++ ".tmp".toList)

/-- `tmp_path` (testcaserun.py:127-135): the path is known beforehand, what matters is the directory. -/
def tmpPath (out : Path) (name : Str) (fs : FS) : Except FsErr FS :=
  if fs.exists_ (tmpDir out name) then .ok fs else mkdir (tmpDir out name) fs

/-- `open(p).read()` -/
def readText (p : Path) (fs : FS) : Except FsErr Str :=
  match fs.get p with
  | some (.file t) => .ok t
  | some .dir => .error .isADirectory
  | none => .error .notFound

/-- One use of temporary files: the files afterwards, and what the test gets. -/
def tmpCall (out : Path) (name : Str) (c : TmpCall) (fs : FS) : FS × Except FsErr Str :=
  match tmpPath out name fs with
  | .error x => (fs, .error x)
  | .ok fs =>
    match c with
    | .path _ => (fs, .ok [])
    | .dir d =>
      -- `tmp_dir` (testcaserun.py:137-140)
      match mkdir (tmpDir out name ++ [d]) fs with
      | .error x => (fs, .error x)
      | .ok fs => (fs, .ok [])
    | .make f rest =>
      match mkdir (tmpDir out name ++ f :: rest) fs with
      | .error x => (fs, .error x)
      | .ok fs => (fs, .ok [])
    | .write f rest text =>
      match openW (tmpDir out name ++ f :: rest) text fs with
      | .error x => (fs, .error x)
      | .ok fs => (fs, .ok [])
    | .read f rest => (fs, readText (tmpDir out name ++ f :: rest) fs)

/-- All uses of temporary files by a test, and what it does besides. -/
def tmpRun (out : Path) (name : Str) : TmpTest → FS → FS × TestFn
  | .rest f, fs => (fs, f)
  | .use c k, fs => tmpRun out name (k (tmpCall out name c fs).2) (tmpCall out name c fs).1

/-- A project whose tests use temporary files (compare `Project`). -/
structure TProject where
  u : Unicode
  pointErrorPos : Bool
  refmt : Str → Option Str
  root : Path
  tests : Str → TmpTest

/-- The project in which the tests do the given things. -/
def TProject.doing (T : TProject) (f : Str → TestFn) : Project := ⟨T.u, T.pointErrorPos, T.refmt, T.root, f⟩

/-- The directories of the project. -/
def TProject.out (T : TProject) : Path := T.root ++ [".out".toList]

/-- `run_case` (testrun.py:88-107, compare `runCase`) with temporary files. -/
def runCaseT (T : TProject) (cfg : Config) (name : Str) (st : FS × List Str) : (FS × List Str) × CaseEnd :=
  let P := T.doing fun _ => ⟨⟨[], none⟩, [], [], none⟩
  let fs0 := makeDirs P name st.1
  match purge T.out name fs0 with
  | .error x => ((fs0, st.2), .error x)
  | .ok fs1 =>
    match writeOutputs T.out name [] [] [] fs1 with
    | .error x => ((fs1, st.2), .error x)
    | .ok fs2 =>
      if fs0.isDir (filePath T.root name ".md".toList) then ((fs2, st.2), .error .isADirectory)
      else
        let r := tmpRun T.out name (T.tests name) fs2
        callCase (T.doing fun _ => r.2) cfg name (P.env (snapshotText fs0 (filePath T.root name ".md".toList))) st.2 r.1

/-- Some tests one after the other (compare `runCases`). -/
def runCasesT (T : TProject) (cfg : Config) (names : List Str) (st : FS × List Str) : FS × List Str :=
  names.foldl (fun st n => (runCaseT T cfg n st).1) st

/-- What the run loop sees of a test (compare `projectOutcome`). -/
def outcomeT {fl : Durations} (T : TProject) (cfg : Config) (dur : Str → fl.D) (st : FS × List Str) (before : List Str)
    (name : Str) : Outcome fl :=
  match (runCaseT T cfg name (runCasesT T cfg before st)).2 with
  | .done r q => some (r, q, dur name)
  | _ => none

/-- `TestRun.run_async` (testrun.py:112-191, compare `runProject`) with temporary files. -/
def runProjectT {fl : Durations} (T : TProject) (cfg : Config) (dur : Str → fl.D) (all selected : List Str) (fs : FS)
    (answers : List Str) (report : Option Bytes) : RunEnd :=
  let fs := mkdirs fs T.out
  let r := runAsync T.u fl cfg (outcomeT T cfg dur (fs, answers)) selected report
  let st := runCasesT T cfg (ranNames r.1) (fs, answers)
  let report := applyEvs report r.1
  match r.2 with
  | none => ⟨st.1, st.2, report, none⟩
  | some rv =>
    match openW (T.root ++ ["index.md".toList]) (indexText all) st.1 with
    | .error _ => ⟨st.1, st.2, report, none⟩
    | .ok fs => ⟨fs, st.2, report, some rv⟩

end Verif.Model
