import Verif.Py.FS
import Verif.Model.CaseRun

/-! # Model of the review step of `booktest/review.py` -/

namespace Verif.Model
open Verif.Py

/-- A result as Python passes it around: a `TestResult`, or the string that
`CaseReports.make_case` puts in its place (reports.py:166-170). -/
inductive Raw where
  | res (r : Result)
  | text (s : Str)
deriving DecidableEq, Repr

/-- `UserRequest` (reports.py:26-29). -/
inductive Request where
  | NONE | ABORT | FREEZE
deriving DecidableEq, Repr

/-- The configuration entries read by the review and the run loops, as truth values
(`config.get(..., False)`). -/
structure Config where
  alwaysInteractive : Bool := false
  interactive : Bool := false
  update : Bool := false
  accept : Bool := false
  cont : Bool := false
  failFast : Bool := false
deriving DecidableEq, Repr

/-- `interact` (review.py:28-82).  `answers` are the lines the user will enter; `none` is the
`EOFError` raised by `input()` when there are no more.  Viewers and diff tools are run for their
output only (`run_tool`, review.py:16-25). -/
def interact (result : Raw) : List Str → Option (Request × List Str)
  | [] => none
  | a :: as =>
    if a = "a".toList ∧ result ≠ .res .FAIL then some (.FREEZE, as)
    else if a = "c".toList then some (.NONE, as)
    else if a = "q".toList then some (.ABORT, as)
    else interact result as

/-- `os.path.join(d, name)` as components. -/
def dirPath (d : Path) (name : Str) : Path := d ++ split '/' name

/-- `os.path.join(d, name + ".md")` as components. -/
def mdPath (d : Path) (name : Str) : Path := d ++ split '/' (name ++ ".md".toList)

/-- `freeze_case` (review.py:85-98), first statement: the old snapshot directory is removed. -/
def freezeRemove (exp : Path) (name : Str) (fs : FS) : Except FsErr FS :=
  if fs.exists_ (dirPath exp name) then fs.rmtree (dirPath exp name) else .ok fs

/-- `freeze_case`, second statement: the output file becomes the snapshot. -/
def freezeFile (exp out : Path) (name : Str) (fs : FS) : Except FsErr FS :=
  fs.rename (mdPath out name) (mdPath exp name)

/-- `freeze_case`, third statement: the output directory becomes the snapshot directory. -/
def freezeDir (exp out : Path) (name : Str) (fs : FS) : Except FsErr FS :=
  if fs.exists_ (dirPath out name) then fs.rename (dirPath out name) (dirPath exp name) else .ok fs

/-- `freeze_case` (review.py:85-98): the file system afterwards and the exception raised, if any. -/
def freezeCase (exp out : Path) (name : Str) (fs : FS) : FS × Option FsErr :=
  match freezeRemove exp name fs with
  | .error x => (fs, some x)
  | .ok fs1 =>
    match freezeFile exp out name fs1 with
    | .error x => (fs1, some x)
    | .ok fs2 =>
      match freezeDir exp out name fs2 with
      | .error x => (fs2, some x)
      | .ok fs3 => (fs3, none)

/-- A directory removal that was interrupted: some of the entries below `d` are gone, the others and
everything else are untouched (`shutil.rmtree` removes entry by entry). -/
def PartlyRemoved (d : Path) (fs g : FS) : Prop :=
  (∀ p, ¬ d <+: p → g.get p = fs.get p) ∧
  (∀ p, d <+: p → g.get p = fs.get p ∨ g.get p = none)

/-- The file systems in which the process can have died during `freeze_case`: between two of the
statements or inside the first one; `os.rename` is atomic. -/
def CrashState (exp out : Path) (name : Str) (fs g : FS) : Prop :=
  g = fs ∨ (fs.exists_ (dirPath exp name) = true ∧ PartlyRemoved (dirPath exp name) fs g) ∨
  ∃ fs1, freezeRemove exp name fs = .ok fs1 ∧ (g = fs1 ∨
    ∃ fs2, freezeFile exp out name fs1 = .ok fs2 ∧ (g = fs2 ∨ freezeDir exp out name fs2 = .ok g))

/-- `if path.exists(d): shutil.rmtree(d)` (testcaserun.py:99-104). -/
def removeIfThere (d : Path) (fs : FS) : Except FsErr FS :=
  if fs.exists_ d then fs.rmtree d else .ok fs

/-- The purge of old outputs when a `TestCaseRun` is created (testcaserun.py:99-104); `name ++
".tmp"` is the directory of temporary files. -/
def purge (out : Path) (name : Str) (fs : FS) : Except FsErr FS :=
  match removeIfThere (dirPath out name) fs with
  | .error x => .error x
  | .ok fs => removeIfThere (dirPath out (name ++ ".tmp".toList)) fs

/-- How a review ends: with a result and a request, or with an exception. -/
inductive ReviewEnd where
  | done (rv : Raw) (request : Request)
  | eof
  | error (x : FsErr)
deriving DecidableEq, Repr

/-- `case_review` (review.py:101-125): the file system afterwards, how it ended, and the answers not
consumed. -/
def caseReview (cfg : Config) (exp out : Path) (name : Str) (result : Raw) (answers : List Str)
    (fs : FS) : FS × ReviewEnd × List Str :=
  let doInteract := cfg.alwaysInteractive || (decide (result ≠ .res .OK) && cfg.interactive)
  match (if doInteract then interact result answers else some (.NONE, answers)) with
  | none => (fs, .eof, [])
  | some (request, rest) =>
    if request = .FREEZE ∨ (result = .res .OK ∧ cfg.update = true) ∨
        (result = .res .DIFF ∧ cfg.accept = true) then
      match freezeCase exp out name fs with
      | (fs', some x) => (fs', .error x, rest)
      | (fs', none) => (fs', .done (.res .OK) request, rest)
    else (fs, .done result request, rest)

end Verif.Model
