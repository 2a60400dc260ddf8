import Verif.Model.Cli
import Verif.Model.Plan
import Verif.Model.Project
import Verif.Model.ReviewAll
import Verif.Model.Commands
import Verif.Model.Selection
import Verif.Model.Shell

/-! # Model of whole commands: `booktest ARGUMENTS` in a project

`main` (`booktest/cli.py:47-59`) and `Tests.exec_parsed` (`booktest/tests.py:346-540`) put the parts together: the
command line, the settings, the selection, the case report, and the commands.

Simplifications: those of `Model/Project.lean`; every command is a new process, so the global configuration is
read anew; the directory of the books is that of the project and not empty (the setting `books_path` is not
looked at); the case report, `metrics.json` and the files with settings are kept beside the file system; the
process setup of the project does nothing. A run with workers is not executed here, see `Model/Parallel.lean`. -/

namespace Verif.Model
open Verif.Py

/-- What stays the same between commands: the numbers Python can read, the project and its test suite, how deep
recursion may be, the number of processors, and what the viewer returns for a command. -/
structure Site where
  N : Numbers
  P : Project
  suite : Suite
  fuel : Nat
  cpuCount : Nat
  viewer : Str → Nat
  /-- What `Coverage` writes to `.coverage` and to `coverage.xml`. -/
  coverage : Str × Str

/-- `Tests.all_names` (tests.py:107-108). -/
def Site.names (S : Site) : List Str := S.suite.cases.map (·.1)

/-- What commands read and change: settings, files, the case report, and whether there is a `metrics.json`. -/
structure World where
  settings : ConfigWorld
  fs : FS
  report : Option Bytes
  metrics : Bool

/-- How a command ends: with the returned value, with an exception, with the help or an error of the command line,
or in a run with the given number of workers (`none`: the number is not possible). -/
inductive Status where
  | ends (value : MainValue)
  | raises
  | usage
  | help
  | workers (n : Option Nat)
deriving DecidableEq, Repr

/-- The exit status of the process (`__main__.py:4`; 1 after an exception and 2 after an error of the command line). -/
def Status.code : Status → Option Int
  | .ends v => some (exitStatus v)
  | .raises => some 1
  | .usage => some 2
  | .help => some 0
  | .workers _ => none

/-- What a command leaves: the world, the lines it prints (of the commands that only look), the tests that it
executes, and how it ends. -/
structure CommandEnd where
  world : World
  printed : List Str := []
  ran : List Str := []
  status : Status

/-- `config.get(key, False)` as a condition. -/
def isOn (config : Dict CVal) (key : Str) : Bool := ((config.get key).getD (.bool false)).truthy

/-- The settings that the review and the runs look at (testrun.py:55-57, review.py:104-130, 287-288,
reports.py:104-117). -/
def configOf (config : Dict CVal) : Config where
  alwaysInteractive := isOn config "always_interactive".toList
  interactive := isOn config "interactive".toList
  update := isOn config "update".toList
  accept := isOn config "accept".toList
  cont := isOn config "continue".toList
  failFast := isOn config "fail_fast".toList

/-- `selection` (tests.py:433-436): `none` is the `AttributeError` of `split` if the setting is no string. -/
def selectionOf (config : Dict CVal) : Option (List Str) → Option (List Str)
  | some cases => some cases
  | none =>
    match config.get "default_tests".toList with
    | none => some (split ',' "test,book".toList)
    | some (.str s) => some (split ',' s)
    | some _ => none

/-- The stored results that `selected_names` looks for (tests.py:52-56, 428-431). -/
def storedIn (P : Project) (config : Dict CVal) (fs : FS) : Option (Str → Bool) :=
  if isOn config "refresh_sources".toList then none
  else some (fun name => fs.exists_ (filePath P.out name ".bin".toList))

/-- The root directory as a string. -/
def rootName (P : Project) : Str := join ['/'] P.root

/-- The path of a snapshot: `path.join(exp_dir, f"{name}.md")` (tests.py:457, 463, 469). -/
def snapshotName (P : Project) (name : Str) : Str := pathJoin (rootName P) (name ++ ".md".toList)

/-- Is there a file below the root that is garbage (tests.py:406-426)? -/
def isGarbageFile (P : Project) (names : List Str) (fs : FS) (p : Path) : Bool :=
  P.root.isPrefixOf p && (match fs.get p with | some (.file _) => true | _ => false) &&
    isGarbage (liveNames (rootName P) names) (walkPath (rootName P) (p.drop P.root.length))

/-- Is a file of the output directory that is kept beside the file system garbage? -/
def isGarbageOut (P : Project) (names : List Str) (file : Str) : Bool :=
  isGarbage (liveNames (rootName P) names) (walkPath (rootName P) [".out".toList, file])

/-- `garbage` (tests.py:414-426), in some order. -/
def garbageIn (P : Project) (names : List Str) (w : World) : List Str :=
  ((w.fs.map (·.1)).eraseDups.filter (isGarbageFile P names w.fs)).map
      (fun p => walkPath (rootName P) (p.drop P.root.length)) ++
    (if w.report.isSome && isGarbageOut P names "cases.txt".toList then
      [walkPath (rootName P) [".out".toList, "cases.txt".toList]] else []) ++
    (if w.metrics && isGarbageOut P names "metrics.json".toList then
      [walkPath (rootName P) [".out".toList, "metrics.json".toList]] else [])

/-- `--clean` (tests.py:476-480). -/
def cleanWorld (P : Project) (names : List Str) (w : World) : World :=
  { w with
    fs := w.fs.filter (fun e => !isGarbageFile P names w.fs e.1)
    report := if isGarbageOut P names "cases.txt".toList then none else w.report
    metrics := if isGarbageOut P names "metrics.json".toList then false else w.metrics }

/-- What the run does to the report and which tests it executes (testrun.py:112-191). -/
def runEvents {fl : Durations} (P : Project) (cfg : Config) (dur : Str → fl.D) (cases : List Str) (fs : FS)
    (answers : List Str) (report : Option Bytes) : List (Ev fl) :=
  (runAsync P.u fl cfg (projectOutcome P cfg dur (mkdirs fs P.out, answers)) cases report).1

/-- A run in this process (tests.py:505-512, runs.py:423-440, testrun.py:112-191); `metrics.json` is written when
all tests have been executed. -/
def runHere {fl : Durations} (S : Site) (config : Dict CVal) (dur : Str → fl.D) (cases answers : List Str)
    (w : World) : CommandEnd :=
  let cfg := configOf config
  let r := runProject S.P cfg dur S.names cases w.fs answers w.report
  let done := (runAsync S.P.u fl cfg (projectOutcome S.P cfg dur (mkdirs w.fs S.P.out, answers)) cases w.report).2
  { world := { w with fs := r.fs, report := r.report, metrics := w.metrics || done.isSome }
    ran := ranNames (runEvents S.P cfg dur cases w.fs answers w.report)
    status := match r.result with
      | some v => .ends (some (exitCode v))
      | none => .raises }

/-- `run` (tests.py:496-512). -/
def runCommand {fl : Durations} (S : Site) (config : Dict CVal) (dur : Str → fl.D) (cases answers : List Str)
    (w : World) : CommandEnd :=
  if isOn config "parallel".toList then
    { world := w, status := .workers (workers S.N.int S.cpuCount (config.get "parallel".toList)) }
  else runHere S config dur cases answers w

/-- Old coverage files (tests.py:518-522). -/
def isCoverageFile (p : Path) : Bool :=
  match p with
  | [f] => f == ".coverage".toList || startsWith f ".coverage.".toList
  | _ => false

/-- Writing `.coverage` and `coverage.xml` (tests.py:529-533), and whether this succeeds. -/
def writeCoverage (texts : Str × Str) (fs : FS) : FS × Bool :=
  match openW [".coverage".toList] texts.1 fs with
  | .error _ => (fs, false)
  | .ok fs1 =>
    match openW ["coverage.xml".toList] texts.2 fs1 with
    | .error _ => (fs1, false)
    | .ok fs2 => (fs2, true)

/-- A run with or without coverage (tests.py:514-540). `Coverage` itself is not modelled, except for the files
that it writes: it is taken not to fail otherwise. An old file that is a directory cannot be removed (simplified: then no
other one is removed, either). What is written after a run with workers is not modelled. -/
def runCovered {fl : Durations} (S : Site) (config : Dict CVal) (dur : Str → fl.D) (cases answers : List Str)
    (w : World) : CommandEnd :=
  if isOn config "coverage".toList then
    if w.fs.any (fun e => isCoverageFile e.1 && w.fs.isDir e.1) then { world := w, status := .raises }
    else
      let r := runCommand S config dur cases answers
        { w with fs := w.fs.filter (fun e => !isCoverageFile e.1) }
      match r.status with
      | .workers _ => r
      | _ =>
        let c := writeCoverage S.coverage r.world.fs
        { r with world := { r.world with fs := c.1 }, status := if c.2 then r.status else .raises }
  else runCommand S config dur cases answers w

/-- The commands (tests.py:443-540). -/
def dispatch {fl : Durations} (S : Site) (config : Dict CVal) (dur : Str → fl.D) (cases : List Str)
    (records : List (Rec fl)) (answers : List Str) (w : World) (cmd : Option Str) : CommandEnd :=
  let todo := listed (configOf config) records cases
  if cmd = some "--setup".toList then
    match setupBooktest config answers with
    | none => { world := w, status := .raises }
    | some text =>
      { world := { w with settings := { w.settings with
          files := fun f => if f = ".booktest".toList then some text else w.settings.files f } }
        status := .ends (some 0) }
  else if cmd = some "--config".toList then
    { world := w, printed := config.map (fun e => e.1 ++ "=".toList ++ e.2.show), status := .ends (some 0) }
  else if cmd = some "--garbage".toList then
    { world := w, printed := garbageIn S.P S.names w, status := .ends (some 0) }
  else if cmd = some "--print".toList then
    { world := w, printed := todo.filterMap (fun n => snapshotText w.fs (filePath S.P.root n ".md".toList))
      status := .ends (some 0) }
  else if cmd = some "--path".toList then
    { world := w, printed := todo.map (snapshotName S.P), status := .ends (some 0) }
  else if cmd = some "--view".toList then
    let files := (cases.filter (fun n => w.fs.exists_ (filePath S.P.root n ".md".toList))).map (snapshotName S.P)
    { world := w
      status := .ends (viewValue (!files.isEmpty) ((config.get "md_viewer".toList).map (fun tool =>
        S.viewer (tool.show ++ " ".toList ++ join " ".toList files)))) }
  else if cmd = some "--clean".toList then
    { world := cleanWorld S.P S.names w
      printed := (garbageIn S.P S.names w).map ("removed ".toList ++ ·)
      status := .ends (some 0) }
  else if cmd = some "-l".toList then
    { world := w, printed := todo.map ("  ".toList ++ ·), status := .ends (some 0) }
  else if cmd = some "--review".toList then
    if w.metrics then
      match review fl (configOf config) S.P.root S.P.out none (some cases) records answers w.fs with
      | (fs, none, _) => { world := { w with fs := fs }, status := .raises }
      | (fs, some (rs, rv), _) =>
        { world := { w with fs := fs, report := applyEvs w.report (.truncate :: rs.map .write) }
          status := .ends (some rv) }
    else { world := w, status := .raises }
  else if cmd = some "--forget".toList then
    if w.fs.isDir S.P.out then
      { world := { w with report := applyEvs w.report (.truncate :: (forgetRecords records cases).map .write) }
        status := .ends none }
    else { world := w, status := .raises }
  else runCovered S config dur cases answers w

/-- `exec_parsed` (tests.py:346-540), after the command line has been parsed. -/
def execParsed {fl : Durations} (S : Site) (dur : Str → fl.D) (values : Dict CVal) (names : Option (List Str))
    (answers : List Str) (w : World) : CommandEnd :=
  match execConfig S.P.u none w.settings [] (argsOf values) with
  | none => { world := w, status := .raises }
  | some config =>
    match selectionOf config names with
    | none => { world := w, status := .raises }
    | some selection =>
      match selectedNames S.suite selection (storedIn S.P config w.fs) S.fuel with
      | none => { world := w, status := .raises }
      | some cases =>
        match ofFile S.P.u fl w.report with
        | none => { world := w, status := .raises }
        | some records => dispatch S config dur cases records answers w (commandOf values)

/-- `main` (cli.py:47-59): a command with its arguments and the lines that the user enters. -/
def booktest {fl : Durations} (S : Site) (args : List Str) (answers : List Str) (dur : Str → fl.D) (w : World) :
    CommandEnd :=
  match parseArgs S.N S.names args with
  | .help => { world := w, status := .help }
  | .error => { world := w, status := .usage }
  | .ok values names => execParsed S dur values names answers w

/-- A command as the user gives it, and how long the tests take. -/
structure Command (fl : Durations) where
  args : List Str
  answers : List Str
  dur : Str → fl.D

/-- Several commands one after the other. -/
def session {fl : Durations} (S : Site) (w : World) (cs : List (Command fl)) : World :=
  cs.foldl (fun w c => (booktest S c.args c.answers c.dur w).world) w

end Verif.Model
