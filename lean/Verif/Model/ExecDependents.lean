import Verif.Model.Dependents
import Verif.Model.ExecWorkers

/-! # Model of whole commands in projects whose tests have dependencies

`Model/Exec` and `Model/ExecWorkers` with tests that load the results of other tests (`Model/Dependents`). What the
tests do matters for runs only; the other commands are those of `Model/Exec`.

Simplifications: those of the three files. -/

namespace Verif.Model
open Verif.Py

/-- The site with another project. -/
def Site.over (S : Site) (P : Project) : Site := { S with P := P }

/-- `LruCache(8)`: the cache of a run without workers (tests.py:363-364, 505-512), and the one that every process of a
pool has (runs.py:22). -/
def processCache : Cache Str := .lru 8 []

/-- What the run does to the report and which tests it executes (compare `runEvents`). -/
def runEventsD {fl : Durations} (D : DProject) (cfg : Config) (dur : Str → fl.D) (cases : List Str) (fs : FS)
    (answers : List Str) (report : Option Bytes) : List (Ev fl) :=
  (runAsync D.u fl cfg (outcomeD D cfg dur ((mkdirs fs D.dirs.out, answers), processCache)) cases report).1

/-- A run in this process (tests.py:505-512, runs.py:423-440, testrun.py:112-191, compare `runHere`). -/
def runHereD {fl : Durations} (S : Site) (D : DProject) (config : Dict CVal) (dur : Str → fl.D)
    (cases answers : List Str) (w : World) : CommandEnd :=
  let cfg := configOf config
  let r := runProjectD D cfg dur S.names cases w.fs answers w.report processCache
  let done := (runAsync D.u fl cfg (outcomeD D cfg dur ((mkdirs w.fs D.dirs.out, answers), processCache)) cases
    w.report).2
  { world := { w with fs := r.fs, report := r.report, metrics := w.metrics || done.isSome }
    ran := ranNames (runEventsD D cfg dur cases w.fs answers w.report)
    status := match r.result with
      | some v => .ends (some (exitCode v))
      | none => .raises }

/-- `run` (tests.py:496-512, compare `runCommand`). -/
def runCommandD {fl : Durations} (S : Site) (D : DProject) (config : Dict CVal) (dur : Str → fl.D)
    (cases answers : List Str) (w : World) : CommandEnd :=
  if isOn config "parallel".toList then
    { world := w, status := .workers (workers S.N.int S.cpuCount (config.get "parallel".toList)) }
  else runHereD S D config dur cases answers w

/-- A run with or without coverage (tests.py:514-540, compare `runCovered`). -/
def runCoveredD {fl : Durations} (S : Site) (D : DProject) (config : Dict CVal) (dur : Str → fl.D)
    (cases answers : List Str) (w : World) : CommandEnd :=
  if isOn config "coverage".toList then
    if w.fs.any (fun e => isCoverageFile e.1 && w.fs.isDir e.1) then { world := w, status := .raises }
    else
      let r := runCommandD S D config dur cases answers
        { w with fs := w.fs.filter (fun e => !isCoverageFile e.1) }
      match r.status with
      | .workers _ => r
      | _ =>
        let c := writeCoverage S.coverage r.world.fs
        { r with world := { r.world with fs := c.1 }, status := if c.2 then r.status else .raises }
  else runCommandD S D config dur cases answers w

/-- `exec_parsed` (tests.py:346-540, compare `execParsed` and `dispatch`). -/
def execParsedD {fl : Durations} (S : Site) (D : DProject) (dur : Str → fl.D) (values : Dict CVal)
    (names : Option (List Str)) (answers : List Str) (w : World) : CommandEnd :=
  match execConfig D.u none w.settings [] (argsOf values) with
  | none => { world := w, status := .raises }
  | some config =>
    match selectionOf config names with
    | none => { world := w, status := .raises }
    | some selection =>
      match selectedNames S.suite selection (storedIn D.dirs config w.fs) S.fuel with
      | none => { world := w, status := .raises }
      | some cases =>
        match ofFile D.u fl w.report with
        | none => { world := w, status := .raises }
        | some records =>
          match commandOf values with
          | some cmd => dispatch (S.over D.dirs) config dur cases records answers w (some cmd)
          | none => runCoveredD S D config dur cases answers w

/-- `main` (cli.py:47-59, compare `booktest`). -/
def booktestD {fl : Durations} (S : Site) (D : DProject) (args : List Str) (answers : List Str) (dur : Str → fl.D)
    (w : World) : CommandEnd :=
  match parseArgs S.N S.names args with
  | .help => { world := w, status := .help }
  | .error => { world := w, status := .usage }
  | .ok values names => execParsedD S D dur values names answers w

/-- The run with workers that a command begins, and the records it reads before (compare `workersRun`). -/
def workersRunD {fl : Durations} (S : Site) (D : DProject) (args : List Str) (dur : Str → fl.D) (zero : fl.D)
    (breaks : Str → Bool → Prop) (w : World) : Option (DConf fl × List (Rec fl)) :=
  (workersRun (S.over D.dirs) args dur zero breaks w).map fun r =>
    ({ D := D
       cfg := r.1.cfg
       all := r.1.all
       todo := r.1.todo
       waits := r.1.deps
       res := r.1.res
       zero := r.1.zero
       dur := r.1.dur
       breaks := r.1.breaks }, r.2)

/-- What the command leaves when the run is in the state `s` and the main thread has come to its end (compare
`workersEnd`). -/
def workersEndD {fl : Durations} (w : World) (c : DConf fl) (records : List (Rec fl)) (s : DSt fl) : CommandEnd :=
  workersEnd w (c.conf c.D.dirs) records s.r

end Verif.Model
