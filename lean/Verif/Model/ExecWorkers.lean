import Verif.Model.Exec
import Verif.Model.ParallelRun

/-! # Model of commands that run tests with workers

`Model/Exec` stops where a run with workers begins; here is which run that is, and what the command leaves when the
run is over.

Simplifications: those of `Model/ParallelRun` and `Model/Exec`; the number of processes of the pool is not looked
at, so more tests may be at work at the same time than there are processes; runs with workers under coverage are left
out. -/

namespace Verif.Model
open Verif.Py

/-- The run of `parallel_run_tests` (tests.py:496-503, runs.py:285-301, 113-166): the tests to run are those that
have no good record with `-c`; every declared dependency counts, whatever is stored. -/
def workersConf {fl : Durations} (S : Site) (config : Dict CVal) (dur : Str → fl.D) (zero : fl.D)
    (breaks : Str → Bool → Prop) (records : List (Rec fl)) (cases : List Str) : RConf fl :=
  let todo := (doneAndTodo (configOf config) records cases).2
  { u := S.P.u
    P := S.P
    cfg := configOf config
    all := S.names
    todo := todo
    deps := fun n =>
      match getCase S.suite n with
      | none => []
      | some m => methodDependencies S.suite m todo none
    res := fun n =>
      match getCase S.suite n with
      | none => []
      | some m => methodResources S.suite m
    zero := zero
    dur := dur
    breaks := breaks }

/-- The run with workers that a command begins, and the records it reads before (cli.py:47-59, tests.py:346-503,
runs.py:293-295); `none` if it does not begin one. -/
def workersRun {fl : Durations} (S : Site) (args : List Str) (dur : Str → fl.D) (zero : fl.D)
    (breaks : Str → Bool → Prop) (w : World) : Option (RConf fl × List (Rec fl)) :=
  match parseArgs S.N S.names args with
  | .help => none
  | .error => none
  | .ok values names =>
    match execConfig S.P.u none w.settings [] (argsOf values) with
    | none => none
    | some config =>
      match selectionOf config names with
      | none => none
      | some selection =>
        match selectedNames S.suite selection (storedIn S.P config w.fs) S.fuel with
        | none => none
        | some cases =>
          match ofFile S.P.u fl w.report with
          | none => none
          | some records =>
            if commandOf values = none ∧ isOn config "parallel".toList = true ∧
                isOn config "coverage".toList = false ∧
                (workers S.N.int S.cpuCount (config.get "parallel".toList)).isSome = true then
              some (workersConf S config dur zero breaks records cases, records)
            else none

/-- What the command leaves when the run is in the state `s` and the main thread has come to its end
(runs.py:403-417, tests.py:503): `metrics.json` has been written, and the index is. -/
def workersEnd {fl : Durations} (w : World) (c : RConf fl) (records : List (Rec fl)) (s : RSt fl) : CommandEnd :=
  { world := { w with
      fs := match s.finish c with
        | .ok g => g
        | .error _ => s.fs
      report := some (parallelReport c.pconf records s.run)
      metrics := true }
    ran := s.run.started
    status := match s.run.rpc, s.finish c with
      | .ended false, .ok _ => .ends (some s.run.exitCode)
      | _, _ => .raises }

end Verif.Model
