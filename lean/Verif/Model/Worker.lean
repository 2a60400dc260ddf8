import Verif.Model.Setup
import Verif.Model.Run
import Verif.Model.Parallel

/-! # Model of the workers of a parallel run and of the process setup around runs (`booktest/runs.py`) -/

namespace Verif.Model
open Verif.Py

/-- `job_config` (runs.py:144-148). -/
def jobConfig (cfg : Config) : Config :=
  { cfg with cont := false, interactive := false, alwaysInteractive := false }

variable {S E : Type}

/-- A generator in a world with local variables `L`, which it does not see. -/
def besides (L : Type) (gen : Gen S E) : Gen (S × L) E where
  G := gen.G
  start := gen.start
  next := fun g (s, l) =>
    match gen.next g s with
    | (s', k) => ((s', l), k)

/-- `run_tests` (runs.py:420-440): `run` is `run.run()`. -/
def runTests (noYield : E) (setup : Option (Gen S E)) (run : Body S E Result) : Body S E Int :=
  withProcessSetup noYield setup (fun s =>
    match run s with
    | (s', .ok r) => (s', .ok (exitCode r))
    | (s', .error e) => (s', .error e))

/-- `RunBatch.__call__` (runs.py:77-98): the local variable `rv` is bound when `run.run()` has returned,
and `return rv` raises `UnboundLocalError` otherwise.  `isException` are the errors of the class
`Exception`, the others are not caught.  Opening the file for the output is not modelled, it exists in
the batch directory made before (runs.py:163-164). -/
def runBatch (noYield unbound : E) (isException : E → Bool) (setup : Option (Gen S E))
    (run : Body S E Result) : Body S E Int := fun s =>
  match withProcessSetup noYield (setup.map (besides (Option Int)))
      (fun sl => match run sl.1 with
        | (s', .ok r) => ((s', some (exitCode r)), .ok ())
        | (s', .error e) => ((s', sl.2), .error e)) (s, none) with
  | ((s', rv), .ok ()) =>
    match rv with
    | some code => (s', .ok code)
    | none => (s', .error unbound)
  | ((s', rv), .error e) =>
    if isException e then
      match rv with
      | some code => (s', .ok code)
      | none => (s', .error unbound)
    else (s', .error e)

/-- What a worker does to the report of its batch (runs.py:80-91, testrun.py:112-191), which does not
exist before; `prepare_batch_dir` has removed it (runs.py:297). -/
def workerTrace (u : Unicode) (fl : Durations) (cfg : Config) (outcome : List Str → Str → Outcome fl)
    (case : Str) : List (Ev fl) × Option Result :=
  runAsync u fl (jobConfig cfg) outcome [case] none

/-- The reports that a worker can leave for a test: what it has written when it ends or dies, which is
nothing if the setup raises. -/
def WorkerLeaves (u : Unicode) (fl : Durations) (cfg : Config) (outcome : Str → List Str → Str → Outcome fl)
    (n : Str) (b : Option Bytes) : Prop :=
  ∃ evs, Stops none (workerTrace u fl cfg (outcome n) n).1 evs b

end Verif.Model
