import Verif.Model.Reports

/-! # Model of the sequential run loop of `booktest/testrun.py`

Executing a test (`run_case`) is abstract here: an oracle says how it ends.  The model produces the
trace of everything the run does to `cases.txt` and of the executions, so that a run that is killed
is a prefix of a trace.  Not modelled: messages, `metrics.json`, `index.md` (the latter in
`Model/Index.lean`). -/

namespace Verif.Model
open Verif.Py

/-- How the execution of a test ends: result after review, user request and duration, or `none` if
an exception escapes from `run_case` (KeyboardInterrupt, an error while accepting, end of input). -/
abbrev Outcome (fl : Durations) := Option (Result × Request × fl.D)

/-- What a run does, in order. -/
inductive Ev (fl : Durations) where
  | truncate
  | write (r : Rec fl)
  | exec (name : Str) (o : Outcome fl)

/-- The update of `rv` (testrun.py:159-162). -/
def nextRv (rv res : Result) : Result :=
  if res = .DIFF ∨ res = .FAIL then (if rv ≠ .FAIL then res else rv) else rv

/-- The update of `fails` (testrun.py:159-170). -/
def nextFails (fails : Nat) (res : Result) : Nat :=
  if res = .DIFF ∨ res = .FAIL then fails + 1 else fails

/-- The loop over the tests to run (testrun.py:153-179).  `ex` are the names executed so far, `rv`
and `fails` the Python variables.  The result is `none` if an exception escapes. -/
def runLoop (fl : Durations) (cfg : Config) (outcome : List Str → Str → Outcome fl) (ex : List Str)
    (rv : Result) (fails : Nat) : List Str → List (Ev fl) × Option Result
  | [] => ([], some rv)
  | n :: ns =>
    match outcome ex n with
    | none => ([.exec n none], none)
    | some (res, request, d) =>
      let evs : List (Ev fl) := [.exec n (some (res, request, d)), .write (n, res, d)]
      if request = .ABORT ∨ (cfg.failFast = true ∧ nextFails fails res > 0) then
        (evs, some (nextRv rv res))
      else
        let rest := runLoop fl cfg outcome (ex ++ [n]) (nextRv rv res) (nextFails fails res) ns
        (evs ++ rest.1, rest.2)

/-- The records kept from the old report (testrun.py:146-151). -/
def keptRecords {fl : Durations} (old : List (Rec fl)) (todo : List Str) : List (Rec fl) :=
  old.filter (fun r => !todo.contains r.1)

/-- `TestRun.run_async` (testrun.py:112-191): the trace and the returned value. -/
def runAsync (u : Unicode) (fl : Durations) (cfg : Config) (outcome : List Str → Str → Outcome fl)
    (selected : List Str) (file : Option Bytes) : List (Ev fl) × Option Result :=
  match ofFile u fl file with
  | none => ([], none)
  | some old =>
    let todo := (doneAndTodo cfg old selected).2
    let body := runLoop fl cfg outcome [] .OK 0 todo
    (.truncate :: (keptRecords old todo).map .write ++ body.1, body.2)

/-- `test_result_to_exit_code` (reports.py:19-23). -/
def exitCode (r : Result) : Int := if r = .OK then 0 else -1

/-- The effect of one event on `cases.txt`; each record is written and flushed at once. -/
def applyEv {fl : Durations} (file : Option Bytes) : Ev fl → Option Bytes
  | .truncate => some []
  | .write r => some (file.getD [] ++ encode (caseLine fl r))
  | .exec _ _ => file

/-- The file after a sequence of events. -/
def applyEvs {fl : Durations} (file : Option Bytes) (evs : List (Ev fl)) : Option Bytes :=
  evs.foldl applyEv file

/-- The completed executions in a trace. -/
def execs {fl : Durations} (evs : List (Ev fl)) : List (Str × Result) :=
  evs.filterMap fun
    | .exec n (some o) => some (n, o.1)
    | _ => none

/-- What can be left of a run that stops somewhere: a part of its trace has happened, and perhaps
the next record has been written up to some byte. -/
inductive Stops {fl : Durations} (file : Option Bytes) (trace : List (Ev fl)) :
    List (Ev fl) → Option Bytes → Prop
  | clean (done rest : List (Ev fl)) (h : trace = done ++ rest) :
      Stops file trace done (applyEvs file done)
  | torn (done rest : List (Ev fl)) (r : Rec fl) (b : Bytes) (h : trace = done ++ .write r :: rest)
      (hb : b <+: encode (caseLine fl r)) :
      Stops file trace done (some ((applyEvs file done).getD [] ++ b))

end Verif.Model
