import Verif.Spec.Reports
import Verif.Model.ReviewAll
import Verif.Lemmas.ParallelRecords

/-! # Histories of commands (C101) -/

namespace Verif.Spec
open Verif.Py Verif.Model Verif.Lemmas

/-- What is known about a test at a moment: it was executed or reviewed, and ended with a result, or
(`none`) it was started and nothing is known about its end. -/
abbrev Fact := Str × Option Result

/-- The latest fact about a test. -/
def lastFact (h : List Fact) (n : Str) : Option (Option Result) :=
  ((h.filter (fun e => e.1 = n)).getLast?).map (·.2)

/-- The executions in the trace of a run. -/
def facts {fl : Durations} (evs : List (Ev fl)) : List Fact :=
  evs.filterMap fun
    | .exec n o => some (n, o.map (·.1))
    | _ => none

/-- The results that a review has given. -/
def reviewFacts (log : List Reviewed) : List Fact :=
  log.map (fun x => (x.1, match x.2.1 with | .res r => some r | .text _ => none))

/-- The case reports, and what happened to the tests, after any sequence of commands, each of them
complete, left by an exception or killed at any point. -/
inductive History (u : Unicode) (fl : Durations) : Option Bytes → List Fact → Prop
  | init : History u fl none []
  /-- A sequential run, killed between two events or while it writes a record. -/
  | run {file file' : Option Bytes} {h : List Fact} (cfg : Config)
      (outcome : List Str → Str → Outcome fl) (selected : List Str) (evs : List (Ev fl)) :
      History u fl file h → selected.Nodup → (∀ n ∈ selected, CleanName n) →
      Stops file (runAsync u fl cfg outcome selected file).1 evs file' →
      History u fl file' (h ++ facts evs)
  /-- A sequential run, killed while a test is executed. -/
  | runDuring {file : Option Bytes} {h : List Fact} (cfg : Config)
      (outcome : List Str → Str → Outcome fl) (selected : List Str) (evs rest : List (Ev fl)) (n : Str)
      (o : Outcome fl) :
      History u fl file h → selected.Nodup → (∀ n ∈ selected, CleanName n) →
      (runAsync u fl cfg outcome selected file).1 = evs ++ .exec n o :: rest →
      History u fl (applyEvs file evs) (h ++ facts evs ++ [(n, none)])
  /-- A parallel run, complete, aborted or killed: the report has been written up to some byte. -/
  | parallel {file : Option Bytes} {h : List Fact} (cfg : Config) (selected : List Str) (old : List (Rec fl))
      (c : PConf fl) (s : PSt fl) (b : Bytes) :
      History u fl file h → selected.Nodup → (∀ n ∈ selected, CleanName n) →
      ofFile u fl file = some old → c.todo = (doneAndTodo cfg old selected).2 → Named c → PReach c s →
      b <+: parallelReport c old s →
      History u fl (some b)
        (h ++ s.started.map (fun n => (n, none)) ++ s.recorded.map (fun r => (r.1, some r.2.1)))
  /-- `--review`, left by an exception or killed before it writes the report. -/
  | reviewing {file : Option Bytes} {h : List Fact} (cfg : Config) (exp out : Path)
      (passed? cases : Option (List Str)) (records : List (Rec fl)) (answers : List Str) (fs : FS) (k : Nat) :
      History u fl file h → ofFile u fl file = some records →
      History u fl file
        (h ++ reviewFacts ((review fl cfg exp out passed? cases records answers fs).2.2.take k))
  /-- `--review`, complete or killed while it writes the report. -/
  | reviewed {file : Option Bytes} {h : List Fact} (cfg : Config) (exp out : Path)
      (passed? cases : Option (List Str)) (records rs : List (Rec fl)) (answers : List Str) (fs : FS)
      (code : Int) (b : Bytes) :
      History u fl file h → ofFile u fl file = some records →
      (review fl cfg exp out passed? cases records answers fs).2.1 = some (rs, code) →
      b <+: encode (toText fl rs) →
      History u fl (some b) (h ++ reviewFacts (review fl cfg exp out passed? cases records answers fs).2.2)
  /-- `--forget`, complete or killed. -/
  | forget {file file' : Option Bytes} {h : List Fact} (cases : List Str) (trace evs : List (Ev fl)) :
      History u fl file h → Verif.Model.forget u fl cases file = some trace → Stops file trace evs file' →
      History u fl file' h
  /-- `--clean`, which removes the report. -/
  | clean {file : Option Bytes} {h : List Fact} : History u fl file h → History u fl none h

end Verif.Spec
