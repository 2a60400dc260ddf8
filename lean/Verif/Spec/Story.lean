import Verif.Spec.Together
import Verif.Spec.Reports

/-! # Specification vocabulary for what reviews accept (C105) -/

namespace Verif.Spec
open Verif.Py Verif.Model

/-- An execution of a test: the tests as they were then, and the snapshot that was there. -/
structure Execution where
  name : Str
  project : Project
  snap : Option Str
  /-- It is known that it has been executed to the end. -/
  finished : Bool

/-- What the execution prints, and its verdict. -/
def Execution.Says (e : Execution) (text : Str) (v : Result) : Prop :=
  ∃ s, runTest (e.project.env e.snap) (e.project.tests e.name).body = some s ∧ text = s.out ∧
    v = verdict (e.project.env e.snap) s

/-- The latest execution of a test. -/
def latestRun (log : List Execution) (n : Str) : Option Execution :=
  (log.filter (fun e => decide (e.name = n))).getLast?

/-- The output file of a test. -/
def outputFile (root : Path) (fs : FS) (n : Str) : Option Node := fs.get (slot root true n ".md".toList)

/-- Whether a task has ended with a result. -/
def isDone : Task → Bool
  | .done (.done _ _) => true
  | _ => false

/-- The files, the case report and the executions after any sequence of commands, each of them finished, left
by an exception or killed at any point. Between commands the tests may change, and so may all files that
are neither snapshots nor outputs of tests. -/
inductive Story (root : Path) (ns : List Str) (u : Unicode) (fl : Durations) (start : FS) :
    FS → Option Bytes → List Execution → Prop
  | start : Story root ns u fl start start none []
  /-- A sequential run, stopped between two tests or while it writes a record. -/
  | run {fs : FS} {file file' : Option Bytes} {h : List Execution} (P : Project) (cfg : Config)
      (dur : Str → fl.D) (selected ans : List Str) (evs : List (Ev fl)) :
      Story root ns u fl start fs file h → P.root = root → selected.Nodup →
      (∀ n ∈ selected, n ∈ ns ∧ CleanName n) →
      Stops file (runAsync u fl cfg (projectOutcome P cfg dur (mkdirs fs P.out, ans)) selected file).1
        evs file' →
      (∀ n o, Ev.exec n o ∈ evs → o.isSome) →
      Story root ns u fl start (runCases P cfg (ranNames evs) (mkdirs fs P.out, ans)).1 file'
        (h ++ (ranNames evs).map (fun n => ⟨n, P, snapshot root fs n, true⟩))
  /-- A sequential run, stopped by an exception or killed while a test is executed. -/
  | runDuring {fs g : FS} {file : Option Bytes} {h : List Execution} (P : Project) (cfg : Config)
      (dur : Str → fl.D) (selected ans : List Str) (evs rest : List (Ev fl)) (n : Str) (o : Outcome fl)
      (k : Nat) (t : Task) :
      Story root ns u fl start fs file h → P.root = root → selected.Nodup →
      (∀ n ∈ selected, n ∈ ns ∧ CleanName n) →
      (runAsync u fl cfg (projectOutcome P cfg dur (mkdirs fs P.out, ans)) selected file).1 =
        evs ++ .exec n o :: rest →
      stepsOf k ((runCases P cfg (ranNames evs) (mkdirs fs P.out, ans)).1,
        caseTask P cfg n (runCases P cfg (ranNames evs) (mkdirs fs P.out, ans)).2
          (fun r q _ => .done (.done r q))) = some (g, t) →
      Story root ns u fl start g (applyEvs file evs)
        (h ++ (ranNames evs).map (fun n => ⟨n, P, snapshot root fs n, true⟩) ++
          [⟨n, P, snapshot root fs n, false⟩])
  /-- A parallel run. A test is recorded after it has been run, and reviewed unless the run is stopped before; tests
  whose worker crashes are recorded as failed. The report has been written up to some byte. -/
  | parallel {fs g : FS} {file : Option Bytes} {h : List Execution} (P : Project) (cfg : Config)
      (all selected trace : List Str) (index : Str → Bool) (ans : Str → Option (List Str)) (old written : List (Rec fl))
      (t : Str → Task) (b : Bytes) :
      Story root ns u fl start fs file h → P.root = root → selected.Nodup →
      (∀ n ∈ selected, n ∈ ns ∧ CleanName n) → ofFile u fl file = some old →
      Interleaved (fun n => parallelTask P cfg all (index n) (ans n) n) (doneAndTodo cfg old selected).2 fs trace g t →
      (written.map (·.1)).Nodup →
      (∀ w ∈ written, w.1 ∈ (doneAndTodo cfg old selected).2 ∧
        (w.2.1 = .FAIL ∨ ∃ q, t w.1 = .done (.done w.2.1 q))) →
      b <+: encode (toText fl (keptRecords old (doneAndTodo cfg old selected).2 ++ written)) →
      Story root ns u fl start g (some b)
        (h ++ ((doneAndTodo cfg old selected).2.filter (fun n => decide (n ∈ trace))).map
          (fun n => ⟨n, P, snapshot root fs n, isDone (t n)⟩))
  /-- `--review`, left by an exception or killed before it writes the report. -/
  | reviewing {fs g : FS} {file : Option Bytes} {h : List Execution} (P : Project) (cfg : Config)
      (pass : List Str) (cases : Option (List Str)) (records : List (Rec fl)) (ans : List Str) (k : Nat) (t : Task) :
      Story root ns u fl start fs file h → P.root = root → ofFile u fl file = some records →
      stepsOf k (fs, reviewsTask P cfg pass cases records false ans) = some (g, t) →
      Story root ns u fl start g file h
  /-- `--review`, complete or killed while it writes the report. -/
  | reviewed {fs : FS} {file : Option Bytes} {h : List Execution} (P : Project) (cfg : Config)
      (passed? cases : Option (List Str)) (records rs : List (Rec fl)) (ans : List Str) (code : Int) (b : Bytes) :
      Story root ns u fl start fs file h → P.root = root → ofFile u fl file = some records →
      (review fl cfg P.root P.out passed? cases records ans fs).2.1 = some (rs, code) →
      b <+: encode (toText fl rs) →
      Story root ns u fl start (review fl cfg P.root P.out passed? cases records ans fs).1 (some b) h
  /-- `--forget`, complete or killed. -/
  | forget {fs : FS} {file file' : Option Bytes} {h : List Execution} (cases : List Str) (trace evs : List (Ev fl)) :
      Story root ns u fl start fs file h → Verif.Model.forget u fl cases file = some trace →
      Stops file trace evs file' → Story root ns u fl start fs file' h
  /-- `--clean` and other commands that remove the report and do not touch snapshots. -/
  | clean {fs g : FS} {file : Option Bytes} {h : List Execution} :
      Story root ns u fl start fs file h → SoundTree root ns g →
      (∀ n ∈ ns, snapshot root g n = snapshot root fs n) → Story root ns u fl start g none h
  /-- Anything that touches neither the report nor the snapshots and outputs of the tests, for instance writing
  the index. -/
  | elsewhere {fs g : FS} {file : Option Bytes} {h : List Execution} :
      Story root ns u fl start fs file h → SoundTree root ns g →
      (∀ n ∈ ns, snapshot root g n = snapshot root fs n ∧ outputFile root g n = outputFile root fs n) →
      Story root ns u fl start g file h

end Verif.Spec
