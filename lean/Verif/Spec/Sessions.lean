import Verif.Spec.Story
import Verif.Spec.Exec
import Verif.Spec.Provenance
import Verif.Spec.ParallelRun

/-! # Sessions: what a user does in a project (C117) -/

namespace Verif.Spec
open Verif.Py Verif.Model

/-- The project has these tests, in this directory. The tests may do anything. -/
structure Hosts (root : Path) (ns : List Str) (u : Unicode) (S : Site) : Prop where
  root : S.P.root = root
  unicode : S.P.u = u
  names : ∀ n, n ∈ S.names ↔ n ∈ ns

/-- The executions of tests by a command; it is not said here which of them came to their end. -/
def executionsOf (root : Path) (P : Project) (fs : FS) (ran : List Str) : List Execution :=
  ran.map (fun n => ⟨n, P, snapshot root fs n, false⟩)

/-- The snapshot of a test is what its latest execution printed, which did not fail and has been accepted: by an
option, or by the user, who entered the last lines of `ans`. -/
def TakenOver (cfg : Config) (ans : List Str) (log : List Execution) (n : Str) (snap : Option Str) : Prop :=
  ∃ e text v l, latestRun log n = some e ∧ e.Says text v ∧ v ≠ .FAIL ∧ l <:+ ans ∧ Accepts cfg v l ∧ snap = some text

/-- None of `-u`, `-a`, `-i` and `-I` is switched on, whatever the command. -/
def NoConsent (S : Site) (w : World) (args : List Str) : Prop :=
  ∀ uses cases, Reads S.N (testChoices S.names) args uses cases →
    ∀ key ∈ ["update".toList, "accept".toList, "interactive".toList, "always_interactive".toList],
      ¬ On S.P.u w.settings uses key

/-- The parallel run executes those of the selected tests that are to be run, in directories of their own. -/
structure RunsTests (S : Site) (selected : List Str) {fl : Durations} (old : List (Rec fl)) (c : RConf fl) : Prop where
  project : c.P = S.P
  all : c.all = S.names
  todo : c.todo = (doneAndTodo c.cfg old selected).2
  batches : ∀ a ∈ c.todo, ∀ b ∈ c.todo, batchName a = batchName b → a = b
  unasked : AsksReported c

/-- What a command leaves that is killed at some moment, or left by an exception, and the tests of which it has begun the
execution. What is not listed here is killed before or after the only thing it does, or while it writes the index or the settings,
which users may edit. -/
inductive Killed (fl : Durations) (S : Site) (w : World) (uses : List (Str × CVal)) (selected : List Str)
    (cfg : Config) (ans : List Str) : World → List Str → Prop
  /-- A run, between two tests or while it writes a record. -/
  | between (dur : Str → fl.D) (evs : List (Ev fl)) (report : Option Bytes) (metrics : Bool) :
      AsksRun uses → ¬ On S.P.u w.settings uses "parallel".toList →
      Stops w.report (runAsync S.P.u fl cfg (projectOutcome S.P cfg dur (mkdirs w.fs S.P.out, ans)) selected w.report).1
        evs report →
      (∀ n o, Ev.exec n o ∈ evs → o.isSome) →
      Killed fl S w uses selected cfg ans { w with
        fs := (runCases S.P cfg (ranNames evs) (mkdirs w.fs S.P.out, ans)).1, report := report, metrics := metrics }
        (ranNames evs)
  /-- A run, while a test is executed, reviewed or accepted. -/
  | during (dur : Str → fl.D) (evs rest : List (Ev fl)) (n : Str) (o : Outcome fl) (k : Nat) (g : FS) (t : Task) :
      AsksRun uses → ¬ On S.P.u w.settings uses "parallel".toList →
      (runAsync S.P.u fl cfg (projectOutcome S.P cfg dur (mkdirs w.fs S.P.out, ans)) selected w.report).1 =
        evs ++ .exec n o :: rest →
      stepsOf k ((runCases S.P cfg (ranNames evs) (mkdirs w.fs S.P.out, ans)).1,
        caseTask S.P cfg n (runCases S.P cfg (ranNames evs) (mkdirs w.fs S.P.out, ans)).2
          (fun r q _ => .done (.done r q))) = some (g, t) →
      Killed fl S w uses selected cfg ans { w with fs := g, report := applyEvs w.report evs } (ranNames evs ++ [n])
  /-- `--review`, before it writes the report. -/
  | reviewing (records : List (Rec fl)) (k : Nat) (g : FS) (t : Task) :
      AsksFor uses "--review".toList → ofFile S.P.u fl w.report = some records →
      stepsOf k (w.fs, reviewsTask S.P cfg (passed records) (some selected) records false ans) = some (g, t) →
      Killed fl S w uses selected cfg ans { w with fs := g } []
  /-- `--review`, while it writes the report. -/
  | reviewed (records rs : List (Rec fl)) (code : Int) (b : Bytes) :
      AsksFor uses "--review".toList → ofFile S.P.u fl w.report = some records →
      (review fl cfg S.P.root S.P.out none (some selected) records ans w.fs).2.1 = some (rs, code) →
      b <+: encode (toText fl rs) →
      Killed fl S w uses selected cfg ans
        { w with fs := (review fl cfg S.P.root S.P.out none (some selected) records ans w.fs).1, report := some b } []
  /-- `--forget`. -/
  | forgetting (trace evs : List (Ev fl)) (report : Option Bytes) :
      AsksFor uses "--forget".toList → forget S.P.u fl selected w.report = some trace →
      Stops w.report trace evs report → Killed fl S w uses selected cfg ans { w with report := report } []
  /-- `--clean`, if all tests are in directories. `os.walk` names the files of a directory before those in directories
  below it, so the report is removed before outputs. -/
  | cleaning (gone : Path → Bool) (reported metrics : Bool) :
      AsksFor uses "--clean".toList → (∀ n ∈ S.names, '/' ∈ n) →
      (∀ p, gone p = true → isGarbageFile S.P S.names w.fs p = true) →
      (reported = true → ∀ p, gone p = true → S.P.out <+: p.dropLast → p.dropLast = S.P.out) →
      Killed fl S w uses selected cfg ans { w with
        fs := w.fs.filter (fun e => !gone e.1), report := if reported then w.report else none, metrics := metrics } []

/-- What a project directory can be like after a user has worked with it, and all executions of tests. Between
commands the user edits the tests, the settings, and files that are neither snapshots nor outputs. All commands are of the
kind `ok`. -/
inductive Session (root : Path) (ns : List Str) (u : Unicode) (fl : Durations)
    (ok : Site → World → List Str → Prop) (start : World) : World → List Execution → Prop
  | start : Session root ns u fl ok start start []
  /-- A command that runs tests itself, or none. -/
  | command {w : World} {h : List Execution} (S : Site) (args ans : List Str) (dur : Str → fl.D) :
      Session root ns u fl ok start w h → Hosts root ns u S → ok S w args →
      Session root ns u fl ok start (booktest S args ans dur w).world
        (h ++ executionsOf root S.P w.fs (booktest S args ans dur w).ran)
  /-- A run with workers, which may be stopped at any moment, while its report is written up to some byte. The
  directories of its workers differ, and nobody is asked about a test whose worker has left no report. -/
  | workers {w : World} {h : List Execution} (S : Site) (args : List Str) (uses : List (Str × CVal))
      (cases : Option (List Str)) (selected : List Str) (old : List (Rec fl)) (c : RConf fl) (ans : List Str)
      (s : RSt fl) (b : Bytes) (metrics : Bool) :
      Session root ns u fl ok start w h → Hosts root ns u S → ok S w args →
      Reads S.N (testChoices S.names) args uses cases → AsksRun uses → On u w.settings uses "parallel".toList →
      AboutTests S w uses cases (some selected) → ConfigSaid u w.settings uses c.cfg →
      ofFile u fl w.report = some old → RunsTests S selected old c →
      RReach c w.fs ans s → b <+: parallelReport c.pconf old s.run →
      Session root ns u fl ok start { w with fs := s.fs, report := some b, metrics := metrics }
        (h ++ executionsOf root S.P w.fs (c.todo.filter (fun n => decide (n ∈ s.ran))))
  /-- A command that is killed. -/
  | killed {w : World} {h : List Execution} (S : Site) (args : List Str) (uses : List (Str × CVal))
      (cases : Option (List Str)) (selected : List Str) (cfg : Config) (ans : List Str) (w' : World) (ran : List Str) :
      Session root ns u fl ok start w h → Hosts root ns u S → ok S w args →
      Reads S.N (testChoices S.names) args uses cases → AboutTests S w uses cases (some selected) →
      ConfigSaid u w.settings uses cfg → Killed fl S w uses selected cfg ans w' ran →
      Session root ns u fl ok start w' (h ++ executionsOf root S.P w.fs ran)
  /-- The user edits settings, and other files. -/
  | edit {w : World} {h : List Execution} (settings : ConfigWorld) (g : FS) :
      Session root ns u fl ok start w h → SoundTree root ns g →
      (∀ n ∈ ns, snapshot root g n = snapshot root w.fs n ∧ outputFile root g n = outputFile root w.fs n) →
      Session root ns u fl ok start { w with settings := settings, fs := g } h

end Verif.Spec
