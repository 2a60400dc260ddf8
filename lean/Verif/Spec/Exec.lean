import Verif.Spec.Cli
import Verif.Spec.Commands
import Verif.Spec.Project
import Verif.Spec.Reports
import Verif.Model.Exec

/-! # What a command line asks for -/

namespace Verif.Spec
open Verif.Py Verif.Model

/-- The value of a setting: what the command line says last about it, or else what the environment and the files
say (C58). -/
inductive Setting (u : Unicode) (w : ConfigWorld) (uses : List (Str × CVal)) (key : Str) : Option CVal → Prop
  | said (v : CVal) : Finally uses key v → Given v → Setting u w uses key (some v)
  | unsaid (o : Option CVal) : (∀ v, Finally uses key v → ¬ Given v) →
      Chosen u w "~/.booktest".toList [] {} key o → Setting u w uses key o

/-- The setting is switched on. -/
def On (u : Unicode) (w : ConfigWorld) (uses : List (Str × CVal)) (key : Str) : Prop :=
  ∃ v, Setting u w uses key (some v) ∧ Given v

/-- The command is the last one on the command line. -/
def AsksFor (uses : List (Str × CVal)) (c : Str) : Prop := Finally uses "command".toList (.str c)

/-- There is no command on the command line: tests are to be run. -/
def AsksRun (uses : List (Str × CVal)) : Prop := ∀ c, ¬ AsksFor uses c

/-- The commands that only look. -/
def looking : List Str :=
  ["-l".toList, "--path".toList, "--print".toList, "--view".toList, "--config".toList, "--garbage".toList]

/-- There is a file at this place below the books directory; the report and the metrics count as files. -/
def StoredFile (root : Path) (w : World) (f : List Str) : Prop :=
  (∃ t, w.fs.get (root ++ f) = some (.file t)) ∨
  (f = [".out".toList, "cases.txt".toList] ∧ w.report.isSome = true) ∨
  (f = [".out".toList, "metrics.json".toList] ∧ w.metrics = true)

/-- The files with settings can be read (C58). -/
def ReadableSettings (u : Unicode) (w : ConfigWorld) : Prop :=
  ∀ line ∈ linesOf w "~/.booktest".toList ++ linesOf w ".booktest".toList, Counts u line → '=' ∈ strip u line

/-- The default tests are a list of names, if they are set. -/
def ReadableDefaults (u : Unicode) (w : ConfigWorld) : Prop :=
  ∀ v, Chosen u w "~/.booktest".toList [] {} "default_tests".toList (some v) → ∃ s, v = .str s

/-- The settings of a command, for the run and the review. -/
structure ConfigSaid (u : Unicode) (w : ConfigWorld) (uses : List (Str × CVal)) (cfg : Config) : Prop where
  alwaysInteractive : cfg.alwaysInteractive = true ↔ On u w uses "always_interactive".toList
  interactive : cfg.interactive = true ↔ On u w uses "interactive".toList
  update : cfg.update = true ↔ On u w uses "update".toList
  accept : cfg.accept = true ↔ On u w uses "accept".toList
  cont : cfg.cont = true ↔ On u w uses "continue".toList
  failFast : cfg.failFast = true ↔ On u w uses "fail_fast".toList

/-- The arguments that select tests: those given, or the default tests. -/
inductive Selection (u : Unicode) (w : ConfigWorld) : Option (List Str) → List Str → Prop
  | given (names : List Str) : Selection u w (some names) names
  | configured (s : Str) : Chosen u w "~/.booktest".toList [] {} "default_tests".toList (some (.str s)) →
      Selection u w none (split ',' s)
  | usual : Chosen u w "~/.booktest".toList [] {} "default_tests".toList none →
      Selection u w none ["test".toList, "book".toList]

/-- The stored results that the selection looks for: those in the output directory, or none with `-r`. -/
structure StoredSaid (S : Site) (w : World) (uses : List (Str × CVal)) (stored : Option (Str → Bool)) : Prop where
  refresh : stored = none ↔ On S.P.u w.settings uses "refresh_sources".toList
  there : ∀ f, stored = some f → ∀ n, f n = true ↔ (w.fs.get (slot S.P.root true n ".bin".toList)).isSome

/-- The tests that a command is about (C31–C33); `none` if the selection does not come to an end. -/
def AboutTests (S : Site) (w : World) (uses : List (Str × CVal)) (cases : Option (List Str))
    (selected : Option (List Str)) : Prop :=
  ∃ selection stored, Selection S.P.u w.settings cases selection ∧ StoredSaid S w uses stored ∧
    selectedNames S.suite selection stored S.fuel = selected

/-- `-f` stops nothing: it is not given, or each of these tests is `OK`, or different and accepted by `-a`. -/
def NothingStops (S : Site) (w : World) (uses : List (Str × CVal)) (ns : List Str) : Prop :=
  On S.P.u w.settings uses "fail_fast".toList → ∀ n ∈ ns, ∀ s,
    runTest (S.P.env (snapshot S.P.root w.fs n)) (S.P.tests n).body = some s →
    verdict (S.P.env (snapshot S.P.root w.fs n)) s = .OK ∨
    (verdict (S.P.env (snapshot S.P.root w.fs n)) s = .DIFF ∧ On S.P.u w.settings uses "accept".toList)

/-- Why a command can fail before it does anything: the files with settings, the default tests or the report cannot
be read, or the selection does not come to an end. -/
inductive CannotStart (fl : Durations) (S : Site) (w : World) (uses : List (Str × CVal)) (cases : Option (List Str)) :
    Prop
  | settings : ¬ ReadableSettings S.P.u w.settings → CannotStart fl S w uses cases
  | defaults : cases = none → ¬ ReadableDefaults S.P.u w.settings → CannotStart fl S w uses cases
  | selection : AboutTests S w uses cases none → CannotStart fl S w uses cases
  | report : ofFile S.P.u fl w.report = none → CannotStart fl S w uses cases

/-- The tests that are to be run: the selected ones, with `-c` without those whose record is OK. -/
def ToDo (fl : Durations) (S : Site) (w : World) (uses : List (Str × CVal)) (cases : Option (List Str))
    (names : List Str) : Prop :=
  ∃ selected records cfg, AboutTests S w uses cases (some selected) ∧ ofFile S.P.u fl w.report = some records ∧
    ConfigSaid S.P.u w.settings uses cfg ∧ names = toRun cfg records selected

/-- The command neither accepts anything nor asks, whatever it is: none of `-u`, `-a`, `-i` and `-I` is switched on;
if it is a run, tests are not run by workers. -/
def Unasked (u : Unicode) (w : ConfigWorld) (uses : List (Str × CVal)) : Prop :=
  ¬ On u w uses "update".toList ∧ ¬ On u w uses "accept".toList ∧ ¬ On u w uses "interactive".toList ∧
    ¬ On u w uses "always_interactive".toList ∧
    (AsksRun uses → ¬ On u w uses "parallel".toList)

/-- The files in which coverage data are stored. -/
def OldCoverage (p : Path) : Prop := p = [".coverage".toList] ∨ ∃ x : Str, p = [".coverage.".toList ++ x]

end Verif.Spec
