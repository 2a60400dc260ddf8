import Verif.Spec.Exec
import Verif.Spec.ParallelRun
import Verif.Model.ExecWorkers

/-! # Accepted tests, and commands with or without workers -/

namespace Verif.Spec
open Verif.Py Verif.Model

/-- How a command can end: in one process, or with workers after any execution in which no process is kept waiting forever
and which nobody interrupts. (A number of workers that is impossible is left out.) -/
inductive Does (fl : Durations) (S : Site) (args : List Str) (w : World) : CommandEnd → Prop
  | here (ans : List Str) (dur : Str → fl.D) (h : ∀ k, (booktest S args ans dur w).status ≠ .workers k) :
      Does fl S args w (booktest S args ans dur w)
  | workers (ans : List Str) (dur : Str → fl.D) (zero : fl.D) (c : RConf fl) (records : List (Rec fl)) (σ : Nat → RSt fl)
      (i : Nat) (x : Bool) (hc : workersRun S args dur zero (fun _ _ => False) w = some (c, records))
      (hf : FairRun c (mkdirs w.fs S.P.out) ans σ) (hx : (σ i).run.rpc = .ended x) :
      Does fl S args w (workersEnd w c records (σ i))

/-- The test passes with the snapshot that it has. -/
def Passes (P : Project) (fs : FS) (n : Str) : Prop :=
  ∃ s, runTest (P.env (snapshot P.root fs n)) (P.tests n).body = some s ∧
    verdict (P.env (snapshot P.root fs n)) s = .OK

/-- The files are in order, and the tests pass with their snapshots. -/
structure AllPass (fl : Durations) (S : Site) (w : World) (ns : List Str) : Prop where
  known : ∀ n ∈ ns, n ∈ S.names
  files : SoundTree S.P.root S.names w.fs
  report : ∃ records, ofFile S.P.u fl w.report = some records
  passes : ∀ n ∈ ns, Passes S.P w.fs n

/-- The command runs some of the tests `ns`; nobody is asked, and nothing that is OK is accepted again. -/
structure Checks (S : Site) (w : World) (uses : List (Str × CVal)) (cases : Option (List Str)) (ns : List Str) : Prop where
  run : AsksRun uses
  off : ∀ key ∈ ["interactive".toList, "always_interactive".toList, "update".toList, "coverage".toList],
    ¬ On S.P.u w.settings uses key
  settings : ReadableSettings S.P.u w.settings
  defaults : cases = none → ReadableDefaults S.P.u w.settings
  about : ∃ names, AboutTests S w uses cases (some names) ∧ ∀ n ∈ names, n ∈ ns

/-- Any number of such commands. -/
inductive Checked (fl : Durations) (S : Site) (ns : List Str) : World → World → Prop
  | none (w : World) : Checked fl S ns w w
  | more {w w1 : World} (args : List Str) (uses : List (Str × CVal)) (cases : Option (List Str)) (e : CommandEnd) :
      Checked fl S ns w w1 → Reads S.N (testChoices S.names) args uses cases → Checks S w1 uses cases ns →
      Does fl S args w1 e → Checked fl S ns w e.world

end Verif.Spec
