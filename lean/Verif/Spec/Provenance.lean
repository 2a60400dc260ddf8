import Verif.Spec.Together
import Verif.Spec.Review

/-! # Specification vocabulary for the origin of snapshots (C104) -/

namespace Verif.Spec
open Verif.Py Verif.Model

/-- The text is the complete output of the test, run with the snapshot `snap`, and it has been accepted: by
an option, or by the user, who entered the last lines of `ans`. -/
def Accepted (P : Project) (cfg : Config) (n : Str) (snap : Option Str) (ans : List Str) (text : Str) : Prop :=
  ∃ s l, l <:+ ans ∧ runTest (P.env snap) (P.tests n).body = some s ∧
    Accepts cfg (verdict (P.env snap) s) l ∧ text = s.out

/-- A run: the files before it, the tests as they were then, the settings, the names of the executed tests and
what the user entered for them. -/
structure RunRecord where
  before : FS
  project : Project
  cfg : Config
  tests : List Str
  answers : Str → List Str

/-- The snapshot was accepted in this run. -/
def RunRecord.Yields (r : RunRecord) (n text : Str) : Prop :=
  n ∈ r.tests ∧ Accepted r.project r.cfg n (snapshot r.project.root r.before n) (r.answers n) text

/-- Files that can be found after some runs in the directory `root`. Each of the runs may have been killed
after any of its operations. Between runs the tests may have changed, and so may all files but the
snapshots. -/
inductive Since (root : Path) (ns : List Str) (start : FS) : List RunRecord → FS → Prop
  | start : Since root ns start [] start
  | sequential {h : List RunRecord} {fs g : FS} {P : Project} {cfg : Config} {all todo ans : List Str}
      {k : Nat} {t : Task} : Since root ns start h fs → P.root = root → (∀ n ∈ todo, n ∈ ns) → todo.Nodup →
      stepsOf k (fs, sequentialTask P cfg all todo ans) = some (g, t) →
      Since root ns start (h ++ [⟨fs, P, cfg, todo, fun _ => ans⟩]) g
  | parallel {h : List RunRecord} {fs g : FS} {P : Project} {cfg : Config} {all sel trace : List Str}
      {index : Str → Bool} {ans : Str → Option (List Str)} {t : Str → Task} : Since root ns start h fs → P.root = root →
      (∀ n ∈ sel, n ∈ ns) → Interleaved (fun n => parallelTask P cfg all (index n) (ans n) n) sel fs trace g t →
      Since root ns start (h ++ [⟨fs, P, cfg, sel, fun n => (ans n).getD []⟩]) g
  | elsewhere {h : List RunRecord} {fs g : FS} : Since root ns start h fs → SoundTree root ns g →
      (∀ n ∈ ns, snapshot root g n = snapshot root fs n) → Since root ns start h g

end Verif.Spec
