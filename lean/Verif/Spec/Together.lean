import Verif.Spec.Project
import Verif.Model.Together

/-! # Specification vocabulary for tests that run at the same time (C103) -/

namespace Verif.Spec
open Verif.Py Verif.Model

/-- A path that is a file of the test, or in one of its directories. -/
def Own (root : Path) (n : Str) (p : Path) : Prop :=
  ∃ o x, (x = [] ∨ x ∈ endings) ∧ slot root o n x <+: p

/-- A directory that contains the files of the test, directly or not. -/
def Above (root : Path) (n : Str) (q : Path) : Prop := ∃ o, q <+: slotDir root o n

/-- The index of the books. -/
def indexFile (root : Path) : Path := root ++ ["index.md".toList]

/-- A process that is alone, after a number of operations; `none` if it has ended before. -/
def stepsOf : Nat → FS × Task → Option (FS × Task)
  | 0, c => some c
  | k + 1, c =>
    match c.2.step c.1 with
    | none => none
    | some c' => stepsOf k c'

end Verif.Spec
