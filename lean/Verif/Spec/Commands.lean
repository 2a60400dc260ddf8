import Verif.Model.Commands

/-! # Vocabulary for the commands -/

namespace Verif.Spec
open Verif.Py

/-- A file below the books directory, given by its path components, belongs to one of the tests: it is
the snapshot, or in the directory of the test; or it is the index. -/
def OfTest (names : List Str) (file : List Str) : Prop :=
  file = ["index.md".toList] ∨ ∃ name ∈ names,
    file = split '/' (name ++ ".md".toList) ∨ ∃ x rest, file = split '/' name ++ x :: rest

/-- A path without empty components. -/
def Normal (name : Str) : Prop := ∀ p ∈ split '/' name, p ≠ []

/-- A path as it is on a disk. -/
def OnDisk (file : List Str) : Prop := file ≠ [] ∧ ∀ c ∈ file, c ≠ [] ∧ '/' ∉ c

end Verif.Spec
