import Verif.Py.Path

/-! # What a path means -/

namespace Verif.Spec
open Verif.Py

/-- Walking from a directory along the parts of a path (without symbolic links). A directory is given by
the names on the way from the root. -/
inductive Walk : List Str → List Str → List Str → Prop
  | done (d : List Str) : Walk d [] d
  | stay {d e : List Str} {p : Str} {ps : List Str} : p = [] ∨ p = ".".toList → Walk d ps e → Walk d (p :: ps) e
  | up {d e : List Str} {x : Str} {ps : List Str} : Walk d ps e → Walk (d ++ [x]) ("..".toList :: ps) e
  | top {e : List Str} {ps : List Str} : Walk [] ps e → Walk [] ("..".toList :: ps) e
  | down {d e : List Str} {p : Str} {ps : List Str} : p ≠ [] → p ≠ ".".toList → p ≠ "..".toList →
      Walk (d ++ [p]) ps e → Walk d (p :: ps) e

/-- The place that a path denotes in a working directory. -/
def Denotes (cwd path : Str) (place : List Str) : Prop :=
  if path.head? = some '/' then Walk [] (split '/' path) place
  else ∃ d, Walk [] (split '/' cwd) d ∧ Walk d (split '/' path) place

/-- A path that does not begin with exactly two slashes, which POSIX leaves to the system. -/
def Plain (path : Str) : Prop := "//".toList <+: path → "///".toList <+: path

end Verif.Spec
