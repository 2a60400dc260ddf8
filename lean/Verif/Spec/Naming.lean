import Verif.Py.Basic

/-! # Specification vocabulary for names of tests (C62) -/

namespace Verif.Spec
open Verif.Py

/-- There is an underscore before the character at position `i` of an identifier: it is upper case and
the character before it is not. -/
def BoundaryAt (u : Unicode) (name : Str) (i : Nat) : Prop :=
  ∃ p c, 0 < i ∧ name[i - 1]? = some p ∧ name[i]? = some c ∧ u.isUpper p = false ∧ u.isUpper c = true

/-- `out` is the lower case of the characters from position `i` on, each with an underscore before it
exactly at a boundary. -/
inductive SnakeFrom (u : Unicode) (name : Str) : Nat → Str → Prop
  | stop (i : Nat) (h : name.length ≤ i) : SnakeFrom u name i []
  | plain (i : Nat) (c : Char) (out : Str) (hc : name[i]? = some c) (hb : ¬ BoundaryAt u name i)
      (h : SnakeFrom u name (i + 1) out) : SnakeFrom u name i (u.lower c ++ out)
  | boundary (i : Nat) (c : Char) (out : Str) (hc : name[i]? = some c) (hb : BoundaryAt u name i)
      (h : SnakeFrom u name (i + 1) out) : SnakeFrom u name i ('_' :: u.lower c ++ out)

/-- The suffixes of names of test files and classes. -/
def suffixes : List Str := ["test".toList, "book".toList, "testbook".toList, "test_book".toList,
  "_test".toList, "_book".toList, "_testbook".toList, "_test_book".toList]

/-- `r` is the name without its longest suffix of that kind, if it has any. -/
def WithoutSuffix (name r : Str) : Prop :=
  ((∀ s ∈ suffixes, ¬ s <:+ name) ∧ r = name) ∨
  ∃ s ∈ suffixes, name = r ++ s ∧ ∀ s' ∈ suffixes, s' <:+ name → s'.length ≤ s.length

end Verif.Spec
