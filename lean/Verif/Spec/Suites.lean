import Verif.Model.Suites

/-! # Vocabulary for suites -/

namespace Verif.Spec
open Verif.Py Verif.Model

variable {F : Type}

/-- The cases of nested suites, in order. -/
inductive InOrder : Suites F → Cases F → Prop
  | tests (cases : Cases F) : InOrder (.tests cases) cases
  | nil : InOrder (.list []) []
  | cons {s : Suites F} {l : List (Suites F)} {a b : Cases F} : InOrder s a → InOrder (.list l) b →
      InOrder (.list (s :: l)) (a ++ b)

/-- A suite occurs in nested suites. -/
inductive Part : Cases F → Suites F → Prop
  | tests (cases : Cases F) : Part cases (.tests cases)
  | list {c : Cases F} {s : Suites F} {l : List (Suites F)} : s ∈ l → Part c s → Part c (.list l)

/-- The name of a case in a suite: the two names with a `/` between them. -/
def under (suite name : Str) : Str :=
  if suite.getLast? = some '/' then suite ++ name else suite ++ "/".toList ++ name

/-- Dropping a prefix: the cases under it, in order, without it. -/
inductive Dropped (pre : Str) : Cases F → Cases F → Prop
  | nil : Dropped pre [] []
  | under {n : Str} {f : F} {a b : Cases F} : Dropped pre a b → Dropped pre ((under pre n, f) :: a) ((n, f) :: b)
  | other {n : Str} {f : F} {a b : Cases F} : (∀ m, n ≠ under pre m) → Dropped pre a b →
      Dropped pre ((n, f) :: a) b

/-- A name is assigned in a class body. -/
def Assigned (body : List (BodyStep F)) (name : Str) : Prop := ∃ v, BodyStep.assign name v ∈ body

/-- The first assignment of `a` comes before the first one of `b`. -/
def DefinedBefore (body : List (BodyStep F)) (a b : Str) : Prop :=
  ∃ l v r, body = l ++ .assign a v :: r ∧ ¬ Assigned l b ∧ a ≠ b ∧ Assigned r b

/-- The value of the last assignment of a name. -/
def LastValue (body : List (BodyStep F)) (name : Str) (v : Member F) : Prop :=
  ∃ l r, body = l ++ .assign name v :: r ∧ ¬ Assigned r name

/-- The body has no `del`. -/
def NoDel (body : List (BodyStep F)) : Prop := ∀ s ∈ body, ∀ n, s ≠ .del n

/-- The path of a book: the one given, or that of its class, with the last part replaced by a name that
is given. -/
inductive BookPath : Option Str → Str → Option Str → Str → Prop
  | given (path classPath : Str) (name : Option Str) : BookPath (some path) classPath name path
  | default (classPath : Str) : BookPath none classPath none classPath
  | named (dir last name : Str) : '/' ∉ last →
      BookPath none (dir ++ "/".toList ++ last) (some name) (dir ++ "/".toList ++ name)
  | top (last name : Str) : '/' ∉ last → BookPath none last (some name) name

/-- `p` is a name, or the beginning of it up to a `/`. -/
def PathPrefix (p name : Str) : Prop := name = p ∨ ∃ rest, name = p ++ "/".toList ++ rest

end Verif.Spec
