import Verif.Model.Selection

/-! # Specification vocabulary for selection and dependencies (C30–C34) -/

namespace Verif.Spec
open Verif.Py Verif.Model

/-- An argument matches a test: it is empty, or its path components are the first components of the
test's. -/
def Covers (arg name : Str) : Prop := arg = [] ∨ split '/' arg <+: split '/' name

/-- The argument of a `skip:`. -/
def skipArg (s : Str) : Option Str :=
  if "skip:".toList <+: s then some (s.drop 5) else none

/-- The meaning of a selection: no skip argument matches; and there are only skip arguments, or
another argument is `*` or matches. -/
def Selected (name : Str) (selection : List Str) : Prop :=
  (∀ s ∈ selection, ∀ a, skipArg s = some a → ¬ Covers a name) ∧
  ((∀ s ∈ selection, skipArg s ≠ none) ∨
    ∃ s ∈ selection, skipArg s = none ∧ (s = "*".toList ∨ Covers s name))

/-- A declared dependency of method `m` resolves, for the scheduler, to test `b`. -/
def Declares (s : Suite) (m : Meth) (b : Str) : Prop :=
  ∃ ds d, (s.info m.fn).deps = some ds ∧ d ∈ ds ∧ caseByMethod s (bindIfUnbound s m d) = some b

/-- A declared dependency of a test named `a` resolves to test `b`. -/
def DependsOn (s : Suite) (a b : Str) : Prop := ∃ m, (a, m) ∈ s.cases ∧ Declares s m b

/-- Test `b` is reached from test `a` by dependencies, at least one. -/
inductive Reaches (s : Suite) : Str → Str → Prop
  | one {a b} : DependsOn s a b → Reaches s a b
  | more {a b c} : DependsOn s a b → Reaches s b c → Reaches s a c

/-- In a list, `a` comes before (the first) `b`. -/
def Before (l : List Str) (a b : Str) : Prop := ∃ l1 l2, l = l1 ++ b :: l2 ∧ b ∉ l1 ∧ a ∈ l1

/-- The stored result of a test may be reused. -/
def Stored (stored : Option (Str → Bool)) (n : Str) : Prop := ∃ f, stored = some f ∧ f n = true

end Verif.Spec
