import Verif.Model.Depends

/-! # Specification vocabulary for the arguments of tests (C94, C95) -/

namespace Verif.Spec
open Verif.Py Verif.Model

variable {V : Type}

/-- Function `f` is `g` with decorators, among them a `depends_on` for every element of the list, with
these arguments, the outermost one first. -/
inductive Layers (w : DepWorld V) : Nat → List (List (Dep V)) → Nat → Prop
  | plain {f : Nat} : w.kind f = .plain → Layers w f [] f
  | around {f g h : Nat} {ls : List (List (Dep V))} : w.kind f = .around g → Layers w g ls h →
      Layers w f ls h
  | dependsOn {f g h : Nat} {ds : List (Dep V)} {ls : List (List (Dep V))} : w.kind f = .dependsOn ds g →
      Layers w g ls h → Layers w f (ds :: ls) h

/-- Function `f` is `g` with decorators other than `depends_on`. -/
def Bare (w : DepWorld V) (f g : Nat) : Prop := Layers w f [] g

/-- Function `f` is `g` with decorators of which exactly one is a `depends_on`, with arguments `ds`. -/
def DependsOnce (w : DepWorld V) (f : Nat) (ds : List (Dep V)) (g : Nat) : Prop := Layers w f [ds] g

/-- The value of a test after the given executions: the one that it returned when it was executed last
without failing, or else the one stored before (`none` if there is none, or if it is `None`). -/
def knownValue (st : Store V) (past : List (Entry V)) (b : Str) : Option V :=
  match (past.filter (fun e => e.name = b ∧ e.result ≠ .FAIL)).getLast? with
  | some e => e.value
  | none => st b

/-- What a test is given for a dependency when the values of the tests are `val`. -/
inductive Gives (s : Suite) (m : Meth) (val : Str → Option V) : Dep V → Arg V → Prop
  | resource (i : Nat) (v : V) : Gives s m val (.resource i v) (.value (some v))
  | method (d : Meth) (b : Str) : usedCase s m d = some b → Gives s m val (.method d) (.value (val b))

/-- A dependency for which there is no test, or no value. -/
def Lacks (s : Suite) (m : Meth) (val : Str → Option V) (ds : List (Dep V)) : Prop :=
  ∃ d, Dep.method d ∈ ds ∧ ∀ b, usedCase s m d = some b → val b = none

/-- The first arguments of a test: the book, if it is a method, and the test case. -/
def firstArgs (m : Meth) : List (Arg V) :=
  match m.self with
  | some o => [.self o, .case]
  | none => [.case]

end Verif.Spec
