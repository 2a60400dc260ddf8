import Verif.Spec.Depends
import Verif.Model.Values

/-! # Specification vocabulary for the values of dependencies in parallel runs (C127) -/

namespace Verif.Spec
open Verif.Py Verif.Model

variable {V : Type}

/-- Test `n` is given the value of test `b`, or would be. -/
def Uses (w : DepWorld V) (n b : Str) : Prop :=
  ∃ m ls g ds d, getCase w.suite n = some m ∧ Layers w m.fn ls g ∧ ds ∈ ls ∧ Dep.method d ∈ ds ∧
    usedCase w.suite m d = some b

/-- Every test has at most one `depends_on`, and the dependencies that it is given are found when the
tests are scheduled. -/
structure Declared (w : DepWorld V) (run : List Str) : Prop where
  once : ∀ n ∈ run, ∀ m, getCase w.suite n = some m → ∀ ls g, Layers w m.fn ls g → ls.length ≤ 1
  found : ∀ n ∈ run, ∀ m, getCase w.suite n = some m → ∀ ls g, Layers w m.fn ls g → ∀ ds ∈ ls, ∀ d,
    Dep.method d ∈ ds → (usedCase w.suite m d).isSome →
      (caseByMethod w.suite (bindIfUnbound w.suite m d)).isSome

/-- No test that others use returns nothing, unless it fails. -/
def Returning (w : DepWorld V) (run : List Str) (es : List (Entry V)) : Prop :=
  ∀ e ∈ es, e.result ≠ .FAIL → e.value = none → ∀ n ∈ run, ¬ Uses w n e.name

end Verif.Spec
