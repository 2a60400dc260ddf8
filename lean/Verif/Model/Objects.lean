import Verif.Model.CaseRun

/-! # Model of assertions about objects: `TestIt` and the `must_*` methods (`booktest/testcaserun.py`)

A test creates `TestIt` objects (`t.it`, `member`) and calls their methods, in any order; the objects are
numbered as they are created.  Conditions and selections are arbitrary functions that may raise. -/

namespace Verif.Model
open Verif.Py

/-- The message of an exception and its traceback. -/
abbrev Raised := Str × Str

/-- The steps of a test about objects of a type. -/
inductive ItStep (O : Type) where
  /-- `t.it(title, obj)` -/
  | it (title : Str) (obj : O)
  /-- `x.must_apply(title, cond)` of the `i`-th object, with an error message that may depend on the object
  (`must_be_a`) -/
  | must (i : Nat) (title : Str) (cond : O → Except Raised Bool) (msg : O → Option Str)
  /-- `x.member(title, select)` of the `i`-th object -/
  | member (i : Nat) (title : Str) (select : O → Except Raised O)
  /-- any other call of the testing API -/
  | call (o : Op)

/-- `must_contain(member)` (testcaserun.py:834-841, 959-961); `shown` is `str(member)`. -/
def ItStep.mustContain {O : Type} (i : Nat) (shown : Str) (has : O → Except Raised Bool) : ItStep O :=
  .must i ("have ".toList ++ shown) has (fun _ => none)

/-- `must_equal(value)` (testcaserun.py:843-850, 963-965). -/
def ItStep.mustEqual {O : Type} (i : Nat) (shown : Str) (eq : O → Except Raised Bool) : ItStep O :=
  .must i ("equal ".toList ++ shown) eq (fun _ => none)

/-- `must_be_a(typ)` (testcaserun.py:852-862, 967-969); `shownType` is the text of `type(it)`. -/
def ItStep.mustBeA {O : Type} (i : Nat) (shown : Str) (isA : O → Bool) (shownType : O → Str) : ItStep O :=
  .must i ("be a ".toList ++ shown) (fun o => .ok (isA o)) (fun o => some ("was ".toList ++ shownType o))

/-- The calls that the steps come down to, and the exception that ends the test, if any.
`TestIt.__init__` (testcaserun.py:950-957) prints a header; `must_apply` (testcaserun.py:825-832, 971-973)
prints the beginning of its line before it evaluates the condition; `member` (testcaserun.py:975-977)
evaluates the selection before the header.  An object that does not exist is a `NameError`. -/
def itCalls {O : Type} : List (Str × O) → List (ItStep O) → List Op × Option Raised
  | _, [] => ([], none)
  | its, .it title obj :: steps =>
    let x := itCalls (its ++ [(title, obj)]) steps
    (.h 2 (title ++ "..".toList) :: x.1, x.2)
  | its, .must i title cond msg :: steps =>
    match its[i]? with
    | none => ([], some ("name is not defined".toList, []))
    | some (_, o) =>
      match cond o with
      | .error r => ([.i (" * MUST ".toList ++ title ++ "...".toList)], some r)
      | .ok b =>
        let x := itCalls its steps
        (.must title b (msg o) :: x.1, x.2)
  | its, .member i title select :: steps =>
    match its[i]? with
    | none => ([], some ("name is not defined".toList, []))
    | some (t, o) =>
      match select o with
      | .error r => ([], some r)
      | .ok o' =>
        let x := itCalls (its ++ [(t ++ ".".toList ++ title, o')]) steps
        (.h 2 (t ++ ".".toList ++ title ++ "..".toList) :: x.1, x.2)
  | its, .call o :: steps =>
    let x := itCalls its steps
    (o :: x.1, x.2)

/-- The test. -/
def itTest {O : Type} (steps : List (ItStep O)) : Test := ⟨(itCalls [] steps).1, (itCalls [] steps).2⟩

end Verif.Model
