import Verif.Model.Naming
import Verif.Py.Path
import Verif.Py.Dict

/-! # Model of `booktest/testsuite.py`, `booktest/testbook.py` and of the test choices in `Tests.setup_parser`

`F` is the type of test functions. -/

namespace Verif.Model
open Verif.Py

variable {F : Type}

/-- The cases of a `Tests` object. -/
abbrev Cases (F : Type) := List (Str × F)

/-- `TestSuite(suite_name, cases)` (testsuite.py:5-9). -/
def testSuite (suiteName : Str) (cases : Cases F) : Cases F :=
  cases.map (fun c => (pathJoin suiteName c.1, c.2))

/-- `drop_prefix` (testsuite.py:17-31). -/
def dropPrefix (pre : Str) (cases : Cases F) : Cases F :=
  let fullPrefix := if !endsWith pre "/".toList then pre ++ "/".toList else pre
  cases.filterMap (fun c => if startsWith c.1 fullPrefix then some (c.1.drop fullPrefix.length, c.2) else none)

/-- A `Tests` object, or a list of such things. -/
inductive Suites (F : Type) where
  | tests (cases : Cases F)
  | list (l : List (Suites F))

mutual
/-- `cases_of` (testsuite.py:34-41). -/
def casesOf : Suites F → Cases F
  | .tests cases => cases
  | .list l => casesOfList l
/-- Its loop over a list (testsuite.py:36-39). -/
def casesOfList : List (Suites F) → Cases F
  | [] => []
  | s :: rest => casesOf s ++ casesOfList rest
end

/-- `merge_tests` (testsuite.py:44-52). -/
def mergeTests (s : Suites F) : Cases F := (casesOf s).map (fun c => (c.1, c.2))

/-- `decorate_tests` (testsuite.py:55-60). -/
def decorateTests (decorator : F → F) (s : Suites F) : Cases F :=
  (casesOf s).map (fun c => (c.1, decorator c.2))

/-! ### Test books -/

/-- What a name can be bound to in a class: something that is a bound method when looked up on an
instance, or something else. -/
inductive Member (F : Type) where
  | method (f : F)
  | other

/-- A step of a class body: an assignment (`def`, `=`, `import`, …) or `del`. -/
inductive BodyStep (F : Type) where
  | assign (name : Str) (value : Member F)
  | del (name : Str)

/-- `member_table` (testbook.py:14-25): the dictionary and `member_names`. -/
structure MemberTable (F : Type) where
  dict : Dict (Member F)
  names : List Str

/-- `del d[k]`. -/
def dictDel {α : Type} (d : Dict α) (k : Str) : Dict α := d.filter (fun p => p.1 ≠ k)

/-- `__setitem__` (testbook.py:18-25), and the inherited `__delitem__`, which does not change
`member_names`. A `del` of an unknown name raises and there is no class then; it is taken to do nothing
here. -/
def memberStep (t : MemberTable F) : BodyStep F → MemberTable F
  | .assign name value =>
    { names := if (t.dict.get name).isNone then t.names ++ [name] else t.names
      dict := t.dict.set name value }
  | .del name => { t with dict := dictDel t.dict name }

/-- `OrderedClass` (testbook.py:29-44) on a class body. The names the interpreter itself binds
(`__module__`, `__qualname__`) are part of the body. -/
def memberTable (body : List (BodyStep F)) : MemberTable F := body.foldl memberStep ⟨[], []⟩

/-- The loop of `TestBook.__init__` (testbook.py:75-82): `inherited` is the attribute lookup in the base
classes. A bound method has `__func__`; with anything else an `AttributeError` is raised (`none`).
Attributes set on the instance before `__init__` are not modelled, nor is `_self_type`. -/
def bookCases (table : MemberTable F) (inherited : Str → Option (Member F)) : List Str → Option (Cases F)
  | [] => some []
  | name :: rest =>
    match cleanMethodName name with
    | none => bookCases table inherited rest
    | some clean =>
      match (table.dict.get name).or (inherited name) with
      | none => bookCases table inherited rest
      | some .other => none
      | some (.method f) => (bookCases table inherited rest).map ((clean, f) :: ·)

/-- The default path of a book with a given name (testbook.py:66-72). -/
def bookPath (classPath : Str) (name : Option Str) : Str :=
  match name with
  | none => classPath
  | some name => join ['/'] ((split '/' classPath).dropLast ++ [name])

/-- `TestBook.__init__` (testbook.py:57-87), with the default path of the class. -/
def testBook (fullPath : Option Str) (classPath : Str) (name : Option Str) (body : List (BodyStep F))
    (inherited : Str → Option (Member F)) : Option (Cases F) :=
  let path := fullPath.getD (bookPath classPath name)
  let table := memberTable body
  (bookCases table inherited table.names).map (testSuite path)

/-! ### Choices -/

/-- The inner loop (tests.py:333-339) over the parts of a name; the first argument is `prefix`. -/
def choicesOfParts : Str → List Str → List Str → List Str
  | _, [], choices => choices
  | pre, p :: ps, choices =>
    let pre := if pre.length > 0 then pre ++ "/".toList else pre
    let pre := pre ++ p
    choicesOfParts pre ps
      (if choices.contains pre then choices else choices ++ [pre, "skip:".toList ++ pre])

/-- The choices of the argument `test_cases` (tests.py:329-339). -/
def testChoices (names : List Str) : List Str :=
  names.foldl (fun choices name => choicesOfParts [] (split '/' name) choices) ["*".toList]

end Verif.Model
