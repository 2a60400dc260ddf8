import Verif.Model.Reports

/-! # Model of test selection and dependency resolution

`booktest/tests.py`, `booktest/dependencies.py` and the matching of methods in
`booktest/testrun.py`. -/

namespace Verif.Model
open Verif.Py

/-! ### Selection -/

/-- The match of a name with an argument (tests.py:33-36, 45-48). -/
def argMatches (name s : Str) : Bool :=
  startsWith name s && (s.length == 0 || name.length == s.length || name[s.length]? == some '/')

/-- The first loop of `is_selected` (tests.py:27-38): `none` if a negative argument matches, else the
number of negative arguments. -/
def negatives (name : Str) : List Str → Option Nat
  | [] => some 0
  | s :: ss =>
    if startsWith s "skip:".toList then
      if argMatches name (s.drop "skip:".toList.length) then none
      else (negatives name ss).map (· + 1)
    else negatives name ss

/-- `Tests.is_selected` (tests.py:22-50). -/
def isSelected (name : Str) (selection : List Str) : Bool :=
  match negatives name selection with
  | none => false
  | some k =>
    if k = selection.length then true
    else selection.any (fun s => s == "*".toList || argMatches name s)

/-! ### Methods

Function objects are identified by numbers, given in the order of creation; instances and classes
too.  A method is a function, perhaps bound to an instance. -/

/-- A function object, or a bound method if `self` is given. -/
structure Meth where
  self : Option Nat
  fn : Nat
deriving DecidableEq, Repr

/-- The attributes of a function object that booktest looks at. -/
structure FnInfo where
  /-- `_original_function` of a decorator's wrapper. -/
  orig : Option Meth := none
  /-- `_dependencies` (methods only; resources are separate). -/
  deps : Option (List Meth) := none
  /-- `_resources`: identifiers. -/
  resources : List Nat := []
  /-- `_self_type`. -/
  selfType : Option Nat := none

/-- The tests, and the world of functions and instances they live in. -/
structure Suite where
  cases : List (Str × Meth)
  info : Nat → FnInfo
  /-- `isinstance(object, class)`. -/
  isInstance : Nat → Nat → Bool

/-- `get_decorated_attr(method, attr)` (dependencies.py:39-46), where `attr` looks up the attribute on
one object, for chains of at most `n` wrapped functions. -/
def decoratedAttr {α : Type} (s : Suite) (attr : Meth → Option α) : Nat → Meth → Option α
  | 0, m => attr m
  | n + 1, m =>
    match attr m with
    | some a => some a
    | none =>
      match (s.info m.fn).orig with
      | none => none
      | some m' => decoratedAttr s attr n m'

/-- `get_decorated_attr(method, "__self__")`.  Functions are numbered in the order of creation and a
wrapper is created after the function it wraps, so a chain that starts at function `n` has at most
`n` further elements. -/
def decoratedSelf (s : Suite) (m : Meth) : Option Nat := decoratedAttr s (·.self) m.fn m

/-- `get_decorated_attr(method, "__func__")`. -/
def decoratedFunc (s : Suite) (m : Meth) : Option Nat :=
  decoratedAttr s (fun m => m.self.map (fun _ => m.fn)) m.fn m

/-- `get_decorated_attr(method, "_self_type")`; a bound method has the attributes of its function. -/
def decoratedType (s : Suite) (m : Meth) : Option Nat :=
  decoratedAttr s (fun m => (s.info m.fn).selfType) m.fn m

/-- `method_identity` (testrun.py:19-26). -/
def identity (s : Suite) (m : Meth) : Option Nat × Nat :=
  (decoratedSelf s m, (decoratedFunc s m).getD m.fn)

/-- `match_method` (testrun.py:28-31). -/
def matchMethod (s : Suite) (matcher m : Meth) : Bool :=
  (identity s matcher).2 == (identity s m).2 &&
    ((identity s matcher).1 == (identity s m).1 || (identity s matcher).1 == none)

/-- `method.__get__(self, cls)`: binds a function; a bound method stays as it is. -/
def bindTo (o : Nat) (m : Meth) : Meth :=
  match m.self with
  | some _ => m
  | none => { m with self := some o }

/-- `bind_dependent_method_if_unbound` (dependencies.py:55-62). -/
def bindIfUnbound (s : Suite) (m d : Meth) : Meth :=
  match decoratedType s d, decoratedSelf s m with
  | some t, some o => if s.isInstance o t then bindTo o d else d
  | _, _ => d

/-- `Tests.get_case` (tests.py:58-62). -/
def getCase (s : Suite) (name : Str) : Option Meth :=
  (s.cases.find? (fun c => c.1 == name)).map (·.2)

/-- `Tests.case_by_method` (tests.py:64-68). -/
def caseByMethod (s : Suite) (m : Meth) : Option Str :=
  (s.cases.find? (fun c => matchMethod s m c.2)).map (·.1)

/-- There is no cache directory, or no stored result in it (tests.py:81-82, 55-56). -/
def missing : Option (Str → Bool) → Str → Bool
  | none, _ => true
  | some f, c => !f c

/-- `Tests.method_dependencies` (tests.py:70-85).  `stored` is `none` if there is no cache directory,
else it tells for which tests a result file exists in it. -/
def methodDependencies (s : Suite) (m : Meth) (selection : List Str) (stored : Option (Str → Bool)) :
    List Str :=
  match (s.info m.fn).deps with
  | none => []
  | some ds => ds.filterMap (fun d =>
      match caseByMethod s (bindIfUnbound s m d) with
      | none => none
      | some c =>
        if isSelected c selection || missing stored c then some c
        else none)

/-- One level of the recursion in `all_method_dependencies`, given the recursive call. -/
def concatDeps (rec_ : Str → Option (List Str)) : List Str → Option (List Str)
  | [] => some []
  | d :: ds =>
    match rec_ d with
    | none => none
    | some r =>
      match concatDeps rec_ ds with
      | none => none
      | some rs => some (r ++ d :: rs)

/-- `Tests.all_method_dependencies` (tests.py:95-105) with `fuel` levels of recursion; `none` is
`RecursionError`. -/
def allDependencies (s : Suite) (selection : List Str) (stored : Option (Str → Bool)) :
    Nat → Meth → Option (List Str)
  | 0, _ => none
  | fuel + 1, m =>
    concatDeps (fun d =>
      match getCase s d with
      | none => none
      | some m' => allDependencies s selection stored fuel m')
      (methodDependencies s m selection stored)

/-- `if x not in selected: selected.append(x)`. -/
def addNew (l : List Str) (x : Str) : List Str := if x ∈ l then l else l ++ [x]

/-- The loop of `Tests.selected_names` (tests.py:110-123). -/
def selectLoop (s : Suite) (selection : List Str) (stored : Option (Str → Bool)) (fuel : Nat) :
    List (Str × Meth) → List Str → Option (List Str)
  | [], acc => some acc
  | c :: cs, acc =>
    if isSelected c.1 selection then
      match allDependencies s selection stored fuel c.2 with
      | none => none
      | some ds => selectLoop s selection stored fuel cs (addNew (ds.foldl addNew acc) c.1)
    else selectLoop s selection stored fuel cs acc

/-- `Tests.selected_names` (tests.py:110-123). -/
def selectedNames (s : Suite) (selection : List Str) (stored : Option (Str → Bool)) (fuel : Nat) :
    Option (List Str) :=
  selectLoop s selection stored fuel s.cases []

/-- The test whose result is handed to method `m` for the declared dependency `d`: the search of
`call_class_method_test` and `call_function_test` (dependencies.py:65-119) with
`TestRun.get_test_result` (testrun.py:59-76). -/
def usedCase (s : Suite) (m d : Meth) : Option Str :=
  match decoratedSelf s m with
  | some o =>
    match caseByMethod s (bindTo o d) with
    | some c => some c
    | none => caseByMethod s d
  | none => caseByMethod s d

/-- `Tests.method_resources` (tests.py:87-93). -/
def methodResources (s : Suite) (m : Meth) : List Nat := (s.info m.fn).resources

end Verif.Model
