import Verif.Model.Cache
import Verif.Model.Console

/-! # Model of `depends_on` in `booktest/dependencies.py`: what a test function is called with

Function objects are numbered as in `Model/Selection.lean`; decorators are applied to functions, not to
bound methods.  `async` functions are called like others (`maybe_async_call`, coroutines.py:4-8).  The
runner passes no keyword arguments (testrun.py:94-97). -/

namespace Verif.Model
open Verif.Py

variable {V : Type}

/-- What is passed to `depends_on`: a method, or a `Resource` with its identifier and value
(dependencies.py:17-21). -/
inductive Dep (V : Type) where
  | method (m : Meth)
  | resource (id : Nat) (value : V)

/-- How a function object came about. -/
inductive FnKind (V : Type) where
  /-- A function without decorators. -/
  | plain
  /-- `wrapper` of `depends_on(*ds)(f)` (dependencies.py:137-150). -/
  | dependsOn (ds : List (Dep V)) (f : Nat)
  /-- `wrapper` of another decorator of booktest, which calls `f` with its own arguments (env.py:79-88,
  137-148, 191-197, functions.py:211-222, 268-279, requests.py:395-406, httpx.py:336-347,
  utils.py:26-33). -/
  | around (f : Nat)

/-- An argument of a test function. -/
inductive Arg (V : Type) where
  /-- The instance. -/
  | self (o : Nat)
  /-- The `TestCaseRun`. -/
  | case
  /-- A value; `none` is `None`. -/
  | value (v : Option V)
deriving DecidableEq

/-- The tests and the functions. -/
structure DepWorld (V : Type) where
  suite : Suite
  kind : Nat → FnKind V
  /-- `isinstance(object, TestBook)`. -/
  isBook : Nat → Bool

/-- The methods among the dependencies (dependencies.py:128-133). -/
def depMethods : List (Dep V) → List Meth
  | [] => []
  | .method m :: ds => m :: depMethods ds
  | .resource _ _ :: ds => depMethods ds

/-- The resources among the dependencies (dependencies.py:128-133): their identifiers, by which they are
compared (dependencies.py:23-27). -/
def depResources : List (Dep V) → List Nat
  | [] => []
  | .method _ :: ds => depResources ds
  | .resource i _ :: ds => i :: depResources ds

/-- The attributes are those that the decorators give to their wrappers: `functools.wraps` copies the
attributes of the function, `depends_on` sets its own (dependencies.py:147-149), and every wrapper has
`_original_function`. -/
structure DepWorld.Decorated (w : DepWorld V) : Prop where
  plain : ∀ f, w.kind f = .plain →
    (w.suite.info f).orig = none ∧ (w.suite.info f).deps = none ∧ (w.suite.info f).resources = []
  dependsOn : ∀ f ds g, w.kind f = .dependsOn ds g → g < f ∧ (w.suite.info f).orig = some ⟨none, g⟩ ∧
    (w.suite.info f).deps = some (depMethods ds) ∧ (w.suite.info f).resources = depResources ds
  around : ∀ f g, w.kind f = .around g → g < f ∧ (w.suite.info f).orig = some ⟨none, g⟩ ∧
    (w.suite.info f).deps = (w.suite.info g).deps ∧
    (w.suite.info f).resources = (w.suite.info g).resources

/-- How the call of a test ends, as far as dependencies are concerned. -/
inductive Called (V : Type) where
  /-- The undecorated function is called with these arguments. -/
  | called (f : Nat) (args : List (Arg V))
  /-- `ValueError`: no test for the dependency (dependencies.py:93-94, 114-115). -/
  | notFound (d : Meth)
  /-- The exception of `get_test_result` for a missing result (testrun.py:70-72). -/
  | missing
  /-- `KeyError` of the cache (testrun.py:74). -/
  | keyError
  /-- `AttributeError` or `IndexError`: the first argument is not a `TestCaseRun`. -/
  | noRun
  /-- There is no such test: `None` is called (testrun.py:154, 97). -/
  | noTest
  | hangs

/-- `TestRun.get_test_result` (testrun.py:59-76); `none` is `(False, None)`. -/
def getTestResult (w : DepWorld V) (c : Cache V) (st : Store V) (m : Meth) : Option (Loaded V) × Cache V :=
  match caseByMethod w.suite m with
  | none => (none, c)
  | some n => (some (loadResult c st n).1, (loadResult c st n).2)

/-- The search for the result of a dependency (dependencies.py:77-94 for a test of the book `self`,
109-115 for a function). -/
def depResult (w : DepWorld V) (self : Option Nat) (c : Cache V) (st : Store V) (d : Meth) :
    Option (Loaded V) × Cache V :=
  match self with
  | none => getTestResult w c st d
  | some o =>
    match getTestResult w c st (bindTo o d) with
    | (some r, c) => (some r, c)
    | (none, c) => getTestResult w c st d

/-- The loop over the dependencies (dependencies.py:72-96, 105-117): the values appended to `args2`, or
the exception. -/
def depArgs (w : DepWorld V) (self : Option Nat) (st : Store V) :
    Cache V → List (Dep V) → Except (Called V) (List (Arg V)) × Cache V
  | c, [] => (.ok [], c)
  | c, .resource _ v :: ds =>
    match depArgs w self st c ds with
    | (.ok args, c) => (.ok (.value (some v) :: args), c)
    | (.error e, c) => (.error e, c)
  | c, .method d :: ds =>
    match depResult w self c st d with
    | (none, c) => (.error (.notFound d), c)
    | (some .missing, c) => (.error .missing, c)
    | (some .keyError, c) => (.error .keyError, c)
    | (some .hangs, c) => (.error .hangs, c)
    | (some (.value v), c) =>
      match depArgs w self st c ds with
      | (.ok args, c) => (.ok (.value v :: args), c)
      | (.error e, c) => (.error e, c)

/-- Calling a function (dependencies.py:65-119, 137-145), for chains of at most `n` wrapped functions.
Arguments after the `TestCaseRun` are not passed on by `depends_on`. -/
def callFn (w : DepWorld V) (st : Store V) : Nat → Cache V → Nat → List (Arg V) → Called V × Cache V
  | 0, c, f, args => (.called f args, c)
  | n + 1, c, f, args =>
    match w.kind f with
    | .plain => (.called f args, c)
    | .around g => callFn w st n c g args
    | .dependsOn ds g =>
      match args with
      | .self o :: rest =>
        if w.isBook o then
          match rest with
          | .case :: _ =>
            match depArgs w (some o) st c ds with
            | (.ok vs, c) => callFn w st n c g (.self o :: .case :: vs)
            | (.error e, c) => (e, c)
          | _ => (.noRun, c)
        else (.noRun, c)
      | .case :: _ =>
        match depArgs w none st c ds with
        | (.ok vs, c) => callFn w st n c g (.case :: vs)
        | (.error e, c) => (e, c)
      | _ => (.noRun, c)

/-- `case(t)` (testrun.py:94-97).  A chain that starts at function `n` has at most `n` further
elements. -/
def callTest (w : DepWorld V) (st : Store V) (c : Cache V) (m : Meth) : Called V × Cache V :=
  callFn w st m.fn c m.fn (match m.self with
    | some o => [.self o, .case]
    | none => [.case])

/-- What is known of the execution of a test: its call, the result and the value it returned. -/
structure Entry (V : Type) where
  name : Str
  call : Called V
  result : Result
  value : Option V

/-- `run_case` as far as values are concerned (testrun.py:88-107).  `body` are the undecorated test
functions: the result of the comparison (after review) and the returned value; a test whose call raises
an exception fails.  `none` if it does not end. -/
def runEntry (w : DepWorld V) (body : Nat → List (Arg V) → Result × Option V) (c : Cache V) (st : Store V)
    (n : Str) : Option (Entry V × Cache V × Store V) :=
  match getCase w.suite n with
  | none => some (⟨n, .noTest, .FAIL, none⟩, c, st)
  | some m =>
    match callTest w st c m with
    | (.hangs, _) => none
    | (.called f args, c) =>
      match body f args with
      | (.FAIL, v) => some (⟨n, .called f args, .FAIL, v⟩, c, st)
      | (r, v) => some (⟨n, .called f args, r, v⟩, saveResult c st n v)
    | (e, c) => some (⟨n, e, .FAIL, none⟩, c, st)

/-- The tests are executed one after the other (testrun.py:153-179). -/
def runEntries (w : DepWorld V) (body : Nat → List (Arg V) → Result × Option V) :
    Cache V → Store V → List Str → Option (List (Entry V))
  | _, _, [] => some []
  | c, st, n :: ns =>
    match runEntry w body c st n with
    | none => none
    | some (e, c, st) => (runEntries w body c st ns).map (e :: ·)

/-- An identifier of a resource, as far as it is a number or a text. -/
inductive ResId where
  | int (n : Int)
  | str (s : Str)
deriving DecidableEq

/-- The identifier of `port(value)` (dependencies.py:30-36), for numbers that are not negative. -/
def portId (value : Nat) : ResId := .str ("port=".toList ++ natText value)

end Verif.Model
