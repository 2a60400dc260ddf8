import Verif.Model.Suites

/-! # Model of `booktest/detection.py` and of `setup_test_suite` in `booktest/cli.py`

The file system is given as the trees that `os.walk` sees, the modules as what `dir` and `getattr` show
of them.  Not modelled: links (`os.walk` does not follow them), files that change during the search,
`sys.path` (detection.py:95-97, cli.py:26) and how `importlib` finds a module; an import is a function of
the module name.  What a module is bound to can be of one of the kinds below. -/

namespace Verif.Model
open Verif.Py

variable {F : Type}

/-- A directory: the names of its files and its sub directories, in the order in which the operating
system lists them. -/
inductive Tree where
  | dir (files : List Str) (dirs : List (Str × Tree))

mutual
/-- `os.walk(root)` on a directory: it and everything below, from the top. -/
def walk (root : Str) : Tree → List (Str × List Str)
  | .dir files dirs => (root, files) :: walkDirs root dirs
/-- The sub directories, one after the other. -/
def walkDirs (root : Str) : List (Str × Tree) → List (Str × List Str)
  | [] => []
  | d :: rest => walk (pathJoin root d.1) d.2 ++ walkDirs root rest
end

/-- The members of a module that matter. -/
inductive ModMember (F : Type) where
  /-- A class derived from `TestBook`: how many arguments its constructor needs, and what calling it
  without arguments gives (`none` if it raises). -/
  | bookClass (needed : Nat) (book : Option (Cases F))
  /-- An instance of `TestBook` or `Tests`. -/
  | suite (cases : Cases F)
  /-- A function and the number of arguments without default. -/
  | function (needed : Nat) (f : F)
  | other

/-- A module as `dir(module)` lists it. -/
abbrev Module (F : Type) := List (Str × ModMember F)

/-- `os.path.join(root, f[:len(f) - 3]).replace("/", ".")` (detection.py:37, 64). -/
def moduleName (root f : Str) : Str :=
  (pathJoin root (f.take (f.length - 3))).map (fun c => if c = '/' then '.' else c)

/-- `parse_booktest_setup` (detection.py:36-58): the function, if there is one; `none` is an exception,
of the import or because the function needs arguments. -/
def parseSetup (imports : Str → Option (Module F)) (root f : Str) : Option (Option F) :=
  match imports (moduleName root f) with
  | none => none
  | some m =>
    m.foldlM (fun setup member =>
      match member with
      | (name, .function needed g) =>
        if name = "process_setup_teardown".toList then
          if needed ≠ 0 then none else some (some g)
        else some setup
      | _ => some setup) none

/-- The loop of `parse_test_file` (detection.py:67-87): the lists `rv` and `test_cases`.  The number of
arguments of a test function is counted (detection.py:82-86) but not used. -/
def parseMembers (suite : Str) : Module F → Option (List (Suites F) × Cases F)
  | [] => some ([], [])
  | (name, member) :: rest =>
    match member with
    | .bookClass needed book =>
      if needed = 0 then
        match book with
        | none => none
        | some cases => (parseMembers suite rest).map (fun r => (.tests cases :: r.1, r.2))
      else parseMembers suite rest
    | .suite cases => (parseMembers suite rest).map (fun r => (.tests cases :: r.1, r.2))
    | .function _ f =>
      match cleanMethodName name with
      | some x => (parseMembers suite rest).map (fun r => (r.1, (pathJoin suite x, f) :: r.2))
      | none => parseMembers suite rest
    | .other => parseMembers suite rest

/-- `parse_test_file` (detection.py:61-92). -/
def parseTestFile (u : Unicode) (imports : Str → Option (Module F)) (root f : Str) :
    Option (List (Suites F)) :=
  let suite := pathJoin root (cleanTestPostfix u (f.take (f.length - 3)))
  match imports (moduleName root f) with
  | none => none
  | some m =>
    (parseMembers suite m).map (fun r =>
      r.1 ++ (if r.2.length > 0 then [.tests r.2] else []))

/-- The file names that `detect_tests` looks for (detection.py:116-117). -/
def isTestFile (f : Str) : Bool :=
  endsWith f "_test.py".toList || endsWith f "_book.py".toList || endsWith f "_suite.py".toList ||
    (startsWith f "test_".toList && endsWith f ".py".toList)

/-- The files below a path in the order of `os.walk` (detection.py:103-104, 114-115); there are none if
the path does not exist or is a file. -/
def walkFiles (trees : Str → Option Tree) (path : Str) : List (Str × Str) :=
  match trees path with
  | none => []
  | some t => (walk path t).flatMap (fun d => d.2.map (fun f => (d.1, f)))

/-- `detect_setup` (detection.py:100-108). -/
def detectSetup (trees : Str → Option Tree) (imports : Str → Option (Module F)) (path : Str) :
    Option (Option (Option F)) :=
  (walkFiles trees path).foldlM (fun setup f =>
    if f.2 = "__booktest__.py".toList then (parseSetup imports f.1 f.2).map some
    else some setup) none

/-- `detect_tests` (detection.py:111-120). -/
def detectTests (u : Unicode) (trees : Str → Option Tree) (imports : Str → Option (Module F)) (path : Str) :
    Option (List (Suites F)) :=
  (walkFiles trees path).foldlM (fun tests f =>
    if isTestFile f.2 then (parseTestFile u imports f.1 f.2).map (tests ++ ·)
    else some tests) []

/-- The loop of `setup_test_suite` (cli.py:28-34). -/
def detectLoop (u : Unicode) (trees : Str → Option Tree) (imports : Str → Option (Module F)) :
    List Str → List (Suites F) → Option (Option F) → Option (List (Suites F) × Option (Option F))
  | [], tests, setup => some (tests, setup)
  | path :: rest, tests, setup =>
    match detectTests u trees imports path with
    | none => none
    | some ts =>
      match detectSetup trees imports path with
      | none => none
      | some pathSetup => detectLoop u trees imports rest (tests ++ ts) (pathSetup.or setup)

/-- `setup_test_suite` (cli.py:21-40): the tests that the command line offers and the process setup, for
the value of `test_paths` (`none` if it is not configured). The inner `none` of the setup means that no
`__booktest__.py` was found. -/
def detectAll (u : Unicode) (trees : Str → Option Tree) (imports : Str → Option (Module F))
    (testPaths : Option Str) : Option (Cases F × Option (Option F)) :=
  (detectLoop u trees imports (split ',' (testPaths.getD "test,book,run".toList)) [] none).map
    (fun r => (mergeTests (.list r.1), r.2))

end Verif.Model
