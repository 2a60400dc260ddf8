import Verif.Model.Detection

/-! # Which files are test files, and which tests they contain -/

namespace Verif.Spec
open Verif.Py Verif.Model

variable {F : Type}

/-- There is a file `f` in the directory with the given path below the top of a tree. -/
inductive HasFile : Tree → List Str → Str → Prop where
  | here {files dirs f} : f ∈ files → HasFile (.dir files dirs) [] f
  | inside {files dirs d p f} : d ∈ dirs → HasFile d.2 p f → HasFile (.dir files dirs) (d.1 :: p) f

/-- A name of a file or directory. -/
def FileName (n : Str) : Prop := n ≠ [] ∧ '/' ∉ n

/-- No name occurs twice in a directory, and all are names. -/
inductive ProperTree : Tree → Prop where
  | dir {files dirs} : files.Nodup → (dirs.map (·.1)).Nodup → (∀ f ∈ files, FileName f) →
      (∀ d ∈ dirs, FileName d.1) → (∀ d ∈ dirs, ProperTree d.2) → ProperTree (.dir files dirs)

/-- A path that is not empty and does not end in a slash. -/
def ProperTop (top : Str) : Prop := top ≠ [] ∧ top.getLast? ≠ some '/'

/-- The names that make a file a test file. -/
def TestFile (f : Str) : Prop :=
  (∃ x, f = x ++ "_test.py".toList) ∨ (∃ x, f = x ++ "_book.py".toList) ∨
  (∃ x, f = x ++ "_suite.py".toList) ∨ ((∃ x, f = "test_".toList ++ x) ∧ ∃ x, f = x ++ ".py".toList)

/-- The name of the module in the file `stem.py`. -/
def DottedName (top : Str) (p : List Str) (stem : Str) : Str := join ['.'] (split '/' top ++ p ++ [stem])

/-- The name of the test function `test_x` in the file `stem.py`: the path, the file without its suffix
(if anything is left of it), the function. -/
def FunctionTest (u : Unicode) (top : Str) (p : List Str) (stem x : Str) : Str :=
  let file := cleanTestPostfix u stem
  join ['/'] (split '/' top ++ p ++ (if file = [] then [] else [file]) ++ [x])

/-- The tests of a module, where the test `test_x` is called `name x`. -/
def TestIn (name : Str → Str) (m : Module F) (c : Str × F) : Prop :=
  (∃ n cases, (n, .bookClass 0 (some cases)) ∈ m ∧ c ∈ cases) ∨
  (∃ n cases, (n, .suite cases) ∈ m ∧ c ∈ cases) ∨
  ∃ x needed f, ("test_".toList ++ x, .function needed f) ∈ m ∧ c = (name x, f)

/-- A module that cannot be loaded: it cannot be imported, or a test book cannot be created. -/
def Unloadable (m : Option (Module F)) : Prop :=
  m = none ∨ ∃ m', m = some m' ∧ ∃ n, (n, .bookClass 0 none) ∈ m'

/-- A test file below a path with its module. -/
structure TestModule (trees : Str → Option Tree) (imports : Str → Option (Module F)) (top : Str)
    (p : List Str) (stem : Str) (m : Option (Module F)) : Prop where
  file : ∃ t, trees top = some t ∧ HasFile t p (stem ++ ".py".toList)
  isTest : TestFile (stem ++ ".py".toList)
  module : m = imports (DottedName top p stem)

/-- Two listings of the same files. -/
def SameFiles (trees trees' : Str → Option Tree) : Prop :=
  ∀ top p f, (∃ t, trees top = some t ∧ HasFile t p f) ↔ (∃ t, trees' top = some t ∧ HasFile t p f)

/-- A `__booktest__.py` below a path with its module. -/
structure SetupModule (trees : Str → Option Tree) (imports : Str → Option (Module F)) (top : Str)
    (p : List Str) (m : Option (Module F)) : Prop where
  file : ∃ t, trees top = some t ∧ HasFile t p "__booktest__.py".toList
  module : m = imports (DottedName top p "__booktest__".toList)

/-- It cannot be imported, or its setup function needs arguments. -/
def BadSetup (m : Option (Module F)) : Prop :=
  m = none ∨ ∃ m', m = some m' ∧ ∃ needed g, needed ≠ 0 ∧
    ("process_setup_teardown".toList, .function needed g) ∈ m'

/-- The process setup in a module. -/
def SetupIn (m : Module F) (s : Option F) : Prop :=
  match s with
  | some g => ("process_setup_teardown".toList, .function 0 g) ∈ m
  | none => ∀ needed g, ("process_setup_teardown".toList, .function needed g) ∉ m

end Verif.Spec
