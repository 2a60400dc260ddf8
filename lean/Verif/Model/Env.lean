import Verif.Py.Dict

/-! # Model of `booktest/env.py`

`os.environ` is a function from names to values; the names and values are taken to be ones the
operating system accepts (no NUL, no `=` in a name).  A test is an arbitrary function on the
environment: whether it returns or raises makes no difference to the `with` blocks, whose
`__exit__` is called in either case.  `__exit__` is not called if `__enter__` raises. -/

namespace Verif.Model
open Verif.Py

/-- `os.environ`. -/
abbrev OsEnv := Str → Option Str

/-- `os.environ[k] = v` for a string, or removal. -/
def OsEnv.put (o : OsEnv) (k : Str) (v : Option Str) : OsEnv := fun x => if x = k then v else o x

/-- A value found in a dictionary of mocked variables or in a snapshot file: `None`, a string, or any
other object. -/
inductive EVal where
  | none
  | str (s : Str)
  | other
deriving DecidableEq, Repr

/-- What `os.environ.get(name)` returns, as a value. -/
def EVal.ofOption : Option Str → EVal
  | Option.none => .none
  | some s => .str s

/-- The exceptions raised here: `KeyError`, `TypeError`, and "missing env snapshot". -/
inductive EnvErr where
  | keyError | typeError | missing (name : Str)
deriving DecidableEq, Repr

/-- `del os.environ[name]`. -/
def delVar (o : OsEnv) (name : Str) : OsEnv × Option EnvErr :=
  match o name with
  | Option.none => (o, some .keyError)
  | some _ => (o.put name none, none)

/-- `os.environ[name] = value`; only strings are accepted. -/
def setVar (o : OsEnv) (name : Str) (v : EVal) : OsEnv × Option EnvErr :=
  match v with
  | .str s => (o.put name (some s), none)
  | _ => (o, some .typeError)

/-- What became of a `with` block around a test: the environment the test saw (`none`: it was not
called), the environment afterwards, and the exception raised by the block itself. -/
structure EnvRun where
  seen : Option OsEnv
  after : OsEnv
  err : Option EnvErr

/-! ### `MockEnv` -/

/-- The loop of `MockEnv.start` (env.py:160-173). -/
def mockStart : List (Str × EVal) → OsEnv → Dict (Option Str) → OsEnv × Dict (Option Str) × Option EnvErr
  | [], o, old => (o, old, none)
  | (name, value) :: rest, o, old =>
    let old := old.set name (o name)
    if value = .none then
      if (o name).isSome then mockStart rest (o.put name none) old
      else mockStart rest o old
    else
      match setVar o name value with
      | (o, some x) => (o, old, some x)
      | (o, none) => mockStart rest o old

/-- `MockEnv.stop` (env.py:175-182). -/
def mockStop : Dict (Option Str) → OsEnv → OsEnv
  | [], o => o
  | (name, none) :: rest, o => mockStop rest (if (o name).isSome then o.put name none else o)
  | (name, some v) :: rest, o => mockStop rest (o.put name (some v))

/-- `with MockEnv(env): test` (env.py:153-188). -/
def withMockEnv (env : List (Str × EVal)) (test : OsEnv → OsEnv) (o : OsEnv) : EnvRun :=
  match mockStart env o [] with
  | (o1, _, some x) => ⟨none, o1, some x⟩
  | (o1, old, none) => ⟨some o1, mockStop old (test o1), none⟩

/-! ### `MockMissingEnv` -/

/-- The loop of `MockMissingEnv.start` (env.py:108-121). -/
def missingStart : List (Str × EVal) → OsEnv → Dict (Option Str) →
    OsEnv × Dict (Option Str) × Option EnvErr
  | [], o, old => (o, old, none)
  | (name, value) :: rest, o, old =>
    let old' := old.set name (o name)
    if (o name).isNone then
      match (if value = .none then delVar o name else setVar o name value) with
      | (o, some x) => (o, old', some x)
      | (o, none) => missingStart rest o old'
    else missingStart rest o old'

/-- The loop of `MockMissingEnv.stop` (env.py:123-128), also of `SnapshotEnv.stop` (env.py:54-59). -/
def plainStop : Dict (Option Str) → OsEnv → OsEnv × Option EnvErr
  | [], o => (o, none)
  | (name, none) :: rest, o =>
    match delVar o name with
    | (o, some x) => (o, some x)
    | (o, none) => plainStop rest o
  | (name, some v) :: rest, o => plainStop rest (o.put name (some v))

/-- `with MockMissingEnv(t, env): test` (env.py:94-134).  `refresh` and `complete` are the settings
`refresh_snapshots` and `complete_snapshots`: they go into `_do_mock` (env.py:102-106), which is not
used. -/
def withMissingEnv (_refresh _complete : Bool) (env : List (Str × EVal)) (test : OsEnv → OsEnv)
    (o : OsEnv) : EnvRun :=
  match missingStart env o [] with
  | (o1, _, some x) => ⟨none, o1, some x⟩
  | (o1, old, none) =>
    let r := plainStop old (test o1)
    ⟨some o1, r.1, r.2⟩

/-! ### `SnapshotEnv` -/

/-- The loop of `SnapshotEnv.start` (env.py:32-52): environment, `_old_env`, `capture`, exception. -/
def snapStart (capturing : Bool) (snaps : Dict EVal) : List Str → OsEnv → Dict (Option Str) → Dict EVal →
    OsEnv × Dict (Option Str) × Dict EVal × Option EnvErr
  | [], o, old, cap => (o, old, cap, none)
  | name :: rest, o, old, cap =>
    let oldValue := o name
    let old := old.set name oldValue
    match snaps.get name with
    | some value =>
      match (if value = .none then delVar o name else setVar o name value) with
      | (o, some x) => (o, old, cap, some x)
      | (o, none) => snapStart capturing snaps rest o old (cap.set name value)
    | none =>
      if capturing then snapStart capturing snaps rest o old (cap.set name (.ofOption oldValue))
      else (o, old, cap, some (.missing name))

/-- What became of a `with SnapshotEnv` block: additionally the content written to `.env.json`. -/
structure SnapRun extends EnvRun where
  written : Option (Dict EVal)

/-- The snapshots that are loaded (env.py:27-30): the dictionary in the snapshot file, unless there is
none or `refresh_snapshots` is set.  (JSON values in a file with another top level value than an
object are not modelled.) -/
def loadedSnaps (refresh : Bool) (file : Option (Dict EVal)) : Dict EVal :=
  if refresh then [] else file.getD []

/-- `with SnapshotEnv(t, names): test` (env.py:9-74).  If `stop` raises, nothing is written. The
listing of the captured variables in the test output is `snapLines`. -/
def withSnapshotEnv (refresh complete : Bool) (file : Option (Dict EVal)) (names : List Str)
    (test : OsEnv → OsEnv) (o : OsEnv) : SnapRun :=
  match snapStart (complete || refresh) (loadedSnaps refresh file) names o [] [] with
  | (o1, _, _, some x) => ⟨⟨none, o1, some x⟩, none⟩
  | (o1, old, cap, none) =>
    match plainStop old (test o1) with
    | (o2, some x) => ⟨⟨some o1, o2, some x⟩, none⟩
    | (o2, none) => ⟨⟨some o1, o2, none⟩, some cap⟩

/-- `str(value)`. -/
def EVal.show : EVal → Str
  | .none => "None".toList
  | .str s => s
  | .other => "…".toList

/-- The lines printed by `t_snapshots` after its header (env.py:64-67); the text of a value that is
neither `None` nor a string is not modelled (such a value never gets into `capture`). -/
def snapLines (cap : Dict EVal) : List Str :=
  cap.map (fun p => " * ".toList ++ p.1 ++ "=".toList ++ p.2.show)

end Verif.Model
