import Verif.Py.Dict

/-! # Model of `booktest/functions.py`

Calls, results and the exceptions of the real functions are abstract types.  The SHA-1 digest of the
JSON text of a call is the function `hash`; nothing is assumed about it, so two calls with the same
digest are the same call for the code and in the model.  A test is a tree: it makes a call, sees the
outcome (a value or an exception) and goes on depending on it.  A real function may answer anything:
the answers are an arbitrary stream. -/

namespace Verif.Model
open Verif.Py

/-- The parameters of the model. -/
structure FnTypes where
  /-- function, positional and keyword arguments -/
  C : Type
  /-- results -/
  V : Type
  /-- exceptions of the real functions -/
  E : Type
  /-- digest of `json.dumps` of the call; `none`: `json.dumps` raises (functions.py:18-26) -/
  hash : C → Option Str
  /-- what `json.load` gives back for a result written by `json.dump`; `none`: `json.dump` raises -/
  json : V → Option V

/-- `FunctionCallSnapshot` (functions.py:56-83) with the hash of its call. -/
structure FnSnap (T : FnTypes) where
  call : T.C
  hash : Str
  result : T.V

/-- What the test sees of a call: a value, the `TypeError` of `json.dumps`, the `ValueError` for a
missing snapshot, or the exception of the real function. -/
inductive FnOutcome (T : FnTypes) where
  | val (v : T.V)
  | badArgs
  | missing
  | raised (e : T.E)

/-- A test, as far as it concerns snapshotted functions. -/
inductive Prog (T : FnTypes) where
  | done
  | call (c : T.C) (k : FnOutcome T → Prog T)

/-- One call in the log of a run: the call, its outcome, whether the real function was called. -/
structure FnEvent (T : FnTypes) where
  call : T.C
  outcome : FnOutcome T
  real : Bool

variable {T : FnTypes}

/-- `for snapshot in reversed(self.snapshots): if snapshot.match(call)` (functions.py:134-135). -/
def findSnap (snaps : List (FnSnap T)) (h : Str) : Option (FnSnap T) :=
  snaps.reverse.find? (fun s => s.hash == h)

/-- `if snapshot not in self.calls: self.calls.append(snapshot)`; snapshots are compared by their
hashes (functions.py:82-83, 136-137). -/
def addCall (calls : List (FnSnap T)) (s : FnSnap T) : List (FnSnap T) :=
  if calls.any (fun x => x.hash == s.hash) then calls else calls ++ [s]

/-- `SnapshotFunctions.snapshot` (functions.py:131-150). `answers i` is what the `i`-th real call does.
Returns the outcome, the new `self.calls` and the number of real calls so far. -/
def snapshotCall (capture : Bool) (snaps : List (FnSnap T)) (answers : Nat → Except T.E T.V)
    (calls : List (FnSnap T)) (i : Nat) (c : T.C) : FnOutcome T × List (FnSnap T) × Nat :=
  match T.hash c with
  | none => (.badArgs, calls, i)
  | some h =>
    match findSnap snaps h with
    | some s => (.val s.result, addCall calls s, i)
    | none =>
      if !capture then (.missing, calls, i)
      else
        match answers i with
        | .error e => (.raised e, calls, i + 1)
        | .ok v => (.val v, calls.filter (fun x => !(x.hash == h)) ++ [⟨c, h, v⟩], i + 1)

/-- Running a test: the log and the final `self.calls`. -/
def runProg (capture : Bool) (snaps : List (FnSnap T)) (answers : Nat → Except T.E T.V) :
    Prog T → List (FnSnap T) → Nat → List (FnEvent T) × List (FnSnap T)
  | .done, calls, _ => ([], calls)
  | .call c k, calls, i =>
    let r := snapshotCall capture snaps answers calls i c
    let rest := runProg capture snaps answers (k r.1) r.2.1 r.2.2
    (⟨c, r.1, decide (r.2.2 ≠ i)⟩ :: rest.1, rest.2)

/-- The files of a `.functions` directory: name and content. -/
abbrev FnFiles (T : FnTypes) := Dict (FnSnap T)

/-- Writing the files (functions.py:180-186): `none` is the exception of `json.dump`, which leaves an
incomplete file behind (not modelled).  What is kept is what `json.load` will give back; the call is
stored with its hash, which is taken over when loading (functions.py:18). -/
def writeCalls : List (FnSnap T) → FnFiles T → Option (FnFiles T)
  | [], files => some files
  | s :: rest, files =>
    match T.json s.result with
    | none => none
    | some v => writeCalls rest (files.set (s.hash ++ ".json".toList) ⟨s.call, s.hash, v⟩)

/-- The lines of `t_snapshots` after the header (functions.py:192-195), as hashes (each line shows the
function name and the hash of a call). -/
def fnListing (calls : List (FnSnap T)) : List Str := calls.map (·.hash)

/-- The result of a block `with SnapshotFunctions(t, funcs): test`: the log of calls, the listing in the
test output and the files of the new `.functions` directory, which is empty at first because starting
the test removes its old output directory (testcaserun.py:100-101). -/
structure FnRun (T : FnTypes) where
  log : List (FnEvent T)
  listing : List Str
  files : Option (FnFiles T)

/-- The block (functions.py:109-204). `stored`: the files of the snapshot directory in the order of
`os.listdir`; they are not loaded with `refresh_snapshots` (functions.py:158-162). -/
def withFunctions (refresh complete : Bool) (stored : FnFiles T) (answers : Nat → Except T.E T.V)
    (test : Prog T) : FnRun T :=
  let snaps := if refresh then [] else stored.map (·.2)
  let r := runProg (refresh || complete) snaps answers test [] 0
  ⟨r.1, fnListing r.2, writeCalls r.2 []⟩

/-! ### Patching functions -/

/-- Function objects and the places `set_function` puts them (functions.py:99-106): the object or module
and the attribute name; `none` if the object has no `__name__` (`AttributeError`). `wrap` makes the
`FunctionSnapshotter` of a function; the wrappers of one block are not told apart from those of
another. -/
structure FnObjects where
  F : Type
  Loc : Type
  [decLoc : DecidableEq Loc]
  loc : F → Option Loc
  wrap : F → F

attribute [instance] FnObjects.decLoc

/-- The attributes of modules and objects. -/
abbrev Attrs (O : FnObjects) := O.Loc → Option O.F

variable {O : FnObjects}

/-- `set_function` (functions.py:99-106); `none` is the `AttributeError`. -/
def setFunction (a : Attrs O) (f value : O.F) : Option (Attrs O) :=
  match O.loc f with
  | none => none
  | some l => some (fun x => if x = l then some value else a x)

/-- The patching loops of `SnapshotFunctions.start` (functions.py:166-169) and `MockFunctions.start`
(functions.py:243-245): the attributes, and whether an exception was raised. -/
def patchAll (a : Attrs O) : List (O.F × O.F) → Attrs O × Bool
  | [] => (a, false)
  | (f, value) :: rest =>
    match setFunction a f value with
    | none => (a, true)
    | some a' => patchAll a' rest

/-- The loops of `stop` (functions.py:176-178, 250-251). -/
def unpatchAll (a : Attrs O) (fs : List O.F) : Attrs O × Bool := patchAll a (fs.map (fun f => (f, f)))

/-- `with SnapshotFunctions(…)`/`with MockFunctions(…)` around a test that does something to the
attributes: what the test saw (`none`: not called), the attributes afterwards, whether the block
raised. -/
def withPatched (funcs : List (O.F × O.F)) (test : Attrs O → Attrs O) (a : Attrs O) :
    Option (Attrs O) × Attrs O × Bool :=
  match patchAll a funcs with
  | (a1, true) => (none, a1, true)
  | (a1, false) =>
    let r := unpatchAll (test a1) (funcs.map (·.1))
    (some a1, r.1, r.2)

/-- The patches of `snapshot_functions(*funcs)`. -/
def snapshotPatches (O : FnObjects) (funcs : List O.F) : List (O.F × O.F) :=
  funcs.map (fun f => (f, O.wrap f))

end Verif.Model
