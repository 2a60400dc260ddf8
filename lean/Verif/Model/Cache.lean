import Verif.Model.Parallel

/-! # Model of `booktest/cache.py` and of the test results kept by `TestRun`

Values are the Python objects that tests return; `none` is Python's `None`.  Pickling and unpickling
is taken to preserve values (`pickle.load(pickle.dump(v)) = v`).  Apart from `mutate`, objects are
taken to be immutable.  The result of a test is kept under its name: `test_result_path` (tests.py:52-53)
is the name with a fixed prefix and a fixed suffix. -/

namespace Verif.Model
open Verif.Py

variable {V : Type}

/-- `OrderedDict`: the items in order, oldest first. -/
abbrev ODict (V : Type) := List (Option Str × V)

/-- `d.get(key)`: `none` is a missing key. -/
def odGet (d : ODict V) (key : Option Str) : Option V :=
  match d with
  | [] => none
  | (k, v) :: rest => if k = key then some v else odGet rest key

/-- `d[key] = value`: in place, or appended. -/
def odSet (d : ODict V) (key : Option Str) (value : V) : ODict V :=
  match d with
  | [] => [(key, value)]
  | (k, v) :: rest => if k = key then (key, value) :: rest else (k, v) :: odSet rest key value

/-- `del d[key]`. -/
def odDel (d : ODict V) (key : Option Str) : ODict V := d.filter (fun e => e.1 ≠ key)

/-- `d.move_to_end(key)`, for a key that is there. -/
def odMoveToEnd (d : ODict V) (key : Option Str) : ODict V :=
  match odGet d key with
  | none => d
  | some v => odDel d key ++ [(key, v)]

/-- `LruCache.__getitem__` (cache.py:18-23): the value (`None` for a missing key) and the cache
afterwards. -/
def lruGet (d : ODict (Option V)) (key : Option Str) : Option V × ODict (Option V) :=
  match odGet d key with
  | none => (none, d)
  | some v => (v, odMoveToEnd d key)

/-- `LruCache.__setitem__` (cache.py:25-35). -/
def lruSet (size : Nat) (d : ODict (Option V)) (key : Option Str) (value : Option V) :
    ODict (Option V) :=
  if key = none then
    match odGet d key with
    | some (some _) => odDel d key
    | _ => d
  else
    let d := odMoveToEnd (odSet d key value) key
    if d.length > size then d.drop 1 else d

/-- The caches that can be passed to a run (tests.py:355-364). -/
inductive Cache (V : Type) where
  | dict (d : ODict (Option V))
  | lru (size : Nat) (d : ODict (Option V))
  | noCache

/-- `key in cache`.  `NoCache` does not define `__contains__`, so Python falls back to asking for the
items 0, 1, 2, … one after the other until an `IndexError`, which `NoCache.__getitem__` (cache.py:45-46)
never raises: `none` stands for this endless loop. -/
def Cache.contains (c : Cache V) (key : Str) : Option Bool :=
  match c with
  | .dict d => some (odGet d (some key)).isSome
  | .lru _ d => some (odGet d (some key)).isSome
  | .noCache => none

/-- `cache[key]` (cache.py:18-23, 45-46); `none` is `KeyError`. -/
def Cache.get (c : Cache V) (key : Str) : Option (Option V) × Cache V :=
  match c with
  | .dict d => (odGet d (some key), c)
  | .lru n d => (some (lruGet d (some key)).1, .lru n (lruGet d (some key)).2)
  | .noCache => (some none, c)

/-- `cache[key] = value` (cache.py:25-35, 48-49). -/
def Cache.set (c : Cache V) (key : Str) (value : Option V) : Cache V :=
  match c with
  | .dict d => .dict (odSet d (some key) value)
  | .lru n d => .lru n (lruSet n d (some key) value)
  | .noCache => .noCache

/-- The result files of the output directory. -/
abbrev Store (V : Type) := Str → Option V

def Store.set (st : Store V) (key : Str) (v : Option V) : Store V := fun k => if k = key then v else st k

/-- How reading a result ends. -/
inductive Loaded (V : Type) where
  | value (v : Option V)
  /-- The exception "dependency … missing in …". -/
  | missing
  /-- `KeyError`. -/
  | keyError
  /-- It does not end. -/
  | hangs

/-- `TestRun.get_test_result` for the matching test (testrun.py:63-74). -/
def loadResult (c : Cache V) (st : Store V) (key : Str) : Loaded V × Cache V :=
  let fetch (c : Cache V) : Loaded V × Cache V :=
    match c.get key with
    | (some v, c) => (.value v, c)
    | (none, c) => (.keyError, c)
  match c.contains key with
  | none => (.hangs, c)
  | some true => fetch c
  | some false =>
    match st key with
    | some v => fetch (c.set key (some v))
    | none => (.missing, c)

/-- `TestRun.save_test_result` (testrun.py:78-86). -/
def saveResult (c : Cache V) (st : Store V) (key : Str) (v : Option V) : Cache V × Store V :=
  (c.set key v, st.set key v)

/-- What happens to the results during a run of several processes: `save` for a test that ended with
OK or DIFF (testrun.py:103-105), `load` for a dependency of a test (dependencies.py:65-119). -/
inductive MemEv (V : Type) where
  | save (w : Nat) (key : Str) (v : Option V)
  | load (w : Nat) (key : Str) (r : Loaded V)

/-- The caches of the processes (runs.py:22) and the result files. -/
structure Mem (V : Type) where
  cache : Nat → Cache V
  store : Store V

/-- The effect of saving. -/
def Mem.save (m : Mem V) (w : Nat) (key : Str) (v : Option V) : Mem V :=
  { cache := fun x => if x = w then (saveResult (m.cache w) m.store key v).1 else m.cache x
    store := (saveResult (m.cache w) m.store key v).2 }

/-- The effect of loading. -/
def Mem.load (m : Mem V) (w : Nat) (key : Str) : Mem V :=
  { m with cache := fun x => if x = w then (loadResult (m.cache w) m.store key).2 else m.cache x }

/-- One access to the results. -/
inductive MemStep : Mem V → MemEv V → Mem V → Prop
  | save (m : Mem V) (w : Nat) (key : Str) (v : Option V) : MemStep m (.save w key v) (m.save w key v)
  | load (m : Mem V) (w : Nat) (key : Str) :
      MemStep m (.load w key (loadResult (m.cache w) m.store key).1) (m.load w key)

/-- A sequence of accesses. -/
inductive MemRun : Mem V → List (MemEv V) → Mem V → Prop
  | nil (m : Mem V) : MemRun m [] m
  | snoc {m m' m'' : Mem V} {h : List (MemEv V)} {e : MemEv V} :
      MemRun m h m' → MemStep m' e m'' → MemRun m (h ++ [e]) m''

/-- What a dependent test does to the object it received: the object in the cache is the same one
(testrun.py:74), the file is not affected. -/
def Cache.mutate (c : Cache V) (key : Str) (f : V → V) : Cache V :=
  match c with
  | .dict d => .dict (d.map (fun e => if e.1 = some key then (e.1, e.2.map f) else e))
  | .lru n d => .lru n (d.map (fun e => if e.1 = some key then (e.1, e.2.map f) else e))
  | .noCache => .noCache

/-- A parallel run together with the results of its tests.  A running test may load the results of
its dependencies and of tests that are not run, in some process; when it ends it may save its own
result, and the history of accesses is recorded. -/
structure MSt (fl : Durations) (V : Type) where
  run : PSt fl
  mem : Mem V
  hist : List (MemEv V)

/-- The steps of a parallel run with results.  A test saves its result at most once, before its
worker is finished. -/
inductive MStep {fl : Durations} (c : PConf fl) : MSt fl V → MSt fl V → Prop
  | run (s : MSt fl V) (t : PSt fl) (h : PStep c s.run t) : MStep c s { s with run := t }
  | load (s : MSt fl V) (n : Str) (w : Nat) (key : Str) (hn : n ∈ s.run.started) (hr : n ∉ s.run.ready)
      (hd : key ∈ c.deps n ∨ key ∉ c.todo) :
      MStep c s { s with
        mem := s.mem.load w key,
        hist := s.hist ++ [.load w key (loadResult (s.mem.cache w) s.mem.store key).1] }
  | save (s : MSt fl V) (n : Str) (w : Nat) (v : Option V) (hn : n ∈ s.run.started)
      (hr : n ∉ s.run.ready) (hs : ∀ w v, MemEv.save w n v ∉ s.hist) :
      MStep c s { s with
        mem := s.mem.save w n v,
        hist := s.hist ++ [.save w n v] }

/-- The reachable states, from fresh worker processes (the pool is created for the run,
runs.py:264-267) and the result files `st`. -/
inductive MReach {fl : Durations} (c : PConf fl) (size : Nat) (st : Store V) : MSt fl V → Prop
  | init : MReach c size st ⟨PSt.init c, ⟨fun _ => .lru size [], st⟩, []⟩
  | step {s t : MSt fl V} : MReach c size st s → MStep c s t → MReach c size st t

end Verif.Model
