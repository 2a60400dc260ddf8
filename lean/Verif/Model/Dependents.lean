import Verif.Model.Cache
import Verif.Model.ParallelRun

/-! # Model of whole runs of tests that get the values of other tests

Runs as in `Model/Project` and `Model/ParallelRun`, in which a test may load the results of other tests
before its function is called (dependencies.py:65-119).  A result is loaded from the cache of the process
or from the result file (`loadResult`), which is one step; a value is identified with its pickled form.
Which tests the dependencies of a test are is given here; how they are found is in `Model/Depends`. -/

namespace Verif.Model
open Verif.Py

/-- A project in which tests have dependencies: the tests whose results are loaded, in this order, what
the test does when it is called with their values, and the exception that is raised if there is no result
of a test (testrun.py:69-72): its message and its traceback. -/
structure DProject where
  u : Unicode
  pointErrorPos : Bool
  refmt : Str → Option Str
  root : Path
  deps : Str → List Str
  fn : Str → List (Option Str) → TestFn
  missing : Str → Str → Str × Str

/-- The values of the dependencies, or the first test that has no result. -/
abbrev Values := Except Str (List (Option Str))

/-- What a test does, given the values of its dependencies. -/
def DProject.given (D : DProject) (n : Str) : Values → TestFn
  | .ok vs => D.fn n vs
  | .error d => ⟨⟨[], some (D.missing n d)⟩, [], [], none⟩

/-- The project in which every test is called with given values. -/
def DProject.filled (D : DProject) (g : Str → Values) : Project :=
  ⟨D.u, D.pointErrorPos, D.refmt, D.root, fun n => D.given n (g n)⟩

/-- The directories of the project (the tests are not used). -/
def DProject.dirs (D : DProject) : Project := D.filled fun _ => .error []

/-- The result files (tests.py:52-53). A directory of this name is taken as no result. -/
def storeOf (out : Path) (fs : FS) : Store Str := fun d =>
  match fs.get (filePath out d ".bin".toList) with
  | some (.file v) => some v
  | _ => none

/-- Loading the results of tests, one after the other (dependencies.py:72-96, 105-117, testrun.py:59-76);
`none` if this does not end. `KeyError` cannot be raised (`in` is asked before). -/
def loadEach (st : Store Str) : List Str → Cache Str → Option Values × Cache Str
  | [], c => (some (.ok []), c)
  | d :: ds, c =>
    match loadResult c st d with
    | (.value v, c) =>
      match loadEach st ds c with
      | (some (.ok vs), c) => (some (.ok (v :: vs)), c)
      | r => r
    | (.missing, c) => (some (.error d), c)
    | (.keyError, c) => (some (.error d), c)
    | (.hangs, c) => (none, c)

/-- The rest of `run_case` after the results have been loaded (testrun.py:94-107, compare `runCase`). -/
def callCase (P : Project) (cfg : Config) (name : Str) (e : Env) (answers : List Str) (fs : FS) :
    (FS × List Str) × CaseEnd :=
  match runTest e (P.tests name).body with
  | none => ((fs, answers), .hangs)
  | some s =>
    match writeFiles P.out name (P.tests name).files fs with
    | .error x => ((fs, answers), .error x)
    | .ok fs3 =>
      match writeOutputs P.out name s.out (s.rep.map (· ++ "\n".toList)).flatten (P.tests name).log fs3 with
      | .error x => ((fs3, answers), .error x)
      | .ok fs4 => endCase P cfg name (verdict e s) answers fs4

/-- The cache when a test has ended (testrun.py:103-105, 80). -/
def kept (c : Cache Str) (name : Str) (value : Option Str) : CaseEnd → Cache Str
  | .done .FAIL _ => c
  | .done _ _ => c.set name value
  | _ => c

/-- `run_case` (testrun.py:88-107, compare `runCase`) with the results that the test depends on. -/
def runCaseD (D : DProject) (cfg : Config) (name : Str) (st : (FS × List Str) × Cache Str) :
    ((FS × List Str) × CaseEnd) × Cache Str :=
  let fs0 := makeDirs D.dirs name st.1.1
  match purge D.dirs.out name fs0 with
  | .error x => (((fs0, st.1.2), .error x), st.2)
  | .ok fs1 =>
    match writeOutputs D.dirs.out name [] [] [] fs1 with
    | .error x => (((fs1, st.1.2), .error x), st.2)
    | .ok fs2 =>
      if fs0.isDir (filePath D.root name ".md".toList) then (((fs2, st.1.2), .error .isADirectory), st.2)
      else match loadEach (storeOf D.dirs.out fs2) (D.deps name) st.2 with
        | (none, c) => (((fs2, st.1.2), .hangs), c)
        | (some g, c) =>
          let r := callCase (D.filled fun _ => g) cfg name
            (D.dirs.env (snapshotText fs0 (filePath D.root name ".md".toList))) st.1.2 fs2
          (r, kept c name (D.given name g).returns r.2)

/-- Some tests one after the other (compare `runCases`). -/
def runCasesD (D : DProject) (cfg : Config) (names : List Str) (st : (FS × List Str) × Cache Str) :
    (FS × List Str) × Cache Str :=
  names.foldl (fun st n => ((runCaseD D cfg n st).1.1, (runCaseD D cfg n st).2)) st

/-- What the run loop sees of a test (compare `projectOutcome`). -/
def outcomeD {fl : Durations} (D : DProject) (cfg : Config) (dur : Str → fl.D)
    (st : (FS × List Str) × Cache Str) (before : List Str) (name : Str) : Outcome fl :=
  match (runCaseD D cfg name (runCasesD D cfg before st)).1.2 with
  | .done r q => some (r, q, dur name)
  | _ => none

/-- `TestRun.run_async` (testrun.py:112-191, compare `runProject`) with a cache. -/
def runProjectD {fl : Durations} (D : DProject) (cfg : Config) (dur : Str → fl.D)
    (all selected : List Str) (fs : FS) (answers : List Str) (report : Option Bytes) (cache : Cache Str) : RunEnd :=
  let fs := mkdirs fs D.dirs.out
  let r := runAsync D.u fl cfg (outcomeD D cfg dur ((fs, answers), cache)) selected report
  let st := (runCasesD D cfg (ranNames r.1) ((fs, answers), cache)).1
  let report := applyEvs report r.1
  match r.2 with
  | none => ⟨st.1, st.2, report, none⟩
  | some rv =>
    match openW (D.root ++ ["index.md".toList]) (indexText all) st.1 with
    | .error _ => ⟨st.1, st.2, report, none⟩
    | .ok fs => ⟨fs, st.2, report, some rv⟩

/-! ### Workers -/

/-- What a worker still has to do for its test. -/
inductive DTask where
  /-- Everything has been loaded. The test returns `ret`. -/
  | task (ret : Option Str) (t : Task)
  | act (o : FsOp) (k : Option Node → DTask)
  /-- The result of a test is loaded. -/
  | load (d : Str) (k : Loaded Str → DTask)

/-- First a task, and then another one if nothing has been raised. -/
def followedBy (d : DTask) : Task → DTask
  | .done (.done _ _) => d
  | .done e => .task none (.done e)
  | .act o k => .act o fun a => followedBy d (k a)

/-- The end of the first task. -/
def stop : Task := .done (.done .OK .NONE)

/-- Loading the results of tests (compare `loadEach`). -/
def loadsTask : List Str → (Option Values → DTask) → DTask
  | [], k => k (some (.ok []))
  | d :: ds, k => .load d fun
    | .value v => loadsTask ds fun
      | some (.ok vs) => k (some (.ok (v :: vs)))
      | r => k r
    | .missing => k (some (.error d))
    | .keyError => k (some (.error d))
    | .hangs => k none

/-- The rest of `run_case` after the results have been loaded (compare `caseTask` and `callCase`). -/
def calledTask (P : Project) (cfg : Config) (name : Str) (e : Env) : Task :=
  match runTest e (P.tests name).body with
  | none => .done .hangs
  | some s =>
    filesTask P.out name (P.tests name).files <|
      outputsTask P.out name s.out (s.rep.map (· ++ "\n".toList)).flatten (P.tests name).log <|
        endTask P cfg name [] (verdict e s) fun r q _ => .done (.done r q)

/-- `run_case` in a worker (testrun.py:88-107, compare `caseTask` and `runCaseD`). -/
def caseTaskD (D : DProject) (cfg : Config) (name : Str) : DTask :=
  followedBy
    (.act (.look (filePath D.root name ".md".toList)) fun a =>
      followedBy
        (if a = some .dir then .task none (.done (.error .isADirectory))
        else loadsTask (D.deps name) fun
          | none => .task none (.done .hangs)
          | some g => .task (D.given name g).returns <| calledTask (D.filled fun _ => g) cfg name
              (D.dirs.env (match a with | some (.file c) => some c | _ => none)))
        (removeTask (dirPath D.dirs.out name) <| removeTask (dirPath D.dirs.out (name ++ ".tmp".toList)) <|
          outputsTask D.dirs.out name [] [] [] stop))
    (mkdirsTask [] (baseDir D.root name) <| mkdirsTask [] (baseDir D.dirs.out name) stop)

/-- A parallel run (compare `RConf`) of tests with dependencies. -/
structure DConf (fl : Durations) where
  D : DProject
  cfg : Config
  all : List Str
  todo : List Str
  /-- The tests that a test has to wait for. -/
  waits : Str → List Str
  res : Str → List Nat
  zero : fl.D
  dur : Str → fl.D
  breaks : Str → Bool → Prop

/-- The same for the tests of a project without dependencies. -/
def DConf.conf {fl : Durations} (c : DConf fl) (P : Project) : RConf fl where
  u := c.D.u
  P := P
  cfg := c.cfg
  all := c.all
  todo := c.todo
  deps := c.waits
  res := c.res
  zero := c.zero
  dur := c.dur
  breaks := c.breaks

/-- The state of such a run. -/
structure DSt (fl : Durations) where
  /-- The run, its files and what workers have to do that have loaded everything. -/
  r : RSt fl
  /-- What workers have to do. -/
  call : Str → DTask
  /-- The caches of the processes (runs.py:22). -/
  cache : Nat → Cache Str
  /-- The process that executes the test. -/
  proc : Str → Option Nat

/-- What is left to do when everything has been loaded. -/
def DTask.rest : DTask → Task
  | .task _ t => t
  | _ => .act (.look []) fun _ => .done .hangs

/-- The state in which the workers can be started. -/
def DSt.init {fl : Durations} (c : DConf fl) (size : Nat) (fs : FS) (ans : List Str) : DSt fl :=
  { r := { RSt.init (c.conf c.D.dirs) fs ans with work := fun n => (caseTaskD c.D (jobConfig c.cfg) n).rest }
    call := fun n => caseTaskD c.D (jobConfig c.cfg) n
    cache := fun _ => .lru size []
    proc := fun _ => none }

/-- The worker of a test goes on with `d`. -/
def DSt.go {fl : Durations} (s : DSt fl) (n : Str) (d : DTask) : DSt fl :=
  { s with
    r := { s.r with work := fun m => if m = n then d.rest else s.r.work m }
    call := fun m => if m = n then d else s.call m }

/-- An operation has been executed. -/
def DSt.acted {fl : Durations} (s : DSt fl) (n : Str) (g : FS) : DSt fl :=
  { s with r := { s.r with fs := g, ran := s.r.ran ++ [n] } }

/-- The cache of a process is changed. -/
def DSt.cached {fl : Durations} (s : DSt fl) (p : Nat) (c : Cache Str) : DSt fl :=
  { s with cache := fun x => if x = p then c else s.cache x }

/-- The cache after an operation of a test that has loaded everything. -/
def keptTask (c : Cache Str) (name : Str) (value : Option Str) : Task → Cache Str
  | .done e => kept c name value e
  | .act _ _ => c

/-- One step of such a run. -/
inductive DStep {fl : Durations} (c : DConf fl) : DSt fl → DSt fl → Prop
  /-- A step as in `Model/ParallelRun`, other than an operation of a test. -/
  | runner (s : DSt fl) (r : RSt fl) (h : RStep (c.conf c.D.dirs) s.r r) (hr : r.ran = s.r.ran) :
      DStep c s { s with r := r }
  /-- A process of the pool that has nothing to do takes a test (runs.py:212, 61-98). -/
  | take (s : DSt fl) (n : Str) (p : Nat) (hw : s.r.Works n) (hn : s.proc n = none)
      (hp : ∀ a, s.proc a = some p → a ∈ s.r.run.ready) :
      DStep c s { s with proc := fun m => if m = n then some p else s.proc m }
  /-- A worker executes an operation before everything is loaded. -/
  | acts (s : DSt fl) (n : Str) (p : Nat) (o : FsOp) (k : Option Node → DTask) (g : FS) (a : Option Node)
      (hw : s.r.Works n) (hp : s.proc n = some p) (h : s.r.reports n = some []) (hc : s.call n = .act o k)
      (hx : o.run s.r.fs = .ok (g, a)) : DStep c s ((s.go n (k a)).acted n g)
  /-- The same, and the operation fails. -/
  | fails (s : DSt fl) (n : Str) (p : Nat) (o : FsOp) (k : Option Node → DTask) (x : FsErr)
      (hw : s.r.Works n) (hp : s.proc n = some p) (h : s.r.reports n = some []) (hc : s.call n = .act o k)
      (hx : o.run s.r.fs = .error x) : DStep c s ((s.go n (.task none (.done (.error x)))).acted n s.r.fs)
  /-- A worker loads a result, through the cache of its process. -/
  | loads (s : DSt fl) (n : Str) (p : Nat) (d : Str) (k : Loaded Str → DTask)
      (hw : s.r.Works n) (hp : s.proc n = some p) (h : s.r.reports n = some []) (hc : s.call n = .load d k) :
      DStep c s ((s.go n (k (loadResult (s.cache p) (storeOf c.D.dirs.out s.r.fs) d).1)).cached p
        (loadResult (s.cache p) (storeOf c.D.dirs.out s.r.fs) d).2)
  /-- A worker executes an operation after everything is loaded. When the last one is done, which stores the
  value, the value is in the cache. -/
  | works (s : DSt fl) (n : Str) (p : Nat) (ret : Option Str) (t t' : Task) (g : FS)
      (hw : s.r.Works n) (hp : s.proc n = some p) (h : s.r.reports n = some []) (hc : s.call n = .task ret t)
      (ht : t.step s.r.fs = some (g, t')) :
      DStep c s (((s.go n (.task ret t')).acted n g).cached p (keptTask (s.cache p) n ret t'))

/-- The states such a run can be in, with an `LruCache(size)` in every process. -/
inductive DReach {fl : Durations} (c : DConf fl) (size : Nat) (fs : FS) (ans : List Str) : DSt fl → Prop
  | init : DReach c size fs ans (DSt.init c size fs ans)
  | step {s t : DSt fl} : DReach c size fs ans s → DStep c s t → DReach c size fs ans t

end Verif.Model
