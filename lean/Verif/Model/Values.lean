import Verif.Model.Depends

/-! # Model of workers that execute tests with dependencies

The calls of tests as in `Model/Depends`, but one access to the results after the other: those of
different worker processes are executed in any order, together with the steps of the parallel runner
(`Model/Parallel`).  One access is taken as one step; killed workers are left out.  What the test
functions do is given by `body`, as in `Model/Depends`. -/

namespace Verif.Model
open Verif.Py

variable {V : Type}

/-- The call of a test: it is over, or the result of a test is loaded next. -/
inductive Calling (V : Type) where
  | done (r : Called V)
  | load (key : Str) (k : Loaded V → Calling V)

/-- `TestRun.get_test_result` (testrun.py:59-76, compare `getTestResult`). -/
def resultTask (w : DepWorld V) (m : Meth) (k : Option (Loaded V) → Calling V) : Calling V :=
  match caseByMethod w.suite m with
  | none => k none
  | some n => .load n (fun r => k (some r))

/-- The search for the result of a dependency (dependencies.py:77-94, 109-115, compare `depResult`). -/
def depTask (w : DepWorld V) (self : Option Nat) (d : Meth) (k : Option (Loaded V) → Calling V) :
    Calling V :=
  match self with
  | none => resultTask w d k
  | some o => resultTask w (bindTo o d) fun
    | some r => k (some r)
    | none => resultTask w d k

/-- The loop over the dependencies (dependencies.py:72-96, 105-117, compare `depArgs`). -/
def argsTask (w : DepWorld V) (self : Option Nat) :
    List (Dep V) → (Except (Called V) (List (Arg V)) → Calling V) → Calling V
  | [], k => k (.ok [])
  | .resource _ v :: ds, k => argsTask w self ds fun
    | .ok args => k (.ok (.value (some v) :: args))
    | .error e => k (.error e)
  | .method d :: ds, k => depTask w self d fun
    | none => k (.error (.notFound d))
    | some .missing => k (.error .missing)
    | some .keyError => k (.error .keyError)
    | some .hangs => k (.error .hangs)
    | some (.value v) => argsTask w self ds fun
      | .ok args => k (.ok (.value v :: args))
      | .error e => k (.error e)

/-- Calling a function (dependencies.py:65-119, 137-145, compare `callFn`). -/
def fnTask (w : DepWorld V) : Nat → Nat → List (Arg V) → Calling V
  | 0, f, args => .done (.called f args)
  | n + 1, f, args =>
    match w.kind f with
    | .plain => .done (.called f args)
    | .around g => fnTask w n g args
    | .dependsOn ds g =>
      match args with
      | .self o :: rest =>
        if w.isBook o then
          match rest with
          | .case :: _ => argsTask w (some o) ds fun
            | .ok vs => fnTask w n g (.self o :: .case :: vs)
            | .error e => .done e
          | _ => .done .noRun
        else .done .noRun
      | .case :: _ => argsTask w none ds fun
        | .ok vs => fnTask w n g (.case :: vs)
        | .error e => .done e
      | _ => .done .noRun

/-- `case(t)` (testrun.py:94-97, compare `callTest`). -/
def callTask (w : DepWorld V) (m : Meth) : Calling V :=
  fnTask w m.fn m.fn (match m.self with
    | some o => [.self o, .case]
    | none => [.case])

/-- A call during which nothing else happens. -/
def Calling.run (c : Cache V) (st : Store V) : Calling V → Called V × Cache V
  | .done r => (r, c)
  | .load key k => (k (loadResult c st key).1).run (loadResult c st key).2 st

/-- What a test comes to when its call has ended (testrun.py:94-107, compare `runEntry`); `none` if the
call does not end. -/
def endCall (body : Nat → List (Arg V) → Result × Option V) (n : Str) : Called V → Option (Entry V)
  | .hangs => none
  | .called f args => some ⟨n, .called f args, (body f args).1, (body f args).2⟩
  | e => some ⟨n, e, .FAIL, none⟩

/-- How far the execution of a test is.  `p` is the worker process. -/
inductive Job (V : Type) where
  | waiting
  | calling (p : Nat) (t : Calling V)
  /-- The test has not failed, and its value is stored next. -/
  | saving (p : Nat) (e : Entry V)
  | ended (e : Entry V)

/-- The process has a test to execute. -/
def Job.Busy (p : Nat) : Job V → Prop
  | .calling q _ => q = p
  | .saving q _ => q = p
  | _ => False

/-- The beginning of `run_case` (testrun.py:88-97, 154). -/
def startJob (w : DepWorld V) (p : Nat) (n : Str) : Job V :=
  match getCase w.suite n with
  | none => .ended ⟨n, .noTest, .FAIL, none⟩
  | some m => .calling p (callTask w m)

/-- The value of a test that has not failed is stored (testrun.py:103-105). -/
def endJob (p : Nat) (e : Entry V) : Job V :=
  match e.result with
  | .FAIL => .ended e
  | _ => .saving p e

/-- A parallel run and the tests that its workers execute. -/
structure VSt (fl : Durations) (V : Type) extends MSt fl V where
  job : Str → Job V

/-- The job of a test is changed. -/
def setJob (job : Str → Job V) (n : Str) (j : Job V) : Str → Job V := fun x => if x = n then j else job x

/-- One step of the runner or of a worker. -/
inductive VStep {fl : Durations} (c : PConf fl) (w : DepWorld V)
    (body : Nat → List (Arg V) → Result × Option V) : VSt fl V → VSt fl V → Prop
  /-- The runner (compare `PStep`); a test is finished after its execution has ended. -/
  | run (s : VSt fl V) (t : PSt fl) (h : PStep c s.run t)
      (hf : ∀ n, n ∈ t.ready → n ∈ s.run.ready ∨ ∃ e, s.job n = .ended e) :
      VStep c w body s { s with run := t }
  /-- A process of the pool that has nothing to do takes a test (runs.py:212, 61-98). -/
  | take (s : VSt fl V) (n : Str) (p : Nat) (hn : n ∈ s.run.started) (hj : s.job n = .waiting)
      (hp : ∀ a, ¬ (s.job a).Busy p) :
      VStep c w body s { s with job := setJob s.job n (startJob w p n) }
  /-- The result of a dependency is loaded, through the cache of the process (runs.py:22, 87). -/
  | load (s : VSt fl V) (n : Str) (p : Nat) (key : Str) (k : Loaded V → Calling V)
      (hj : s.job n = .calling p (.load key k)) :
      VStep c w body s { s with
        mem := s.mem.load p key,
        hist := s.hist ++ [.load p key (loadResult (s.mem.cache p) s.mem.store key).1],
        job := setJob s.job n (.calling p (k (loadResult (s.mem.cache p) s.mem.store key).1)) }
  /-- The call ends. -/
  | called (s : VSt fl V) (n : Str) (p : Nat) (r : Called V) (e : Entry V)
      (hj : s.job n = .calling p (.done r)) (he : endCall body n r = some e) :
      VStep c w body s { s with job := setJob s.job n (endJob p e) }
  /-- The value is stored. -/
  | save (s : VSt fl V) (n : Str) (p : Nat) (e : Entry V) (hj : s.job n = .saving p e) :
      VStep c w body s { s with
        mem := s.mem.save p n e.value,
        hist := s.hist ++ [.save p n e.value],
        job := setJob s.job n (.ended e) }

/-- The states of a parallel run of the tests of a suite, from fresh worker processes with an
`LruCache(size)` each and the result files `st`. -/
inductive VReach {fl : Durations} (c : PConf fl) (w : DepWorld V)
    (body : Nat → List (Arg V) → Result × Option V) (size : Nat) (st : Store V) : VSt fl V → Prop
  | init : VReach c w body size st ⟨⟨PSt.init c, ⟨fun _ => .lru size [], st⟩, []⟩, fun _ => .waiting⟩
  | step {s t : VSt fl V} : VReach c w body size st s → VStep c w body s t → VReach c w body size st t

end Verif.Model
