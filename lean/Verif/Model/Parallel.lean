import Verif.Model.Selection
import Verif.Model.ReviewAll

/-! # Model of the parallel runner of `booktest/runs.py`

The scheduler thread, the worker processes and the main thread (which reviews results) as one
transition system: `PStep` are the steps of all three.  Python sets are lists here, of which only
membership counts.  Not modelled: time, the number of worker processes (a started test may finish at
any later time), messages, merging of the workers' other files, `metrics.json`. -/

namespace Verif.Model
open Verif.Py

/-- A record on its way from the workers to the main thread. -/
abbrev PRec (fl : Durations) := Str × Raw × fl.D

/-- The name of a test's batch directory: `".".join(case.split("/"))` (runs.py:62-63, 102). -/
def batchName (name : Str) : Str := join ".".toList (split '/' name)

/-- What a parallel run depends on. -/
structure PConf (fl : Durations) where
  u : Unicode
  /-- `self.todo` (runs.py:155-166). -/
  todo : List Str
  /-- `self.dependencies` (runs.py:153-159). -/
  deps : Str → List Str
  /-- `self.resources` (runs.py:154-160). -/
  res : Str → List Nat
  /-- The duration `0` of `make_case` (runs.py:234). -/
  zero : fl.D
  /-- The contents of its report file that a worker may leave for a test. -/
  leaves : Str → Option Bytes → Prop
  /-- What reviewing a record in the main thread may return: the result, and whether the run is
  aborted (runs.py:338-349). -/
  review : PRec fl → Raw → Bool → Prop
  /-- The records whose review may raise an exception. -/
  reviewRaises : PRec fl → Prop

/-- A dependency does not keep the test from running (runs.py:182-185). -/
def runnable {fl : Durations} (c : PConf fl) (done : List Str) (name : Str) : Bool :=
  (c.deps name).all (fun d => !(c.todo.contains d) || done.contains d)

/-- `ParallelRunner.plan` before sorting (runs.py:178-190), for a given order of the set `todo`. -/
def plan {fl : Durations} (c : PConf fl) (done : List Str) : List Str → List Nat → List Str
  | [], _ => []
  | n :: ns, reserved =>
    if runnable c done n && (c.res n).all (fun r => !reserved.contains r) then
      n :: plan c done ns (reserved ++ c.res n)
    else plan c done ns reserved

/-- The record of a finished test (runs.py:230-234): read from the report file of its batch, or made
up if there is none.  `none` is an exception: `IndexError` if there is no record in the file,
`UnicodeDecodeError` if it cannot be decoded. -/
def collectOne {fl : Durations} (c : PConf fl) (name : Str) (file : Option Bytes) : Option (PRec fl) :=
  match file with
  | none => some (name, .text Result.FAIL.name, c.zero)
  | some b =>
    match ofFile c.u fl (some b) with
    | some (r :: _) => some (r.1, .res r.2.1, r.2.2)
    | _ => none

/-- Where the scheduler thread is. -/
inductive SPc (fl : Durations) where
  /-- At the outer loop's condition (runs.py:204). -/
  | head
  /-- Starting the planned tests (runs.py:208-212); these are left. -/
  | starting (planned : List Str)
  /-- At the inner loop's condition, with these `done_tasks` (runs.py:218). -/
  | poll (d : List Str)
  /-- In the loop over `scheduled` (runs.py:219-221): still to look at, and `done_tasks`. -/
  | sweep (rest d : List Str)
  /-- After the inner loop (runs.py:225). -/
  | collect (d : List Str)
  /-- Before taking the lock (runs.py:236). -/
  | publish (reports : List (PRec fl))
  | stopped
  /-- The thread has died of an exception. -/
  | crashed

/-- Where the main thread is. -/
inductive RPc (fl : Durations) where
  /-- Calling `has_next` (runs.py:335). -/
  | check
  /-- In `next_report` (runs.py:336). -/
  | waiting
  /-- Reviewing a record (runs.py:338-357). -/
  | reviewing (r : PRec fl)
  /-- In the loop over `done_reports()` (runs.py:372-385), at an index; `raised` tells whether an
  exception is on its way. -/
  | leftover (k : Nat) (raised : Bool)
  /-- The run is over (with an exception or not). -/
  | ended (raised : Bool)

/-- The state of a parallel run. -/
structure PSt (fl : Durations) where
  spc : SPc fl := .head
  rpc : RPc fl := .check
  done : List Str := []
  scheduled : List Str := []
  /-- The tests whose worker has finished (`task.ready()`). -/
  ready : List Str := []
  /-- The report file of each batch directory. -/
  files : Str → Option Bytes := fun _ => none
  reserved : List Nat := []
  abort : Bool := false
  /-- `self.reports`. -/
  queue : List (PRec fl) := []
  left : Int
  exitCode : Int := 0
  /-- All tests handed to the pool, in order. -/
  started : List Str := []
  /-- The names of all records returned by `next_report`, in order. -/
  taken : List Str := []
  /-- The records written to `cases.txt` by `record_case`, in order. -/
  recorded : List (Rec fl) := []

/-- The state after `__enter__` (runs.py:126, 166-176, 264-271): the batch directories are fresh
(`prepare_batch_dir`, runs.py:32-40). -/
def PSt.init {fl : Durations} (c : PConf fl) : PSt fl := { left := c.todo.length }

/-- `self.todo - self.done - scheduled.keys()` (runs.py:205). -/
def remaining {fl : Durations} (c : PConf fl) (s : PSt fl) : List Str :=
  c.todo.filter (fun n => !s.done.contains n && !s.scheduled.contains n)

/-- `has_next` (runs.py:246-248). -/
def hasNext {fl : Durations} (s : PSt fl) : Bool :=
  (decide (s.left > 0) || !s.queue.isEmpty) && !s.abort

/-- One step of a parallel run. -/
inductive PStep {fl : Durations} (c : PConf fl) : PSt fl → PSt fl → Prop
  /-- The scheduler plans (runs.py:204-205); sets are iterated in some order, and the order of the
  plan (by duration, runs.py:193) is left open. -/
  | planned (s : PSt fl) (order l : List Str) (h : s.spc = .head)
      (hd : s.done.length < c.todo.length) (ha : s.abort = false) (ho : order.Perm (remaining c s))
      (hl : l.Perm (plan c s.done order s.reserved)) : PStep c s { s with spc := .starting l }
  /-- The outer loop ends (runs.py:204). -/
  | stop (s : PSt fl) (h : s.spc = .head) (hd : ¬ (s.done.length < c.todo.length ∧ s.abort = false)) :
      PStep c s { s with spc := .stopped }
  /-- A planned test is started (runs.py:209-212). -/
  | start (s : PSt fl) (n : Str) (ns : List Str) (h : s.spc = .starting (n :: ns))
      (hn : n ∉ s.done ∧ n ∉ s.scheduled) :
      PStep c s { s with
        spc := .starting ns,
        scheduled := s.scheduled ++ [n],
        reserved := s.reserved ++ c.res n,
        started := s.started ++ [n] }
  /-- A planned test is not started (runs.py:209). -/
  | skip (s : PSt fl) (n : Str) (ns : List Str) (h : s.spc = .starting (n :: ns))
      (hn : ¬ (n ∉ s.done ∧ n ∉ s.scheduled)) : PStep c s { s with spc := .starting ns }
  /-- All planned tests are started (runs.py:217). -/
  | startedAll (s : PSt fl) (h : s.spc = .starting []) : PStep c s { s with spc := .poll [] }
  /-- The inner loop goes on (runs.py:218-219). -/
  | again (s : PSt fl) (h : s.spc = .poll []) (ha : s.abort = false) :
      PStep c s { s with spc := .sweep s.scheduled [] }
  /-- The inner loop ends (runs.py:218). -/
  | leave (s : PSt fl) (d : List Str) (h : s.spc = .poll d) (hd : d ≠ [] ∨ s.abort = true) :
      PStep c s { s with spc := .collect d }
  /-- A task is ready (runs.py:220-221). -/
  | seeReady (s : PSt fl) (n : Str) (rest d : List Str) (h : s.spc = .sweep (n :: rest) d)
      (hr : n ∈ s.ready) : PStep c s { s with spc := .sweep rest (d ++ [n]) }
  /-- A task is not ready (runs.py:220). -/
  | seeBusy (s : PSt fl) (n : Str) (rest d : List Str) (h : s.spc = .sweep (n :: rest) d)
      (hr : n ∉ s.ready) : PStep c s { s with spc := .sweep rest d }
  /-- All tasks have been looked at (runs.py:222-223). -/
  | swept (s : PSt fl) (d : List Str) (h : s.spc = .sweep [] d) : PStep c s { s with spc := .poll d }
  /-- The finished tests are collected, in some order (runs.py:225-234). -/
  | collected (s : PSt fl) (d d' : List Str) (rs : List (PRec fl)) (h : s.spc = .collect d)
      (hp : d'.Perm d) (hr : d'.mapM (fun n => collectOne c n (s.files (batchName n))) = some rs) :
      PStep c s { s with
        spc := .publish rs,
        done := s.done ++ d,
        scheduled := s.scheduled.filter (fun n => !d.contains n),
        reserved := s.reserved.filter (fun r => !d.any (fun n => (c.res n).contains r)) }
  /-- Collecting raises an exception, which ends the thread (runs.py:232). -/
  | crash (s : PSt fl) (d d' : List Str) (h : s.spc = .collect d)
      (hp : d'.Perm d) (hr : d'.mapM (fun n => collectOne c n (s.files (batchName n))) = none) :
      PStep c s { s with
        spc := .crashed,
        done := s.done ++ d,
        scheduled := s.scheduled.filter (fun n => !d.contains n),
        reserved := s.reserved.filter (fun r => !d.any (fun n => (c.res n).contains r)) }
  /-- The collected records are handed over (runs.py:236-238). -/
  | publish (s : PSt fl) (rs : List (PRec fl)) (h : s.spc = .publish rs) :
      PStep c s { s with spc := .head, left := s.left - rs.length, queue := s.queue ++ rs }
  /-- A worker finishes a test that was started, leaving some report file in its batch directory.
  (The file may be written earlier; it is not read before.) -/
  | finish (s : PSt fl) (n : Str) (b : Option Bytes) (hs : n ∈ s.started) (hr : n ∉ s.ready)
      (hb : c.leaves n b) :
      PStep c s { s with
        ready := s.ready ++ [n],
        files := fun x => if x = batchName n then b else s.files x }
  /-- `has_next` is true (runs.py:335). -/
  | more (s : PSt fl) (h : s.rpc = .check) (hn : hasNext s = true) :
      PStep c s { s with rpc := .waiting }
  /-- `has_next` is false (runs.py:335). -/
  | noMore (s : PSt fl) (h : s.rpc = .check) (hn : hasNext s = false) :
      PStep c s { s with rpc := .leftover 0 false }
  /-- `next_report` returns (runs.py:254-260). -/
  | take (s : PSt fl) (r : PRec fl) (q : List (PRec fl)) (h : s.rpc = .waiting) (hq : s.queue = r :: q) :
      PStep c s { s with rpc := .reviewing r, queue := q, taken := s.taken ++ [r.1] }
  /-- A review ends and its result is recorded (runs.py:338-357). -/
  | reviewed (s : PSt fl) (r : PRec fl) (res : Result) (ab : Bool) (h : s.rpc = .reviewing r)
      (hv : c.review r (.res res) ab) :
      PStep c s { s with
        rpc := .check,
        abort := s.abort || ab,
        exitCode := if res ≠ .OK then -1 else s.exitCode,
        recorded := s.recorded ++ [(r.1, res, r.2.2)] }
  /-- A review ends and recording its result raises an exception, since the result is a string
  (runs.py:338-357, reports.py:163). -/
  | reviewedText (s : PSt fl) (r : PRec fl) (t : Str) (ab : Bool) (h : s.rpc = .reviewing r)
      (hv : c.review r (.text t) ab) :
      PStep c s { s with rpc := .leftover 0 true, abort := s.abort || ab, exitCode := -1 }
  /-- A review raises an exception. -/
  | reviewRaises (s : PSt fl) (r : PRec fl) (h : s.rpc = .reviewing r) (hv : c.reviewRaises r) :
      PStep c s { s with rpc := .leftover 0 true }
  /-- KeyboardInterrupt in the main loop (runs.py:359-360). -/
  | interrupt (s : PSt fl) (h : s.rpc = .check ∨ s.rpc = .waiting ∨ ∃ r, s.rpc = .reviewing r) :
      PStep c s { s with rpc := .leftover 0 false, abort := true }
  /-- A report that was not reviewed is recorded (runs.py:372-385); the list is the one the scheduler
  thread appends to. -/
  | recordLeft (s : PSt fl) (k : Nat) (x : Bool) (n : Str) (res : Result) (d : fl.D)
      (h : s.rpc = .leftover k x) (hq : s.queue[k]? = some (n, .res res, d)) :
      PStep c s { s with rpc := .leftover (k + 1) x, recorded := s.recorded ++ [(n, res, d)] }
  /-- Recording such a report raises an exception (reports.py:163). -/
  | recordLeftText (s : PSt fl) (k : Nat) (x : Bool) (n t : Str) (d : fl.D)
      (h : s.rpc = .leftover k x) (hq : s.queue[k]? = some (n, .text t, d)) :
      PStep c s { s with rpc := .ended true, abort := true }
  /-- The run ends (runs.py:387-417 and 273-282). -/
  | finished (s : PSt fl) (k : Nat) (x : Bool) (h : s.rpc = .leftover k x)
      (hq : s.queue[k]? = none) : PStep c s { s with rpc := .ended x, abort := true }

/-- The states a parallel run can be in. -/
inductive PReach {fl : Durations} (c : PConf fl) : PSt fl → Prop
  | init : PReach c (PSt.init c)
  | step {s t : PSt fl} : PReach c s → PStep c s t → PReach c t

/-- Executions from a given state. -/
inductive PSteps {fl : Durations} (c : PConf fl) : PSt fl → PSt fl → Prop
  | refl (s : PSt fl) : PSteps c s s
  | step {s t r : PSt fl} : PStep c s t → PSteps c t r → PSteps c s r

/-- The contents of `cases.txt` during a parallel run (runs.py:313-331): the file is opened for
writing, the old records of tests that are not run are copied, and every recorded case is appended. -/
def parallelReport {fl : Durations} (c : PConf fl) (old : List (Rec fl)) (s : PSt fl) : Bytes :=
  encode (toText fl (keptRecords old c.todo ++ s.recorded))

/-- The configuration of a parallel run of the tests `cases` of a suite (runs.py:153-161): all
dependencies count, whatever is stored. -/
def PConf.ofSuite {fl : Durations} (base : PConf fl) (suite : Suite) (cases : List Str) : PConf fl :=
  { base with
    todo := cases
    deps := fun n =>
      match getCase suite n with
      | none => []
      | some m => methodDependencies suite m cases none
    res := fun n =>
      match getCase suite n with
      | none => []
      | some m => methodResources suite m }

end Verif.Model
