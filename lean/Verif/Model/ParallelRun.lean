import Verif.Model.Parallel
import Verif.Model.Together

/-! # Model of a parallel run with its files

The transition system of `Model/Parallel` together with the file system: each worker executes the operations of
its test one by one (`Model/Together`), writes the report of its batch and then the index; the main thread
executes the operations of the reviews.  All of them are interleaved in any order.

Simplified: the reports of the batches are not part of the file system here (`Model/Batches` is about their
paths), and a report is written at once when it is closed, since nobody reads it before the worker has ended.
Left out are `output.txt`, `metrics.json`, durations, messages, and the merged outputs that are written after the last
record (runs.py:387-401). -/

namespace Verif.Model
open Verif.Py

/-- What a parallel run depends on. -/
structure RConf (fl : Durations) where
  u : Unicode
  P : Project
  cfg : Config
  /-- The names of all tests of the suite (for the index). -/
  all : List Str
  /-- `self.todo` (runs.py:155-166). -/
  todo : List Str
  deps : Str → List Str
  res : Str → List Nat
  /-- The duration `0` of `make_case` (runs.py:234). -/
  zero : fl.D
  /-- How long the test takes. -/
  dur : Str → fl.D
  /-- The worker of the test may end with an exception that is raised by something that is not modelled, for
  instance by the setup of the project; the second argument tells whether it has opened its report before. -/
  breaks : Str → Bool → Prop

/-- The scheduler of the run, which does not look at files other than the reports. -/
def RConf.pconf {fl : Durations} (c : RConf fl) : PConf fl where
  u := c.u
  todo := c.todo
  deps := c.deps
  res := c.res
  zero := c.zero
  leaves := fun n b => b = none ∨ b = some [] ∨ ∃ r, b = some (encode (toText fl [(n, r, c.dur n)]))
  review := fun _ _ _ => True
  reviewRaises := fun _ => True

/-- A review in the main thread. -/
structure PReview where
  /-- What the user requested. -/
  request : Request
  /-- The output is accepted. -/
  frozen : Bool
  /-- What is left to do. -/
  task : Task

/-- The result of a review (review.py:116-125). -/
def PReview.final (v : PReview) (r : Raw) : Raw := if v.frozen then .res .OK else r

/-- The beginning of `report_case` in the main thread (runs.py:338-345, review.py:101-125, 193-225): the user is
asked, if at all; `none` is `EOFError`. A made-up result is a string (runs.py:234), which is neither
`TestResult.OK` nor `TestResult.DIFF`. -/
def startReview (P : Project) (cfg : Config) (name : Str) (r : Raw) (ans : List Str) : Option (PReview × List Str) :=
  match (if cfg.alwaysInteractive || (decide (r ≠ .res .OK) && cfg.interactive) then interact r ans
      else some (.NONE, ans)) with
  | none => none
  | some (q, rest) =>
    if q = .FREEZE ∨ (r = .res .OK ∧ cfg.update = true) ∨ (r = .res .DIFF ∧ cfg.accept = true) then
      some (⟨q, true, freezeTask P.root P.out name (.done (.done .OK q))⟩, rest)
    else
      some (⟨q, false, .done (.done (match r with | .res v => v | .text _ => .FAIL) q)⟩, rest)

/-- The state of a parallel run and its files. -/
structure RSt (fl : Durations) where
  run : PSt fl
  fs : FS
  /-- What the worker of each test has to do until it writes its record. -/
  work : Str → Task
  /-- The records in the report of each worker; `none` if it has not been opened (testrun.py:141). -/
  reports : Str → Option (List (Rec fl)) := fun _ => none
  /-- The workers that have written the index (testrun.py:188). -/
  indexed : Str → Bool := fun _ => false
  /-- The review in the main thread; `none` if there is none or it has been left by `EOFError`. -/
  review : Option PReview := none
  /-- The lines that the user will enter. -/
  ans : List Str
  /-- The tests for which a worker has executed an operation, for the specification. -/
  ran : List Str := []

/-- The state in which the workers can be started. -/
def RSt.init {fl : Durations} (c : RConf fl) (fs : FS) (ans : List Str) : RSt fl :=
  { run := PSt.init c.pconf
    fs := fs
    work := fun n => caseTask c.P (jobConfig c.cfg) n [] (fun r q _ => .done (.done r q))
    ans := ans }

/-- The worker of the test is at work: it has been started and has not ended. -/
def RSt.Works {fl : Durations} (s : RSt fl) (n : Str) : Prop := n ∈ s.run.started ∧ n ∉ s.run.ready

/-- How a worker ends, normally or with an exception (runs.py:79-98). A test that hangs keeps it from ending. -/
inductive Over {fl : Durations} (c : RConf fl) (s : RSt fl) (n : Str) : Prop
  /-- It has done everything. -/
  | whole (h : s.indexed n = true)
  /-- Writing the index has failed. -/
  | noIndex (rec : Rec fl) (x : FsErr) (h : s.reports n = some [rec])
      (hx : (FsOp.write (c.P.root ++ ["index.md".toList]) (indexText c.all)).run s.fs = .error x)
  /-- An operation of the test has failed. -/
  | raised (x : FsErr) (h : s.work n = .done (.error x))
  /-- Something else has failed. -/
  | broken (h : c.breaks n (s.reports n).isSome)

/-- One step of a parallel run. -/
inductive RStep {fl : Durations} (c : RConf fl) : RSt fl → RSt fl → Prop
  /-- A step of the scheduler thread (runs.py:195-244). -/
  | scheduler (s : RSt fl) (p : PSt fl) (h : PStep c.pconf s.run p) (hr : p.rpc = s.run.rpc)
      (hy : p.ready = s.run.ready) : RStep c s { s with run := p }
  /-- A step of the main thread outside of reviews (runs.py:335-336, 359-385). -/
  | main (s : RSt fl) (p : PSt fl) (h : PStep c.pconf s.run p) (hr : ∀ r, s.run.rpc ≠ .reviewing r)
      (hp : ∀ r, p.rpc ≠ .reviewing r) (hy : p.ready = s.run.ready) : RStep c s { s with run := p }
  /-- A worker opens its report (testrun.py:141). -/
  | opens (s : RSt fl) (n : Str) (hw : s.Works n) (h : s.reports n = none) :
      RStep c s { s with reports := fun m => if m = n then some [] else s.reports m }
  /-- A worker executes an operation of its test (testrun.py:153-156). -/
  | works (s : RSt fl) (n : Str) (g : FS) (t : Task) (hw : s.Works n) (h : s.reports n = some [])
      (ht : (s.work n).step s.fs = some (g, t)) :
      RStep c s { s with
        fs := g
        work := fun m => if m = n then t else s.work m
        ran := s.ran ++ [n] }
  /-- A worker writes its record (testrun.py:171-172). -/
  | writes (s : RSt fl) (n : Str) (r : Result) (q : Request) (hw : s.Works n) (h : s.reports n = some [])
      (hd : s.work n = .done (.done r q)) :
      RStep c s { s with reports := fun m => if m = n then some [(n, r, c.dur n)] else s.reports m }
  /-- A worker writes the index (testrun.py:188). -/
  | indexes (s : RSt fl) (n : Str) (rec : Rec fl) (g : FS) (a : Option Node) (hw : s.Works n)
      (h : s.reports n = some [rec]) (hi : s.indexed n = false)
      (hx : (FsOp.write (c.P.root ++ ["index.md".toList]) (indexText c.all)).run s.fs = .ok (g, a)) :
      RStep c s { s with fs := g, indexed := fun m => if m = n then true else s.indexed m }
  /-- A worker ends (runs.py:91-98). -/
  | ends (s : RSt fl) (n : Str) (hw : s.Works n) (ho : Over c s n) :
      RStep c s { s with run := { s.run with
        ready := s.run.ready ++ [n],
        files := fun x => if x = batchName n then (s.reports n).map (fun l => encode (toText fl l))
          else s.run.files x } }
  /-- The main thread gets a record, and the user is asked (runs.py:336-345). -/
  | takes (s : RSt fl) (r : PRec fl) (q : List (PRec fl)) (v : PReview) (rest : List Str)
      (h : s.run.rpc = .waiting) (hq : s.run.queue = r :: q)
      (hv : startReview c.P c.cfg r.1 r.2.1 s.ans = some (v, rest)) :
      RStep c s { s with
        run := { s.run with rpc := .reviewing r, queue := q, taken := s.run.taken ++ [r.1] }
        review := some v
        ans := rest }
  /-- The same if the user ends the input. -/
  | takesEof (s : RSt fl) (r : PRec fl) (q : List (PRec fl))
      (h : s.run.rpc = .waiting) (hq : s.run.queue = r :: q)
      (hv : startReview c.P c.cfg r.1 r.2.1 s.ans = none) :
      RStep c s { s with
        run := { s.run with rpc := .reviewing r, queue := q, taken := s.run.taken ++ [r.1] }
        review := none
        ans := [] }
  /-- The main thread executes an operation of a review (review.py:85-98). -/
  | reviews (s : RSt fl) (r : PRec fl) (v : PReview) (g : FS) (t : Task) (h : s.run.rpc = .reviewing r)
      (hv : s.review = some v) (ht : v.task.step s.fs = some (g, t)) :
      RStep c s { s with fs := g, review := some { v with task := t } }
  /-- A review ends and its result is recorded (runs.py:347-357). -/
  | reviewed (s : RSt fl) (r : PRec fl) (v : PReview) (res x : Result) (q : Request) (h : s.run.rpc = .reviewing r)
      (hv : s.review = some v) (ht : v.task = .done (.done x q)) (hf : v.final r.2.1 = .res res) :
      RStep c s { s with
        review := none
        run := { s.run with
          rpc := .check,
          abort := s.run.abort || (decide (v.request = .ABORT) || (c.cfg.failFast && decide (res ≠ .OK))),
          exitCode := if res ≠ .OK then -1 else s.run.exitCode,
          recorded := s.run.recorded ++ [(r.1, res, r.2.2)] } }
  /-- A review ends and recording its result raises an exception, since it is a string (reports.py:163). -/
  | reviewedText (s : RSt fl) (r : PRec fl) (v : PReview) (t : Str) (x : Result) (q : Request)
      (h : s.run.rpc = .reviewing r) (hv : s.review = some v) (ht : v.task = .done (.done x q))
      (hf : v.final r.2.1 = .text t) :
      RStep c s { s with
        review := none
        run := { s.run with
          rpc := .leftover 0 true,
          abort := s.run.abort || (decide (v.request = .ABORT) || c.cfg.failFast),
          exitCode := -1 } }
  /-- A review is left by `EOFError` or by the exception of an operation. -/
  | reviewRaises (s : RSt fl) (r : PRec fl) (h : s.run.rpc = .reviewing r)
      (hv : s.review = none ∨ ∃ v x, s.review = some v ∧ v.task = .done (.error x)) :
      RStep c s { s with review := none, run := { s.run with rpc := .leftover 0 true } }
  /-- KeyboardInterrupt in a review (runs.py:359-360). -/
  | interrupt (s : RSt fl) (r : PRec fl) (h : s.run.rpc = .reviewing r) :
      RStep c s { s with review := none, run := { s.run with rpc := .leftover 0 false, abort := true } }

/-- The states a parallel run can be in that begins with the files `fs` and in which the user enters `ans`. -/
inductive RReach {fl : Durations} (c : RConf fl) (fs : FS) (ans : List Str) : RSt fl → Prop
  | init : RReach c fs ans (RSt.init c fs ans)
  | step {s t : RSt fl} : RReach c fs ans s → RStep c s t → RReach c fs ans t

/-- The files after the run (runs.py:415): the index is written once more. -/
def RSt.finish {fl : Durations} (c : RConf fl) (s : RSt fl) : Except FsErr FS :=
  openW (c.P.root ++ ["index.md".toList]) (indexText c.all) s.fs

end Verif.Model
