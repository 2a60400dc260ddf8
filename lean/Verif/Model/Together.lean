import Verif.Model.Project
import Verif.Model.Worker
import Verif.Model.ReviewAll

/-! # Model of tests that are executed at the same time by different processes

The operations on files that `run_case` consists of are atomic, and those of different processes are
executed in any order.  `mkdir -p` makes one directory after the other; `shutil.rmtree` and writing a file
are taken as one step each, because no other process uses these files (which is proved: C103).

The simplifications of `Model/Project` apply. -/

namespace Verif.Model
open Verif.Py

/-- An operation on the file system. -/
inductive FsOp where
  /-- `os.path.exists`, `open(p)` for reading. -/
  | look (p : Path)
  /-- One step of `mkdir -p`: an existing directory is no error, nor is one that another process has
  just made. -/
  | makeDir (p : Path)
  /-- `os.mkdir`. -/
  | mkdir (p : Path)
  /-- `shutil.rmtree`. -/
  | rmtree (p : Path)
  /-- `open(p, "w")`, writing and closing. -/
  | write (p : Path) (text : Str)
  /-- `os.rename`. -/
  | rename (a b : Path)
  /-- `os.remove`. -/
  | remove (p : Path)

/-- What an operation does, and what it finds. -/
def FsOp.run (fs : FS) : FsOp → Except FsErr (FS × Option Node)
  | .look p => .ok (fs, fs.get p)
  | .makeDir p =>
    match fs.get p with
    | some n => .ok (fs, some n)
    | none => if fs.isDir p.dropLast then .ok ((p, .dir) :: fs, some .dir) else .error .notFound
  | .mkdir p => (Model.mkdir p fs).map (fun fs' => (fs', none))
  | .rmtree p => (fs.rmtree p).map (fun fs' => (fs', none))
  | .write p text => (openW p text fs).map (fun fs' => (fs', none))
  | .rename a b => (fs.rename a b).map (fun fs' => (fs', none))
  | .remove p => (fs.remove p).map (fun fs' => (fs', none))

/-- What a process still has to do. -/
inductive Task where
  | done (e : CaseEnd)
  | act (o : FsOp) (k : Option Node → Task)

/-- One operation of a process. -/
def Task.step (fs : FS) : Task → Option (FS × Task)
  | .done _ => none
  | .act o k =>
    match o.run fs with
    | .error x => some (fs, .done (.error x))
    | .ok (fs', a) => some (fs', k a)

/-! ### `run_case` as a sequence of operations -/

/-- `mkdir -p` (compare `mkdirsFrom`). -/
def mkdirsTask (base : Path) : List Str → Task → Task
  | [], k => k
  | c :: cs, k => .act (.makeDir (base ++ [c])) fun
    | some (.file _) => k
    | _ => mkdirsTask (base ++ [c]) cs k

/-- `if path.exists(d): shutil.rmtree(d)` (testcaserun.py:99-104, review.py:91-92). -/
def removeTask (d : Path) (k : Task) : Task :=
  .act (.look d) fun a => if a.isSome then .act (.rmtree d) (fun _ => k) else k

/-- The three output files (testcaserun.py:269-274, 417-426). -/
def outputsTask (out : Path) (name md txt log : Str) (k : Task) : Task :=
  .act (.write (filePath out name ".md".toList) md) fun _ =>
    .act (.write (filePath out name ".txt".toList) txt) fun _ =>
      .act (.write (filePath out name ".log".toList) log) fun _ => k

/-- The files that a test writes through `t.file` (testcaserun.py:143-154). -/
def filesTask (out : Path) (name : Str) : List (Str × Str) → Task → Task
  | [], k => k
  | f :: rest, k =>
    .act (.look (dirPath out name)) fun a =>
      if a.isSome then .act (.write (dirPath out name ++ [f.1]) f.2) (fun _ => filesTask out name rest k)
      else .act (.mkdir (dirPath out name)) fun _ =>
        .act (.write (dirPath out name ++ [f.1]) f.2) (fun _ => filesTask out name rest k)

/-- `freeze_case` (review.py:85-98). -/
def freezeTask (exp out : Path) (name : Str) (k : Task) : Task :=
  removeTask (dirPath exp name) <|
    .act (.rename (mdPath out name) (mdPath exp name)) fun _ =>
      .act (.look (dirPath out name)) fun a =>
        if a.isSome then .act (.rename (dirPath out name) (dirPath exp name)) (fun _ => k) else k

/-- `save_test_result` on disk (testrun.py:78-86). -/
def saveTask (out : Path) (name : Str) (value : Option Str) (k : Task) : Task :=
  match value with
  | none => .act (.look (filePath out name ".bin".toList)) fun a =>
      if a.isSome then .act (.remove (filePath out name ".bin".toList)) (fun _ => k) else k
  | some v => .act (.write (filePath out name ".bin".toList) v) (fun _ => k)

/-- The review of a result (review.py:29-84, 101-125, compare `caseReview`), in which the user enters the
lines `ans`; then `yes` if the result is accepted, otherwise `no`. The last argument of both are the lines
that are left. -/
def reviewTask (P : Project) (cfg : Config) (name : Str) (ans : List Str) (v : Result)
    (yes no : Request → List Str → Task) : Task :=
  let asked := cfg.alwaysInteractive || (decide (v ≠ .OK) && cfg.interactive)
  match (if asked then interact (.res v) ans else some (.NONE, ans)) with
  | none => .done .eof
  | some (request, rest) =>
    if request = .FREEZE ∨ (v = .OK ∧ cfg.update = true) ∨ (v = .DIFF ∧ cfg.accept = true) then
      freezeTask P.root P.out name (yes request rest)
    else no request rest

/-- The review, and the storing of the returned value (testrun.py:102-107, compare `endCase`). -/
def endTask (P : Project) (cfg : Config) (name : Str) (ans : List Str) (v : Result)
    (k : Result → Request → List Str → Task) : Task :=
  reviewTask P cfg name ans v
    (fun request rest => saveTask P.out name (P.tests name).returns (k .OK request rest))
    (fun request rest =>
      if v = .OK ∨ v = .DIFF then saveTask P.out name (P.tests name).returns (k v request rest)
      else k v request rest)

/-- `run_case` (testrun.py:88-107, compare `runCase`). -/
def caseTask (P : Project) (cfg : Config) (name : Str) (ans : List Str)
    (k : Result → Request → List Str → Task) : Task :=
  mkdirsTask [] (baseDir P.root name) <| mkdirsTask [] (baseDir P.out name) <|
    .act (.look (filePath P.root name ".md".toList)) fun a =>
      removeTask (dirPath P.out name) <| removeTask (dirPath P.out (name ++ ".tmp".toList)) <|
        outputsTask P.out name [] [] [] <|
          if a = some .dir then .done (.error .isADirectory)
          else
            let e := P.env (match a with | some (.file c) => some c | _ => none)
            match runTest e (P.tests name).body with
            | none => .done .hangs
            | some s =>
              filesTask P.out name (P.tests name).files <|
                outputsTask P.out name s.out (s.rep.map (· ++ "\n".toList)).flatten (P.tests name).log <|
                  endTask P cfg name ans (verdict e s) k

/-- `create_index` (testrun.py:188, compare `runProject`). -/
def indexTask (P : Project) (all : List Str) (k : Task) : Task :=
  .act (.write (P.root ++ ["index.md".toList]) (indexText all)) (fun _ => k)

/-- A worker that runs one test (runs.py:61-98, testrun.py:112-191): the test, then the index. The report
of its batch and `metrics.json` are left out, see `workerTrace`. -/
def workerTask (P : Project) (cfg : Config) (all : List Str) (name : Str) : Task :=
  caseTask P (jobConfig cfg) name [] fun r q _ => indexTask P all (.done (.done r q))

/-- The loop of a sequential run (testrun.py:153-179, compare `runLoop`). -/
def loopTask (P : Project) (cfg : Config) (all : List Str) (rv : Result) (fails : Nat) :
    List Str → List Str → Task
  | [], _ => indexTask P all (.done (.done rv .NONE))
  | n :: ns, ans =>
    caseTask P cfg n ans fun r q rest =>
      if q = .ABORT ∨ (cfg.failFast = true ∧ nextFails fails r > 0) then
        indexTask P all (.done (.done (nextRv rv r) q))
      else loopTask P cfg all (nextRv rv r) (nextFails fails r) ns rest

/-- A sequential run of the tests `todo` (testrun.py:112-191, compare `runProject`). The report and
`metrics.json` are left out, see `runAsync`. -/
def sequentialTask (P : Project) (cfg : Config) (all todo ans : List Str) : Task :=
  mkdirsTask [] P.out (loopTask P cfg all .OK 0 todo ans)

/-- The review of a record in the main process (runs.py:338-345, review.py:193-225), if there is one: the user
enters the lines `ans`. -/
def laterTask (P : Project) (cfg : Config) (name : Str) (ans : Option (List Str)) (r : Result) (q : Request) : Task :=
  match ans with
  | none => .done (.done r q)
  | some ans => reviewTask P cfg name ans r (fun q _ => .done (.done .OK q)) (fun q _ => .done (.done r q))

/-- What happens to one test in a parallel run: first a worker runs it, then the main process reviews the
result that it finds in the worker's report (runs.py:333-345), unless the run ends before. A worker that dies
after it has written its report does not write the index. How this comes about is modelled in
`Model/ParallelRun`. -/
def parallelTask (P : Project) (cfg : Config) (all : List Str) (index : Bool) (ans : Option (List Str)) (name : Str) :
    Task :=
  caseTask P (jobConfig cfg) name [] fun r q _ =>
    if index then indexTask P all (laterTask P cfg name ans r q) else laterTask P cfg name ans r q

/-- The loop of `review` (review.py:296-321, compare `reviewLoop`). The records that it collects are left
out. -/
def reviewsTask {fl : Durations} (P : Project) (cfg : Config) (passed : List Str) (cases : Option (List Str)) :
    List (Rec fl) → Bool → List Str → Task
  | [], _, _ => .done (.done .OK .NONE)
  | (n, res, _) :: rest, abort, ans =>
    if !abort && isReviewed cfg passed cases n then
      reviewTask P cfg n ans res
        (fun q l => reviewsTask P cfg passed cases rest (decide (q = .ABORT)) l)
        (fun q l => reviewsTask P cfg passed cases rest
          (decide (q = .ABORT) || (cfg.failFast && decide (res ≠ .OK))) l)
    else reviewsTask P cfg passed cases rest abort ans

/-- Tasks for the tests `ns` that are executed at the same time, each of them by itself: the trace says
whose operation was executed at each step. -/
inductive Interleaved (T : Str → Task) (ns : List Str) (fs : FS) : List Str → FS → (Str → Task) → Prop
  | init : Interleaved T ns fs [] fs T
  | step {trace : List Str} {g g' : FS} {t : Str → Task} {task : Task} (n : Str) :
      Interleaved T ns fs trace g t → n ∈ ns → (t n).step g = some (g', task) →
      Interleaved T ns fs (trace ++ [n]) g' (fun m => if m = n then task else t m)

/-- Workers that run at the same time. -/
abbrev Together (P : Project) (cfg : Config) (all ns : List Str) (fs : FS) :=
  Interleaved (workerTask P cfg all) ns fs

end Verif.Model
