import Verif.Model.ReviewAll

/-! # Model of the console report of `booktest/review.py`

What is printed while tests run (`testcaserun.py`, `testrun.py`) and while their records are reviewed
(`report_case`, used by `--review` and by parallel runs), as text.  Not modelled here: the prompts of
interactive reviews and what the tools started from them print, output of the test functions
themselves, and buffering. -/

namespace Verif.Model
open Verif.Py

/-- `printer(text)`. -/
def line (text : Str) : Str := text ++ "\n".toList

/-- Many lines. -/
def lines (ts : List Str) : Str := (ts.map line).flatten

/-- `f"{n}"` for a number that is not negative. -/
def natText (n : Nat) : Str := Nat.toDigits 10 n

/-- `start_report` (review.py:128-131). -/
def startReport : Str := line [] ++ line "# test results:".toList ++ line []

/-- `report_case_begin` (review.py:134-144). -/
def caseBegin (name : Str) (title : Option Str) (verbose : Bool) : Str :=
  if verbose then line (title.getD "test".toList ++ " ".toList ++ name ++ "...".toList) ++ line []
  else "  ".toList ++ name ++ "..".toList

/-- `report_case_result` (review.py:147-166); `ms` is `int(took_ms)`.  A string in the place of a
`TestResult` is none of the three. -/
def caseResult (name : Str) (result : Raw) (ms : Nat) (verbose : Bool) : Str :=
  (if verbose then line [] ++ (name ++ " ".toList) else []) ++
  (if result = .res .OK then
    if verbose then line ("ok in ".toList ++ natText ms ++ " ms.".toList)
    else line (natText ms ++ " ms".toList)
  else if result = .res .DIFF then line ("DIFFERED in ".toList ++ natText ms ++ " ms".toList)
  else if result = .res .FAIL then line ("FAILED in ".toList ++ natText ms ++ " ms".toList)
  else [])

/-- `maybe_print_logs` (review.py:168-188) for a log file with the given text; a file that is missing
has no lines (reports.py:44-57). -/
def caseLogs (name : Str) (log : Str) (verbose printLogs : Bool) : Str :=
  let ls := readFileLines log
  if printLogs then
    if verbose then
      if ls.length > 0 then
        line [] ++ line (name ++ " logs:".toList) ++ line [] ++ lines (ls.map ("  ".toList ++ ·))
      else []
    else
      if ls.length > 0 then
        line [] ++ lines (ls.map ("    log: ".toList ++ ·)) ++ ("  ".toList ++ name ++ "..".toList)
      else []
  else []

/-- The settings that matter here. -/
structure ShowConfig where
  verbose : Bool := false
  printLogs : Bool := false

/-- `self.name`: the last part of the name (testcaserun.py:28-46). -/
def leafName (name : Str) : Str := (split '/' name).getLast?.getD []

/-- What a test prints on the console while it is run (testcaserun.py:109-113, 189-201, 226-258): the
report lines are printed as they come, if wanted.  `log` is the text in its log file. -/
def liveCase (sc : ShowConfig) (name : Str) (rep : List Str) (log : Str) (result : Result) (ms : Nat) :
    Str :=
  caseBegin name none sc.verbose ++
  (if sc.verbose then lines rep else []) ++
  caseLogs (leafName name) log sc.verbose sc.printLogs ++
  caseResult name (.res result) ms sc.verbose ++
  (if sc.verbose then line [] else [])

/-- `report_case` (review.py:193-227): the same from the stored files `name.txt` and `name.log`. -/
def reportCase (sc : ShowConfig) (name : Str) (txt log : Str) (result : Raw) (ms : Nat) : Str :=
  caseBegin name none sc.verbose ++
  (if sc.verbose then lines (readFileLines txt) else []) ++
  caseLogs name log sc.verbose sc.printLogs ++
  caseResult name result ms sc.verbose ++
  (if sc.verbose then line [] else [])

/-- `end_report` (review.py:230-241). -/
def endReport (failed : List Str) (tests tookMs : Nat) : Str :=
  line [] ++
  (if failed.length > 0 then
    line (natText failed.length ++ "/".toList ++ natText tests ++ " test failed in ".toList ++
      natText tookMs ++ " ms:".toList) ++ line [] ++ lines (failed.map ("  ".toList ++ ·))
  else
    line (natText tests ++ "/".toList ++ natText tests ++ " test succeeded in ".toList ++
      natText tookMs ++ " ms".toList)) ++
  line []

/-- What is seen of the execution of a test: the preliminary result, the lines of its report, its log,
and the result after review, the request and the duration. -/
structure Seen (fl : Durations) where
  prelim : Result
  rep : List Str
  log : Str
  result : Result
  request : Request
  dur : fl.D

/-- The variables of the loop of `run_async` (testrun.py:119-124). -/
structure LoopVars where
  rv : Result := .OK
  failed : List Str := []
  fails : Nat := 0
  tests : Nat := 0
  console : Str := []

/-- The body of the loop (testrun.py:155-173), for a test whose execution ends. -/
def loopBody {fl : Durations} (sc : ShowConfig) (ms : fl.D → Nat) (n : Str) (o : Seen fl)
    (v : LoopVars) : LoopVars :=
  let v := { v with console := v.console ++ liveCase sc n o.rep o.log o.prelim (ms o.dur) }
  if o.result = .DIFF ∨ o.result = .FAIL then
    { v with
      rv := if v.rv ≠ .FAIL then o.result else v.rv
      failed := v.failed ++ [n]
      fails := v.fails + 1
      tests := v.tests + 1 }
  else { v with tests := v.tests + 1 }

/-- The loop (testrun.py:153-179); `none` if an exception escapes. -/
def showLoop {fl : Durations} (sc : ShowConfig) (ms : fl.D → Nat) (cfg : Config)
    (outcome : List Str → Str → Option (Seen fl)) (ex : List Str) (v : LoopVars) :
    List Str → Option LoopVars
  | [] => some v
  | n :: ns =>
    match outcome ex n with
    | none => none
    | some o =>
      let v := loopBody sc ms n o v
      if o.request = .ABORT ∨ (cfg.failFast = true ∧ v.fails > 0) then some v
      else showLoop sc ms cfg outcome (ex ++ [n]) v ns

/-- What a sequential run prints from the tests to run on (testrun.py:139-187), and the value it
returns. -/
def runConsole {fl : Durations} (sc : ShowConfig) (ms : fl.D → Nat) (cfg : Config)
    (outcome : List Str → Str → Option (Seen fl)) (took : Nat) (todo : List Str) :
    Option (Str × Result) :=
  match showLoop sc ms cfg outcome [] { console := startReport } todo with
  | none => none
  | some v => some (v.console ++ endReport v.failed v.tests took, v.rv)

/-- The loop of `review` (review.py:296-321) as far as the console is concerned: the tests that are
looked at, with their stored result.  `txt` and `log` are the stored texts. -/
def reviewConsoleLoop {fl : Durations} (sc : ShowConfig) (ms : fl.D → Nat) (cfg : Config)
    (exp out : Path) (txt log : Str → Str) (passed : List Str) (cases : Option (List Str)) :
    List (Rec fl) → Bool → FS → List Str → Str
  | [], _, _, _ => []
  | (n, res, d) :: rest, abort, fs, answers =>
    if !abort && isReviewed cfg passed cases n then
      reportCase sc n (txt n) (log n) (.res res) (ms d) ++
      match caseReview cfg exp out n (.res res) answers fs with
      | (fs', .done rv request, answers') =>
        let abort' := decide (request = .ABORT) || (cfg.failFast && decide (rv ≠ .res .OK))
        reviewConsoleLoop sc ms cfg exp out txt log passed cases rest abort' fs' answers'
      | _ => []
    else reviewConsoleLoop sc ms cfg exp out txt log passed cases rest abort fs answers

/-- `CaseReports.failed` (reports.py:104-105). -/
def failedNames {fl : Durations} (rs : List (Rec fl)) : List Str :=
  (rs.filter (fun r => r.2.1 ≠ .OK)).map (·.1)

/-- What `review` prints (review.py:275-331), if no exception is raised: the number of tests in the
summary is the number of all records. -/
def reviewConsole {fl : Durations} (sc : ShowConfig) (ms : fl.D → Nat) (cfg : Config) (exp out : Path)
    (txt log : Str → Str) (passed? : Option (List Str)) (cases : Option (List Str))
    (records : List (Rec fl)) (answers : List Str) (fs : FS) (took : Nat) : Option (Str × Int) :=
  match (review fl cfg exp out passed? cases records answers fs).2.1 with
  | none => none
  | some (reviews, rv) =>
    some (startReport ++
      reviewConsoleLoop sc ms cfg exp out txt log (passed?.getD (passed records)) cases records false fs
        answers ++
      endReport (failedNames reviews) reviews.length took, rv)

end Verif.Model
