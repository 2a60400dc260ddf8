import Verif.Model.Tokenizer

/-!
# Model of `TestCaseRun` (`booktest/testcaserun.py`) and `TestRun.run_case` (`testrun.py:88-107`)

What is not modelled here: the console output and `verbose` printing, the log/stderr files, the
measured times (the formatted texts are arguments), the temporary files.  The review step that
`end()` calls is modelled in `Verif.Model.Review`.

A printing call on a text with a NUL character never returns (see C02); such calls have the value
`none`.
-/

namespace Verif.Model
open Verif.Py

/-- What does not change during a run: the Unicode tables, the snapshot file (`none` = it does not
exist; the content is the raw text of the file before newline translation), the
`point_error_pos` setting, and the composition of `float(text)` with the `.3f` format used by
`ifloatln` (`none` = `ValueError`). -/
structure Env where
  u : Unicode
  expFile : Option Str
  pointErrorPos : Bool
  refmt : Str → Option Str

/-- The fields of `TestCaseRun` that change during a run (testcaserun.py:51-93).
`exp` is the unread rest of the open snapshot file (`none` = closed), `out` what has been written
to the output file, `rep` the printed report lines. -/
structure St where
  exp : Option Str
  expLine : Option Str
  expLineNumber : Nat
  expTokens : Option BufIter
  out : Str
  outLine : Str
  rep : List Str
  lineDiff : Option Nat
  lineError : Option Nat
  lineNumber : Nat
  diffs : Nat
  errors : Nat
  lastChecked : Bool

/-- The state after `__init__` and `open` (testcaserun.py:23-104, 269-289).  Before the first
`reset_exp_reader` the field `exp_line_number` is `None`; `start` resets it before any use, so 0
stands for it. -/
def St.init : St where
  exp := none
  expLine := none
  expLineNumber := 0
  expTokens := none
  out := []
  outLine := []
  rep := []
  lineDiff := none
  lineError := none
  lineNumber := 0
  diffs := 0
  errors := 0
  lastChecked := false

variable (e : Env)

/-- `self.exp_file_exists` (testcaserun.py:51). -/
def Env.exists_ : Bool := e.expFile.isSome

/-- What the text-mode reader delivers for the whole snapshot file. -/
def Env.text : Str := universalNewlines (e.expFile.getD [])

/-- `next_exp_line` (testcaserun.py:318-337).  A file object is always truthy, so `if self.exp`
tests that the reader is open. -/
def nextExpLine (s : St) : St :=
  if e.exists_ then
    match s.exp with
    | some rest =>
      let (line, rest') := readline rest
      if line.length = 0 then
        { s with exp := none, expLine := none, expTokens := none,
                 expLineNumber := s.expLineNumber + 1 }
      else
        { s with exp := some rest', expLineNumber := s.expLineNumber + 1,
                 expLine := some line.dropLast,
                 expTokens := some (BufIter.of e.u line.dropLast) }
    | none =>
      if s.lastChecked then { s with expLine := none, expTokens := none } else s
  else s

/-- `reset_exp_reader` (testcaserun.py:115-125). -/
def resetExpReader (s : St) : St :=
  nextExpLine e
    { s with exp := if e.exists_ then some e.text else none,
             expLine := none, expLineNumber := 0, expTokens := none }

/-- A Python `while cond: body` loop, cut after `fuel` iterations.  The loops over snapshot lines
below need at most one iteration per line; that the fuel `Env.fuel` suffices is proved in
`Verif.Lemmas.Cursor`. -/
def whileFuel (cond : St → Bool) (body : St → St) : Nat → St → St
  | 0, s => s
  | n + 1, s => if cond s then whileFuel cond body n (body s) else s

/-- Enough iterations to walk over all lines of the snapshot. -/
def Env.fuel : Nat := e.text.length + 2

/-- `self.exp_line is not None and not is_line_ok(self.exp_line) and number < end`; `stop = none`
is `sys.maxsize`. -/
def seekCond (p : Str → Bool) (stop : Option Nat) (s : St) : Bool :=
  match s.expLine with
  | none => false
  | some l => !p l && (match stop with | none => true | some n => decide (s.expLineNumber < n))

/-- `jump` (testcaserun.py:339-353). -/
def jump (n : Nat) (s : St) : St :=
  if e.exists_ then
    let s := if n < s.expLineNumber then resetExpReader e s else s
    whileFuel (fun s => s.expLine.isSome && decide (s.expLineNumber < n)) (nextExpLine e) e.fuel s
  else s

/-- `seek` (testcaserun.py:355-385). -/
def seek (p : Str → Bool) (begin_ : Nat) (end_ : Option Nat) (s : St) : St :=
  if e.exists_ then
    let at_ := s.expLineNumber
    let s := whileFuel (seekCond p end_) (nextExpLine e) e.fuel s
    if s.expLine.isNone then
      let s := jump e begin_ s
      whileFuel (seekCond p (some at_)) (nextExpLine e) e.fuel s
    else s
  else s

/-- `seek_line` (testcaserun.py:387-400). -/
def seekLine (anchor : Str) (begin_ : Nat := 0) (end_ : Option Nat := none) (s : St) : St :=
  seek e (fun x => decide (x = anchor)) begin_ end_ s

/-- `seek_prefix` (testcaserun.py:402-415). -/
def seekPrefix (pre : Str) (s : St) : St := seek e (fun x => startsWith x pre) 0 none s

/-- `write_line` (testcaserun.py:417-426). -/
def writeLine (s : St) : St :=
  let s := nextExpLine e { s with out := s.out ++ s.outLine ++ ['\n'], outLine := [] }
  { s with lineNumber := s.lineNumber + 1 }

/-- `commit_line` (testcaserun.py:428-463). -/
def commitLine (s : St) : St :=
  if s.lineError.isSome || s.lineDiff.isSome then
    let symbol : Str := if s.lineError.isSome then ['!'] else ['?']
    let diffs := if s.lineDiff.isSome then s.diffs + 1 else s.diffs
    let errors := if s.lineError.isSome then s.errors + 1 else s.errors
    let pos := match s.lineError with
      | some p => p
      | none => s.lineDiff.getD 0
    let shown : Str := match s.expLine with
      | some l => symbol ++ [' '] ++ ljust 60 s.outLine ++ [' ', '|', ' '] ++ l
      | none => symbol ++ [' '] ++ ljust 60 s.outLine ++ [' ', '|', ' ', 'E', 'O', 'F']
    let caret : List Str :=
      if e.pointErrorPos then [[' ', ' '] ++ List.replicate pos ' ' ++ ['^']] else []
    let s := writeLine e { s with diffs := diffs, errors := errors, rep := s.rep ++ [shown] ++ caret }
    { s with lineError := none, lineDiff := none }
  else
    writeLine e { s with rep := s.rep ++ [[' ', ' '] ++ s.outLine] }

/-- `head_exp_token` (testcaserun.py:465-475). -/
def headExpToken (s : St) : Option Str :=
  match s.expTokens with
  | some b => if b.hasNext then b.head else some ['\n']
  | none => none

/-- `next_exp_token` (testcaserun.py:477-488). -/
def nextExpToken (s : St) : Option Str × St :=
  match s.expTokens with
  | some b => match b.next e.u with
    | some (t, b') => (some t, { s with expTokens := some b' })
    | none => (some ['\n'], s)
  | none => (none, s)

/-- `diff` (testcaserun.py:549-553). -/
def diff (s : St) : St :=
  if s.lineDiff.isNone then { s with lineDiff := some s.outLine.length } else s

/-- `fail` (testcaserun.py:555-559). -/
def fail (s : St) : St :=
  if s.lineError.isNone then { s with lineError := some s.outLine.length } else s

/-- `feed_token` (testcaserun.py:490-513). -/
def feedToken (s : St) (token : Str) (check : Bool) : St :=
  let (expToken, s) := nextExpToken e s
  let s := { s with lastChecked := check }
  let s := if e.exists_ && decide (some token ≠ expToken) && check then diff s else s
  if token = ['\n'] then commitLine e s
  else { s with outLine := s.outLine ++ token }

/-- Feeding a list of tokens one by one. -/
def feedTokens (s : St) (ts : List Str) (check : Bool) : St :=
  ts.foldl (fun s t => feedToken e s t check) s

/-- `test_feed` with `check = true` (testcaserun.py:523-534), `feed` with `check = false`
(testcaserun.py:536-547). -/
def feed (s : St) (text : Str) (check : Bool) : Option St :=
  (tokenize e.u text).map (fun ts => feedTokens e s ts check)

/-- `t` (testcaserun.py:873-878). -/
def opT (text : Str) (s : St) : Option St := feed e s text true

/-- `tln` (testcaserun.py:907-913; the definition at 891-896 is shadowed by it). -/
def opTln (text : Str) (s : St) : Option St := do
  let s ← feed e s text true
  feed e s ['\n'] true

/-- `i` (testcaserun.py:915-922). -/
def opI (text : Str) (s : St) : Option St := feed e s text false

/-- `iln` (testcaserun.py:924-932). -/
def opIln (text : Str) (s : St) : Option St := do
  let s ← feed e s text false
  feed e s ['\n'] false

/-- `anchor` (testcaserun.py:561-571). -/
def opAnchor (a : Str) (s : St) : Option St := opT e a (seekPrefix e a s)

/-- `anchorln` (testcaserun.py:573-583). -/
def opAnchorln (a : Str) (s : St) : Option St := opTln e a (seekLine e a 0 none s)

/-- `header` (testcaserun.py:585-597). -/
def opHeader (h : Str) (s : St) : Option St := do
  let s := if 0 < s.lineNumber then
      feedToken e s ['\n'] (s.lastChecked && s.expLine.isSome)
    else s
  let s ← opAnchorln e h s
  opTln e [] s

/-- `ifloatln` (testcaserun.py:599-616); `shown` is `f"{value:.3f}"`. -/
def opIfloatln (shown : Str) (unit : Option Str) (s : St) : Option St := do
  let old := (headExpToken s).bind e.refmt
  let post : Str := match unit with
    | some x => ' ' :: x
    | none => []
  let s ← opI e (shown ++ post) s
  match old with
  | some o => opIln e (" (was ".toList ++ o ++ post ++ ")".toList) s
  | none => opIln e [] s

/-- `tmsln` (testcaserun.py:618-639) for an `f` that returns: `over` is `ms > max_ms`, `failText`
the printed failure, `shown` the formatted time.  `imsln` is the case `over = false`. -/
def opTmsln (over : Bool) (failText shown : Str) (s : St) : Option St :=
  if over then opTln e failText (fail s)
  else opIfloatln e shown (some "ms".toList) s

/-- `assertln` (testcaserun.py:800-818). -/
def opAssertln (cond : Bool) (msg : Option Str) (s : St) : Option St :=
  if cond then opIln e "ok".toList s
  else match msg with
    | some (c :: cs) => opIln e (c :: cs) (fail s)
    | _ => opIln e "FAILED".toList (fail s)

/-- `must_apply` (testcaserun.py:820-828). -/
def opMust (title : Str) (cond : Bool) (msg : Option Str) (s : St) : Option St := do
  let s ← opI e (" * MUST ".toList ++ title ++ "...".toList) s
  opAssertln e cond msg s

/-- `tlist` (testcaserun.py:744-762). -/
def opTlist (items : List Str) (pre : Str) (s : St) : Option St :=
  items.foldlM (fun s i => opTln e (pre ++ i) s) s

/-- The scan of `tset` (testcaserun.py:775-782): collects the items listed at the cursor and moves
the cursor behind them.  A Python set is a duplicate-free list. -/
def tsetScan (pre : Str) : Nat → St → List Str → St × List Str
  | 0, s, acc => (s, acc)
  | n + 1, s, acc =>
    match s.expLine with
    | some l =>
      if startsWith l pre then
        tsetScan pre n (nextExpLine e s) (List.insert (l.drop pre.length) acc)
      else (s, acc)
    | none => (s, acc)

/-- The loop over the items (testcaserun.py:784-793) when there is something to compare to. -/
def tsetItems (pre : Str) (begin_ end_ : Nat) : List Str → St × List Str → Option (St × List Str)
  | [], r => some r
  | i :: is, (s, compare) => do
    let (s, compare) :=
      if i ∈ compare then (seekLine e (pre ++ i) begin_ (some end_) s, compare.erase i)
      else (diff s, compare)
    let s ← opIln e (pre ++ i) s
    tsetItems pre begin_ end_ is (s, compare)

/-- `tset` (testcaserun.py:764-798). -/
def opTset (items : List Str) (pre : Str) (s : St) : Option St :=
  if s.expLine.isSome then do
    let begin_ := s.expLineNumber
    let (s, compare) := tsetScan e pre e.fuel s []
    let end_ := s.expLineNumber
    let (s, compare) ← tsetItems e pre begin_ end_ items (s, compare)
    let s := if 0 < compare.length then diff s else s
    return jump e end_ s
  else
    items.foldlM (fun s i => opIln e (pre ++ i) s) s

/-- `keyvalueln` (testcaserun.py:898-905). -/
def opKeyvalueln (key value : Str) (s : St) : Option St := do
  let s ← opAnchor e key s
  opTln e (' ' :: value) s

/-- A data frame: its columns (name, `str` of the cells), all of the same height, with a unique
index. -/
structure Table where
  cols : List (Str × List Str)
  rows : Nat

/-- Column widths (testcaserun.py:711-716). -/
def colPad (rows : Nat) (c : Str × List Str) : Nat :=
  (List.range rows).foldl (fun m i => max m (c.2.getD i []).length) c.1.length

/-- `buf.replace("\r", " ").replace("\n", " ").strip()` (testcaserun.py:732-735). -/
def cellText (u : Unicode) (x : Str) : Str :=
  strip u ((x.map (fun c => if c = '\r' then ' ' else c)).map (fun c => if c = '\n' then ' ' else c))

/-- The header row (testcaserun.py:718-722). -/
def headRow (tb : Table) : Str :=
  '|' :: (tb.cols.map (fun c => ljust (colPad tb.rows c) c.1 ++ ['|'])).flatten

/-- The separator row (testcaserun.py:724-727). -/
def sepRow (tb : Table) : Str :=
  '|' :: (tb.cols.map (fun c => List.replicate (colPad tb.rows c) '-' ++ ['|'])).flatten

/-- One cell: `t(buf)`, `i(padding)`, `t("|")` (testcaserun.py:731-740). -/
def opCell (rows : Nat) (c : Str × List Str) (i : Nat) (s : St) : Option St := do
  let buf := cellText e.u (c.2.getD i [])
  let s ← opT e buf s
  let s ← opI e (List.replicate (colPad rows c - buf.length) ' ') s
  opT e ['|'] s

/-- One row (testcaserun.py:730-741). -/
def opRow (tb : Table) (i : Nat) (s : St) : Option St := do
  let s ← opT e ['|'] s
  let s ← tb.cols.foldlM (fun s c => opCell e tb.rows c i s) s
  opTln e [] s

/-- `tdf` (testcaserun.py:705-742). -/
def opTdf (tb : Table) (s : St) : Option St := do
  let s ← opIln e (headRow tb) s
  let s ← opTln e (sepRow tb) s
  (List.range tb.rows).foldlM (fun s i => opRow e tb i s) s

/-- One call of the testing API.  `h`, `h1`–`h3` are `header` calls, `timage`, `tformat` are `tln`
calls, `ttable` is `tdf`, `imsln` is `tmsln`, `TestIt` and the `must_*` calls are `header` and
`must` calls. -/
inductive Op
  | t (text : Str)
  | i (text : Str)
  | tln (text : Str)
  | iln (text : Str)
  | anchor (a : Str)
  | anchorln (a : Str)
  | header (h : Str)
  | diff
  | fail
  | assertln (cond : Bool) (msg : Option Str)
  | must (title : Str) (cond : Bool) (msg : Option Str)
  | tlist (items : List Str) (pre : Str)
  | tset (items : List Str) (pre : Str)
  | keyvalueln (key value : Str)
  | ifloatln (shown : Str) (unit : Option Str)
  | tmsln (over : Bool) (failText shown : Str)
  | tdf (tb : Table)

/-- `h(level, title)` (testcaserun.py:653-656), `h1`–`h3` (658-680). -/
def Op.h (level : Nat) (title : Str) : Op := .header (List.replicate level '#' ++ ' ' :: title)

/-- Dispatch of an API call. -/
def Op.exec : Op → St → Option St
  | .t x, s => opT e x s
  | .i x, s => opI e x s
  | .tln x, s => opTln e x s
  | .iln x, s => opIln e x s
  | .anchor x, s => opAnchor e x s
  | .anchorln x, s => opAnchorln e x s
  | .header x, s => opHeader e x s
  | .diff, s => some (Model.diff s)
  | .fail, s => some (Model.fail s)
  | .assertln c m, s => opAssertln e c m s
  | .must x c m, s => opMust e x c m s
  | .tlist is p, s => opTlist e is p s
  | .tset is p, s => opTset e is p s
  | .keyvalueln k v, s => opKeyvalueln e k v s
  | .ifloatln x un, s => opIfloatln e x un s
  | .tmsln o f x, s => opTmsln e o f x s
  | .tdf tb, s => opTdf e tb s

/-- A sequence of API calls. -/
def execAll (ops : List Op) (s : St) : Option St := ops.foldlM (fun s o => o.exec e s) s

/-- `start` (testcaserun.py:189-201): the state in which the test function is called. -/
def start : St := resetExpReader e St.init

/-- What a test function does: a sequence of API calls, then it returns (`raises = none`) or raises
an `Exception` with the given message and formatted traceback. -/
structure Test where
  ops : List Op
  raises : Option (Str × Str)

/-- The exception handler (testrun.py:97-100). -/
def handler (msg traceback : Str) (s : St) : Option St := do
  let s ← opIln e [] s
  let s := Model.fail s
  let s ← opIln e ("test raised exception ".toList ++ msg ++ [':']) s
  opIln e traceback s

/-- `run_case` up to `t.end()` (testrun.py:90-100). -/
def runTest (x : Test) : Option St := do
  let s ← execAll e x.ops (start e)
  match x.raises with
  | none => some s
  | some (msg, tb) => handler e msg tb s

/-- `TestResult` (reports.py:13-16). -/
inductive Result
  | OK | FAIL | DIFF
deriving DecidableEq, Repr

/-- The preliminary result computed by `end` (testcaserun.py:234-239).  The snapshot file is
assumed not to appear or disappear during the test. -/
def verdict (s : St) : Result :=
  if s.errors ≠ 0 then .FAIL
  else if s.diffs ≠ 0 || !e.exists_ then .DIFF
  else .OK

end Verif.Model
