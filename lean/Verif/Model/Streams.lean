import Verif.Py.Basic

/-! # Model of the redirection of stderr and logging in `booktest/testcaserun.py`

`TestCaseRun` sends what a test writes to `sys.stderr` and what it logs to the file `<name>.log`.
The model keeps the two global variables `sys.stderr` and `logging.getLogger().handlers`, the
contents of the streams, and which log files are closed.  What the test itself does is an arbitrary
list of actions.  Not modelled: log levels (only records that reach the root logger's handlers are
considered), buffering, and what `logging` prints when a handler's stream is closed. -/

namespace Verif.Model
open Verif.Py

/-- Where text can go. -/
inductive Stream where
  /-- A stream that existed before the tests (the console, for example). -/
  | outer (k : Nat)
  /-- The log file of a test (testcaserun.py:72, 273). -/
  | log (name : Str)
deriving DecidableEq, Repr

/-- `logging.StreamHandler`: its stream and its formatter (`none` is the default one). -/
structure Handler where
  stream : Stream
  fmt : Option Nat
deriving DecidableEq, Repr

/-- The process wide state that `TestCaseRun` changes. -/
structure Streams where
  /-- `sys.stderr`; `none` is Python's `None`. -/
  stderr : Option Stream
  /-- `logging.getLogger().handlers`. -/
  handlers : List Handler
  /-- What has been written to each stream. -/
  text : Stream → Str
  closed : List Stream := []

/-- Writing to a stream; `none` is the `ValueError` of a closed file. -/
def Streams.put (s : Streams) (f : Stream) (t : Str) : Option Streams :=
  if s.closed.contains f then none
  else some { s with text := fun g => if g = f then s.text g ++ t else s.text g }

/-- `Handler.emit`: the formatted record and a newline; a closed stream does not raise (`logging`
catches it). -/
def Streams.emit (render : Option Nat → Str → Str) (s : Streams) (h : Handler) (msg : Str) : Streams :=
  (s.put h.stream (render h.fmt msg ++ "\n".toList)).getD s

/-- What a test can do to the two variables. -/
inductive StreamAct where
  /-- `sys.stderr.write(t)`. -/
  | err (t : Str)
  /-- `logging.info(msg)` and the like. -/
  | logMsg (msg : Str)
  /-- `sys.stderr = f`. -/
  | setErr (f : Option Stream)
  /-- `logging.getLogger().handlers` is changed or replaced. -/
  | setHandlers (hs : List Handler)
  /-- An `Exception` is raised. -/
  | raise
  /-- An exception is raised that is no `Exception` (`KeyboardInterrupt`, `SystemExit`). -/
  | interrupt

/-- How the body of a test ends. -/
inductive BodyEnd where
  | returned | raised | interrupted
deriving DecidableEq, Repr

/-- The body of a test. Writing to `None` or to a closed file raises. -/
def runActs (render : Option Nat → Str → Str) : List StreamAct → Streams → Streams × BodyEnd
  | [], s => (s, .returned)
  | .err t :: as, s =>
    match s.stderr with
    | none => (s, .raised)
    | some f =>
      match s.put f t with
      | none => (s, .raised)
      | some s' => runActs render as s'
  | .logMsg m :: as, s => runActs render as (s.handlers.foldl (fun s h => s.emit render h m) s)
  | .setErr f :: as, s => runActs render as { s with stderr := f }
  | .setHandlers hs :: as, s => runActs render as { s with handlers := hs }
  | .raise :: _, s => (s, .raised)
  | .interrupt :: _, s => (s, .interrupted)

/-- The attributes of a `TestCaseRun` that are used here (testcaserun.py:72-78). -/
structure CaseStreams where
  errFile : Stream
  err : Option Stream := none
  origErr : Option Stream := none
  log : Option Handler := none
  origHandlers : Option (List Handler) := none

/-- The part of `TestCaseRun.__init__` that swaps `sys.stderr` (testcaserun.py:71-82): `self.err` is
`None` at this point. -/
def streamsInit (name : Str) (s : Streams) : CaseStreams × Streams :=
  let c : CaseStreams := { errFile := .log name }
  ({ c with origErr := s.stderr }, { s with stderr := c.err })

/-- `TestCaseRun.open` (testcaserun.py:269-289): opening the log file empties it. -/
def streamsOpen (c : CaseStreams) (s : Streams) : CaseStreams × Streams :=
  let err := c.errFile
  let s := { s with
    text := fun g => if g = err then [] else s.text g
    closed := s.closed.filter (fun g => g ≠ err) }
  let log : Handler := { stream := err, fmt := none }
  let origHandlers := s.handlers
  let log := match origHandlers with
    | [] => log
    | h :: _ => { log with fmt := h.fmt }
  ({ c with
      err := some err
      log := some log
      origHandlers := some origHandlers
      origErr := s.stderr },
    { s with handlers := [log], stderr := some err })

/-- `TestCaseRun.close` (testcaserun.py:291-316); closing a `StreamHandler` does not close its
stream. -/
def streamsClose (c : CaseStreams) (s : Streams) : CaseStreams × Streams :=
  let s := match c.origHandlers with
    | some hs => { s with handlers := hs }
    | none => s
  let s := match c.origErr with
    | some f => { s with stderr := some f }
    | none => s
  let s := match c.err with
    | some f => { s with closed := f :: s.closed }
    | none => s
  ({ c with origHandlers := none, log := none, origErr := none, err := none }, s)

/-- `TestRun.run_case` (testrun.py:88-107) as far as these variables are concerned: an `Exception` of
the body is caught, anything else escapes and `close` is not called.  The flag tells whether it
escaped. -/
def streamsCase (render : Option Nat → Str → Str) (name : Str) (acts : List StreamAct) (s : Streams) :
    Streams × Bool :=
  let i := streamsInit name s
  let o := streamsOpen i.1 i.2
  match runActs render acts o.2 with
  | (s', .interrupted) => (s', true)
  | (s', _) => ((streamsClose o.1 s').2, false)

/-- The tests of a run, one after the other (testrun.py:153-179); it ends when something escapes. -/
def streamsRun (render : Option Nat → Str → Str) : List (Str × List StreamAct) → Streams → Streams × Bool
  | [], s => (s, false)
  | t :: ts, s =>
    match streamsCase render t.1 t.2 s with
    | (s', true) => (s', true)
    | (s', false) => streamsRun render ts s'

end Verif.Model
