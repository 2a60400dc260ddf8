import Verif.Model.Review
import Verif.Py.Utf8

/-! # Model of `booktest/reports.py`: the case report file `cases.txt` -/

namespace Verif.Model
open Verif.Py

/-- Durations: Python floats, of which only printing and reading back matters.  The laws hold for
every finite float. -/
structure Durations where
  D : Type
  /-- `f"{d}"`. -/
  repr : D → Str
  /-- `float(s)`; `none` is `ValueError`. -/
  parse : Str → Option D
  parse_repr : ∀ d, parse (repr d) = some d
  repr_clean : ∀ d, ∀ c ∈ repr d, c ≠ '\t' ∧ c ≠ '\n' ∧ c ≠ '\r'

/-- A record: test name, result and duration. -/
abbrev Rec (fl : Durations) := Str × Result × fl.D

/-- `res.name` (reports.py:13-16). -/
def Result.name : Result → Str
  | .OK => "OK".toList
  | .FAIL => "FAIL".toList
  | .DIFF => "DIFF".toList

/-- The line of `CaseReports.write_case` (reports.py:158-164). -/
def caseLine (fl : Durations) (r : Rec fl) : Str :=
  r.1 ++ "\t".toList ++ r.2.1.name ++ "\t".toList ++ fl.repr r.2.2 ++ "\n".toList

/-- The text of `CaseReports.to_file` (reports.py:176-182). -/
def toText (fl : Durations) (rs : List (Rec fl)) : Str := (rs.map (caseLine fl)).flatten

/-- `read_lines` on the content of an existing file (reports.py:44-57). -/
def readFileLines (content : Str) : List Str :=
  let rv := split '\n' (universalNewlines content)
  if rv.length > 0 ∧ rv.getLast? = some [] then rv.dropLast else rv

/-- One line of `CaseReports.of_file` (reports.py:134-153): `none` if the line is blank or if an
exception is raised, which is logged and ignored. -/
def parseLine (u : Unicode) (fl : Durations) (j : Str) : Option (Rec fl) :=
  if (strip u j).length > 0 then
    match split '\t' j with
    | name :: res :: dur :: _ =>
      let result : Option Result :=
        if res = "OK".toList then some .OK
        else if res = "DIFF".toList then some .DIFF
        else if res = "FAIL".toList then some .FAIL
        else none
      match result with
      | none => none
      | some result =>
        match fl.parse dur with
        | none => none
        | some d => some (name, result, d)
    | _ => none
  else none

/-- `CaseReports.of_file` on the text of an existing file (reports.py:131-155). -/
def ofText (u : Unicode) (fl : Durations) (content : Str) : List (Rec fl) :=
  (readFileLines content).filterMap (parseLine u fl)

/-- `CaseReports.of_file`: `none` content is a missing file; a `none` result is
`UnicodeDecodeError`. -/
def ofFile (u : Unicode) (fl : Durations) : Option Bytes → Option (List (Rec fl))
  | none => some []
  | some b => (decode b).map (ofText u fl)

/-- `CaseReports.by_name` (reports.py:107-108). -/
def byName {fl : Durations} (rs : List (Rec fl)) (name : Str) : List (Rec fl) :=
  rs.filter (fun r => r.1 = name)

/-- `CaseReports.passed` (reports.py:101-102). -/
def passed {fl : Durations} (rs : List (Rec fl)) : List Str :=
  (rs.filter (fun r => r.2.1 = .OK)).map (·.1)

/-- The test of `cases_to_done_and_todo`: the first record of the name is OK (reports.py:116-117). -/
def firstOk {fl : Durations} (rs : List (Rec fl)) (name : Str) : Option (Rec fl) :=
  match byName rs name with
  | [] => none
  | r :: _ => if r.2.1 = .OK then some r else none

/-- One step of the loop in `cases_to_done_and_todo` (reports.py:115-120). -/
def dtStep {fl : Durations} (rs : List (Rec fl)) (dt : List (Rec fl) × List Str) (i : Str) :
    List (Rec fl) × List Str :=
  match firstOk rs i with
  | some r => (dt.1 ++ [r], dt.2)
  | none => (dt.1, dt.2 ++ [i])

/-- `CaseReports.cases_to_done_and_todo` (reports.py:110-123). -/
def doneAndTodo {fl : Durations} (cfg : Config) (rs : List (Rec fl)) (cases : List Str) :
    List (Rec fl) × List Str :=
  if cfg.cont then cases.foldl (dtStep rs) ([], []) else ([], cases)

end Verif.Model
