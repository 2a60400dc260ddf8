import Verif.Model.Console

/-! # A reader of the console report

A user (or a script) who reads the plain report: a line per test up to the first blank line, then the
summary with the failed tests. -/

namespace Verif.Spec
open Verif.Py Verif.Model

/-- The text before and after the last `..`. -/
def lastDots : Str → Option (Str × Str)
  | [] => none
  | c :: s =>
    match lastDots s with
    | some (a, b) => some (c :: a, b)
    | none =>
      match c, s with
      | '.', '.' :: b => some ([], b)
      | _, _ => none

/-- The line of a test: its name and the result that is shown. -/
def readCase (l : Str) : Option (Str × Result) :=
  match l with
  | ' ' :: ' ' :: s =>
    match lastDots s with
    | some (name, rest) =>
      some (name, if startsWith rest "DIFFERED in ".toList then .DIFF
        else if startsWith rest "FAILED in ".toList then .FAIL else .OK)
    | none => none
  | _ => none

/-- An indented name. -/
def readName : Str → Option Str
  | ' ' :: ' ' :: s => some s
  | _ => none

/-- The summary line: two numbers, and whether it says `succeeded`. -/
def readSummary (l : Str) : (Nat × Nat) × Bool :=
  let a := l.takeWhile (· ≠ '/')
  let r := (l.dropWhile (· ≠ '/')).drop 1
  let b := r.takeWhile (· ≠ ' ')
  ((Nat.ofDigitChars 10 a 0, Nat.ofDigitChars 10 b 0),
    startsWith (r.dropWhile (· ≠ ' ')) " test succeeded in ".toList)

/-- What a report says. -/
structure ReportSays where
  tests : List (Str × Result)
  numbers : Nat × Nat
  succeeded : Bool
  failed : List Str
deriving DecidableEq, Repr

/-- Reading a report. -/
def readReport (text : Str) : ReportSays :=
  let ls := (split '\n' text).drop 3
  let after := (ls.dropWhile (· ≠ [])).drop 1
  let summary := readSummary (after.head?.getD [])
  ⟨(ls.takeWhile (· ≠ [])).filterMap readCase, summary.1, summary.2, (after.drop 2).filterMap readName⟩

/-- The names of a list that are not OK. -/
def notOk (rs : List (Str × Result)) : List Str := (rs.filter (fun r => r.2 ≠ .OK)).map (·.1)

/-- What a report of these tests (shown results) with these final results has to say. -/
def ReportSays.Of (shown final : List (Str × Result)) : ReportSays where
  tests := shown
  numbers := (if notOk final = [] then final.length else (notOk final).length, final.length)
  succeeded := decide (notOk final = [])
  failed := notOk final

end Verif.Spec
