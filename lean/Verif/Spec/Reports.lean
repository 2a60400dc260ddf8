import Verif.Model.Commands

/-! # Specification vocabulary for case reports and runs (C23–C29, C66) -/

namespace Verif.Spec
open Verif.Py Verif.Model

/-- A test name that can be written to a case report. -/
def CleanName (n : Str) : Prop := ∀ c ∈ n, c ≠ '\t' ∧ c ≠ '\n' ∧ c ≠ '\r'

/-- Name and result of a record. -/
def key {fl : Durations} (r : Rec fl) : Str × Result := (r.1, r.2.1)

/-- The result of the latest execution of a test in a history. -/
def latest (h : List (Str × Result)) (n : Str) : Option Result :=
  ((h.filter (fun e => e.1 = n)).getLast?).map (·.2)

/-- The first record of a name. -/
def firstRecord {fl : Durations} (rs : List (Rec fl)) (n : Str) : Option (Rec fl) :=
  rs.find? (fun r => r.1 = n)

/-- The names executed in a trace, in order. -/
def executed {fl : Durations} (evs : List (Ev fl)) : List Str :=
  evs.filterMap fun
    | .exec n _ => some n
    | _ => none

/-- The tests that have to be run: with `-c` those whose first record is not OK. -/
def toRun {fl : Durations} (cfg : Config) (old : List (Rec fl)) (selected : List Str) : List Str :=
  selected.filter (fun n => !(cfg.cont && decide ((firstRecord old n).map (·.2.1) = some .OK)))

/-- The report files and execution histories that any sequence of runs and `--forget` commands can lead
to, each of them complete or killed at any point. -/
inductive Reach (u : Unicode) (fl : Durations) : Option Bytes → List (Str × Result) → Prop
  | init : Reach u fl none []
  | run {file file' : Option Bytes} {h : List (Str × Result)} (cfg : Config)
      (outcome : List Str → Str → Outcome fl) (selected : List Str) (evs : List (Ev fl)) :
      Reach u fl file h → selected.Nodup → (∀ n ∈ selected, CleanName n) →
      Stops file (runAsync u fl cfg outcome selected file).1 evs file' →
      Reach u fl file' (h ++ execs evs)
  | forget {file file' : Option Bytes} {h : List (Str × Result)} (cases : List Str)
      (trace evs : List (Ev fl)) :
      Reach u fl file h → Verif.Model.forget u fl cases file = some trace → Stops file trace evs file' →
      Reach u fl file' h

end Verif.Spec
