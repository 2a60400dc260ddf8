import Verif.Py.Sort
import Verif.Model.Parallel
import Verif.Model.Config

/-! # Model of the order and the number of workers of parallel runs in `booktest/runs.py` -/

namespace Verif.Model
open Verif.Py

variable {fl : Durations}

/-- `self.case_durations` (runs.py:127-129): the durations in the old report. -/
def caseDurations (old : List (Rec fl)) : Dict fl.D :=
  old.foldl (fun d r => d.set r.1 r.2.2) []

/-- `self.case_durations.get(name, 0)` (runs.py:193).  A finite float is a multiple of `2 ** -1074`:
`value` says how many times. -/
def caseDuration (value : fl.D → Int) (old : List (Rec fl)) (name : Str) : Int :=
  match (caseDurations old).get name with
  | none => 0
  | some d => value d

/-- `<=` on the keys `(-duration, name)` (runs.py:193), as Python compares tuples. -/
def planLe (duration : Str → Int) (a b : Str) : Bool :=
  decide (-duration a < -duration b) || (decide (-duration a = -duration b) && strLe a b)

/-- `ParallelRunner.plan` (runs.py:178-195), for a given order of the set `todo`. -/
def sortedPlan (c : PConf fl) (value : fl.D → Int) (old : List (Rec fl)) (done order : List Str)
    (reserved : List Nat) : List Str :=
  sortedBy (planLe (caseDuration value old)) (plan c done order reserved)

/-- `process_count` (runs.py:118-122): `none` is the `ValueError` of `int`, whose value for strings is
`int`.  The setting is the one in `config`, or missing. -/
def processCount (int : Str → Option Int) (cpuCount : Nat) : Option CVal → Option Int
  | none => some cpuCount
  | some (.bool true) => some cpuCount
  | some (.bool false) => some 0
  | some (.int n) => some n
  | some (.str s) => if s = "True".toList then some cpuCount else int s

/-- The number of workers of a run with the given setting (tests.py:497-512, runs.py:118-122 and 267):
`some 0` stands for a run without workers, in this process; `none` is an exception, also raised by
`Pool` if the number is less than 1. -/
def workers (int : Str → Option Int) (cpuCount : Nat) (setting : Option CVal) : Option Nat :=
  if (setting.getD (.bool false)).truthy then
    match processCount int cpuCount setting with
    | none => none
    | some n => if n < 1 then none else some n.toNat
  else some 0

end Verif.Model
