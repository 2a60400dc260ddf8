import Verif.Model.Run

/-! # Model of `booktest --review` (`review` of `booktest/review.py`) -/

namespace Verif.Model
open Verif.Py

/-- One entry of the log of reviewed tests: name, result after the review, request. -/
abbrev Reviewed := Str × Raw × Request

/-- The condition for looking at a record (review.py:299-300). -/
def isReviewed (cfg : Config) (passed : List Str) (cases : Option (List Str)) (name : Str) : Bool :=
  (match cases with
    | none => true
    | some cs => cs.contains name) && (!cfg.cont || !passed.contains name)

/-- The loop of `review` (review.py:296-321): the file system afterwards, the new list of records
(`none` if an exception leaves the loop), and the log of what was reviewed.  The printed messages are
not modelled. -/
def reviewLoop (fl : Durations) (cfg : Config) (exp out : Path) (passed : List Str)
    (cases : Option (List Str)) : List (Rec fl) → Bool → FS → List Str →
    FS × Option (List (Str × Raw × fl.D)) × List Reviewed
  | [], _, fs, _ => (fs, some [], [])
  | (n, res, d) :: rest, abort, fs, answers =>
    if !abort && isReviewed cfg passed cases n then
      match caseReview cfg exp out n (.res res) answers fs with
      | (fs', .done rv request, answers') =>
        let abort' := decide (request = .ABORT) || (cfg.failFast && decide (rv ≠ .res .OK))
        let r := reviewLoop fl cfg exp out passed cases rest abort' fs' answers'
        (r.1, r.2.1.map ((n, rv, d) :: ·), (n, rv, request) :: r.2.2)
      | (fs', _, _) => (fs', none, [])
    else
      let r := reviewLoop fl cfg exp out passed cases rest abort fs answers
      (r.1, r.2.1.map ((n, .res res, d) :: ·), r.2.2)

/-- `write_case` on a record whose result may be a string: `none` is the `AttributeError` of
`res.name` (reports.py:158-164). -/
def rawRec {fl : Durations} : Str × Raw × fl.D → Option (Rec fl)
  | (n, .res r, d) => some (n, r, d)
  | (_, .text _, _) => none

/-- `review` (review.py:275-331) on the records read from `cases.txt`: the file system, the records
written back with the return value (`none` if an exception is raised, in which case the loop has not
written anything), and the log.  `metrics.json` is not modelled. -/
def review (fl : Durations) (cfg : Config) (exp out : Path) (passed? : Option (List Str))
    (cases : Option (List Str)) (records : List (Rec fl)) (answers : List Str) (fs : FS) :
    FS × Option (List (Rec fl) × Int) × List Reviewed :=
  let pass := passed?.getD (passed records)
  let r := reviewLoop fl cfg exp out pass cases records false fs answers
  match r.2.1 with
  | none => (r.1, none, r.2.2)
  | some reviews =>
    let rv : Int := if reviews.any (fun x => decide (x.2.1 ≠ .res .OK)) then -1 else 0
    (r.1, (reviews.mapM rawRec).map (fun rs => (rs, rv)), r.2.2)

end Verif.Model
