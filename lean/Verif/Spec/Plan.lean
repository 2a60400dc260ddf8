import Verif.Model.Plan

/-! # Specification vocabulary for the order of parallel runs (C91, C92) -/

namespace Verif.Spec
open Verif.Py Verif.Model

variable {fl : Durations}

/-- How long a test took according to a report: the last record of it counts, and a test without record
counts as 0. -/
def tookBefore (value : fl.D → Int) (old : List (Rec fl)) (n : Str) : Int :=
  ((old.filter (fun r => r.1 = n)).getLast?).elim 0 (fun r => value r.2.2)

/-- No two tests of a list have a resource in common. -/
def NoConflict (res : Str → List Nat) (l : List Str) : Prop :=
  l.Pairwise (fun a b => ∀ r ∈ res a, r ∉ res b)

end Verif.Spec
