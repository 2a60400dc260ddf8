import Verif.Py.Basic

/-! # Model of `create_index` (`booktest/review.py:244-272`) -/

namespace Verif.Model
open Verif.Py

/-- `"    " * i`. -/
def indent (i : Nat) : Str := (List.replicate i "    ".toList).flatten

/-- The loop that finds `cut` (review.py:258-262), from the lists that are left. -/
def commonLength : List Str → List Str → Nat
  | a :: as, b :: bs => if a = b then commonLength as bs + 1 else 0
  | _, _ => 0

/-- The loop over `range(cut, len(name_domain))` (review.py:265-266), from the parts that are left. -/
def headings : Nat → List Str → Str
  | _, [] => []
  | i, p :: ps => indent i ++ " * ".toList ++ p ++ "\n".toList ++ headings (i + 1) ps

/-- The loop over the names (review.py:251-270). -/
def indexLoop : List Str → List Str → Str
  | _, [] => []
  | domain, name :: rest =>
    let names := split '/' name
    let nameDomain := names.dropLast
    let leafName := names.getLastD []
    (if nameDomain ≠ domain then
      let cut := commonLength nameDomain domain
      "\n".toList ++ headings cut (nameDomain.drop cut)
    else []) ++
    indent nameDomain.length ++ " * [".toList ++ leafName ++ "](".toList ++ name ++ ".md)\n".toList ++
    indexLoop nameDomain rest

/-- `create_index` (review.py:244-272): the text of `index.md`. -/
def indexText (caseNames : List Str) : Str :=
  "# Books overview:\n".toList ++ indexLoop [] caseNames ++ "\n".toList

end Verif.Model
