import Verif.Model.Cache

/-! # What caches and stored results are for -/

namespace Verif.Spec
open Verif.Py Verif.Model

variable {V : Type}

/-- A use of a cache. -/
inductive CacheOp (V : Type) where
  | get (key : Str)
  | set (key : Str) (v : Option V)

/-- The distinct keys of a history of uses (latest use first in the list of uses), the most recently
used one first.  Asking for a key counts as a use only if it is one of the `n` most recent ones. -/
def recency (n : Nat) : List (CacheOp V) → List Str
  | [] => []
  | .set k _ :: ops => k :: (recency n ops).erase k
  | .get k :: ops =>
    if k ∈ (recency n ops).take n then k :: (recency n ops).erase k else recency n ops

/-- The value stored last under a key (latest use first). -/
def lastSet (key : Str) : List (CacheOp V) → Option (Option V)
  | [] => none
  | .set k v :: ops => if k = key then some v else lastSet key ops
  | .get _ :: ops => lastSet key ops

/-- The effect of one access on the result of a test. -/
def afterEv (key : Str) (cur : Option V) : MemEv V → Option V
  | .save _ k v => if k = key then v else cur
  | .load _ _ _ => cur

/-- The result of a test after a history of accesses (in order): what was saved last, or what was
there before (`none` if there was nothing, or if `None` was saved). -/
def current (st : Store V) (key : Str) (h : List (MemEv V)) : Option V :=
  h.foldl (afterEv key) (st key)

end Verif.Spec
