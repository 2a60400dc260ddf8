import Verif.Model.Functions

/-! # Specification vocabulary for function snapshots (C49–C51, C56, C77) -/

namespace Verif.Spec
open Verif.Py Verif.Model

variable {T : FnTypes}

/-- The value a call with this hash returned, if this event is such a call. -/
def valueFor (h : Str) (e : FnEvent T) : Option T.V :=
  if T.hash e.call = some h then
    match e.outcome with
    | .val v => some v
    | _ => none
  else none

/-- The value the last successful call with this hash returned in a run. -/
def lastValue : List (FnEvent T) → Str → Option T.V
  | [], _ => none
  | e :: rest, h => (lastValue rest h).or (valueFor h e)

/-- What the test did and saw, without whether functions were really called. -/
def observed (log : List (FnEvent T)) : List (T.C × FnOutcome T) := log.map (fun e => (e.call, e.outcome))

/-- No two snapshot files are about the same call, as is the case for the files one run writes. -/
def OnePerCall (files : FnFiles T) : Prop := (files.map (fun p => p.2.hash)).Nodup

/-- The value recorded for a call. -/
def Recorded (files : FnFiles T) (h : Str) (v : T.V) : Prop := ∃ p ∈ files, p.2.hash = h ∧ p.2.result = v

end Verif.Spec
