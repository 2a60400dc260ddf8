import Verif.Spec.Functions
import Verif.Spec.Requests

/-! # Specification vocabulary for real calls and requests (C115) -/

namespace Verif.Spec
open Verif.Py Verif.Model

/-- What a test sees of a real call. -/
def fnSeen {T : FnTypes} : Except T.E T.V → FnOutcome T
  | .ok v => .val v
  | .error e => .raised e

/-- What the test saw of the real calls, in order. -/
def fnLive {T : FnTypes} (log : List (FnEvent T)) : List (FnOutcome T) := (log.filter (·.real)).map (·.outcome)

/-- What a test sees of a real request. -/
def rqSeen {T : RqTypes} : Except T.E T.V → RqOutcome T
  | .ok v => .val v
  | .error e => .raised e

/-- What the test saw of the real requests, in order. -/
def rqLive {T : RqTypes} (log : List (RqEvent T)) : List (RqOutcome T) := (log.filter (·.real)).map (·.outcome)

end Verif.Spec
