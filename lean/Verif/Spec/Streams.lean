import Verif.Model.Streams

/-! # Specification vocabulary for the redirection of stderr and logging -/

namespace Verif.Spec
open Verif.Py Verif.Model

/-- The test only writes messages and perhaps raises: it leaves `sys.stderr` and the handlers
alone. -/
def OnlyWrites (acts : List StreamAct) : Prop :=
  ∀ a ∈ acts, match a with
    | .setErr _ => False
    | .setHandlers _ => False
    | _ => True

/-- Nothing but an `Exception` can leave the test. -/
def NoInterrupt (acts : List StreamAct) : Prop := StreamAct.interrupt ∉ acts

/-- The messages of a test up to the point where it raises, as text; log records are formatted with
the given formatter. -/
def messages (fmt : Str → Str) : List StreamAct → Str
  | [] => []
  | .err t :: as => t ++ messages fmt as
  | .logMsg m :: as => fmt m ++ "\n".toList ++ messages fmt as
  | .raise :: _ => []
  | .interrupt :: _ => []
  | _ :: as => messages fmt as

/-- The formatter of the first handler. -/
def firstFormat (hs : List Handler) : Option Nat :=
  match hs with
  | [] => none
  | h :: _ => h.fmt

end Verif.Spec
