import Verif.Model.Gather
import Verif.Spec.Requests

/-! # Specification vocabulary for concurrent requests -/

namespace Verif.Spec
open Verif.Py Verif.Model

variable {T : RqTypes}

/-- All tasks have come to their ends. -/
def Finished (run : GatherRun T) : Prop := ∀ i, (run.tasks i).prog = .done

/-- Every request was answered with a response that can be stored and read back, up to what the test looks at. -/
def Answered {W : Type} (view : T.V → W) (run : GatherRun T) : Prop :=
  ∀ i, ∀ e ∈ (run.tasks i).log, ∃ v x v', e.outcome = .val v ∧ T.save v = some x ∧ T.load x = some v' ∧ view v' = view v

/-- Equal requests, that is, requests with the same hash, are made by the same task. -/
def Separate (c : RqConfig) (run : GatherRun T) : Prop :=
  ∀ i j, ∀ e ∈ (run.tasks i).log, ∀ e' ∈ (run.tasks j).log,
    nthHash T c.ign c.toHash e.request 0 = nthHash T c.ign c.toHash e'.request 0 → i = j

/-- The requests of a run. -/
def requestedBy (run : GatherRun T) (r : Rq) : Prop := ∃ i, requestedIn (run.tasks i).log r

/-- What a task sees. -/
def seenBy {W : Type} (view : T.V → W) (run : GatherRun T) (i : Nat) : List (Rq × Option (W ⊕ T.E)) :=
  rqObserved view (run.tasks i).log

end Verif.Spec
