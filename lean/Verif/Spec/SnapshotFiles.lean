import Verif.Spec.Loads
import Verif.Spec.Functions
import Verif.Model.SnapshotFiles

/-! # Specification vocabulary for the texts of snapshot files (C121, C122) -/

namespace Verif.Spec
open Verif.Py Verif.Model

/-- The JSON object of a call as a test makes it: it can be stored, and has no entry of its own named `hash`. -/
def GoodCall (c : PyData) : Prop :=
  Storable c ∧ ∃ items, c = .dict items ∧ ∀ p ∈ items, p.1.text ≠ "hash".toList

/-- The files of a `.functions` directory as booktest writes them. -/
def WrittenFiles (files : Dict Str) : Prop :=
  ∀ p ∈ files, ∃ call hash result, GoodCall call ∧ Storable result ∧ p = (hash ++ ".json".toList, callText call hash result)

/-- The names of headers are distinct, as in every dictionary. -/
def ProperHeaders (hs : Dict Str) : Prop := (hs.map (·.1)).Nodup

end Verif.Spec
