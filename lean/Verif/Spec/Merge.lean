import Verif.Model.Merge

/-! # Specification vocabulary for merged outputs (C93) -/

namespace Verif.Spec
open Verif.Py Verif.Model

/-- The text of a file in the directory of a test, empty if there is none. -/
def textOf (dirs : Str → Option BatchDir) (file n : Str) : Str :=
  (((dirs (batchName n)).getD []).find? (fun f => f.1 = file)).elim [] (·.2)

/-- A text made of complete lines, without carriage returns. -/
def Lined (text : Str) : Prop := '\r' ∉ text ∧ (text = [] ∨ text.getLast? = some '\n')

end Verif.Spec
