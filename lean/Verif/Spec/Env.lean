import Verif.Model.Env

/-! # Specification vocabulary for environment mocks (C45–C48) -/

namespace Verif.Spec
open Verif.Py Verif.Model

/-- An entry of a dictionary or a snapshot asks for this value of the variable: `None` asks for an unset
variable. -/
inductive Asks : EVal → Option Str → Prop
  | unset : Asks .none none
  | value (s : Str) : Asks (.str s) (some s)

/-- A dictionary with string or `None` values; as in every Python dictionary keys occur once. -/
def PlainDict (d : List (Str × EVal)) : Prop := (d.map (·.1)).Nodup ∧ ∀ p ∈ d, p.2 ≠ .other

end Verif.Spec
