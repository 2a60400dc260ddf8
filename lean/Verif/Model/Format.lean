import Verif.Py.Json

/-! # Model of `value_format` and `tformat` (`booktest/testcaserun.py:880-888, 935-947`) -/

namespace Verif.Model
open Verif.Py

/-- A Python value: something of a type with a name, a list or a dictionary. The first argument of a leaf
identifies the type, the second is `__name__`. Subclasses of `list` and `dict` are leaves. -/
inductive PyVal (T V : Type) where
  | leaf (type : T) (typeName : Str) (value : V)
  | list (items : List (PyVal T V))
  | dict (items : List (JKey × PyVal T V))

variable {T V : Type}

mutual
/-- `value_format` (testcaserun.py:935-947). -/
def valueFormat : PyVal T V → Json
  | .leaf _ name _ => .str name
  | .list items => .list (formatItems items)
  | .dict items => .dict (formatFields items)
/-- The loop over a list (testcaserun.py:938-940). -/
def formatItems : List (PyVal T V) → List Json
  | [] => []
  | x :: xs => valueFormat x :: formatItems xs
/-- The loop over a dictionary (testcaserun.py:942-944). The keys are distinct, so that each assignment adds an
item at the end. -/
def formatFields : List (JKey × PyVal T V) → List (JKey × Json)
  | [] => []
  | (k, x) :: xs => (k, valueFormat x) :: formatFields xs
end

/-- The text that `tformat` prints (testcaserun.py:888). -/
def tformatText (v : PyVal T V) : Str := dump 0 (valueFormat v)

end Verif.Model
