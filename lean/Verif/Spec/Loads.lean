import Verif.Py.Loads

/-! # Specification vocabulary for JSON files (C119, C120) -/

namespace Verif.Spec
open Verif.Py Verif.Model

/-- Decimal digits, at least one. -/
def Digits (t : Str) : Prop := t ≠ [] ∧ ∀ c ∈ t, c.isDigit = true

/-- The digits before the point: no needless zero. -/
def Whole (t : Str) : Prop := Digits t ∧ (t.head? = some '0' → t = "0".toList)

/-- `-12.5e-07`: what `float.__repr__` prints, and the names of the floats that are not finite. -/
def FloatRepr (t : Str) : Prop :=
  t = "NaN".toList ∨ t = "Infinity".toList ∨ t = "-Infinity".toList ∨
  ∃ sign i f e : Str, t = sign ++ (i ++ (f ++ e)) ∧ (sign = [] ∨ sign = "-".toList) ∧ Whole i ∧
    (f = [] ∨ ∃ d, f = '.' :: d ∧ Digits d) ∧
    (e = [] ∨ ∃ s d, e = 'e' :: (s ++ d) ∧ (s = [] ∨ s = "+".toList ∨ s = "-".toList) ∧ Digits d) ∧
    (f ≠ [] ∨ e ≠ [])

/-- Values that JSON can hold: floats have the text of a float, and no two keys of a dictionary have the same
text. -/
inductive Storable : PyData → Prop
  | none : Storable .none
  | bool (b : Bool) : Storable (.bool b)
  | int (n : Int) : Storable (.int n)
  | float (t : Str) (h : FloatRepr t) : Storable (.float t)
  | str (s : Str) : Storable (.str s)
  | list (items : List PyData) (h : ∀ x ∈ items, Storable x) : Storable (.list items)
  | tuple (items : List PyData) (h : ∀ x ∈ items, Storable x) : Storable (.tuple items)
  | dict (items : List (PyKey × PyData)) (hk : (items.map (fun p => p.1.text)).Nodup)
      (h : ∀ p ∈ items, Storable p.2) : Storable (.dict items)

mutual
/-- What JSON makes of a value: tuples become lists and keys become strings. -/
def asRead : PyData → PyData
  | .none => .none
  | .bool b => .bool b
  | .int n => .int n
  | .float t => .float t
  | .str s => .str s
  | .list items => .list (asReadItems items)
  | .tuple items => .list (asReadItems items)
  | .dict items => .dict (asReadFields items)
/-- The same for the items of a list. -/
def asReadItems : List PyData → List PyData
  | [] => []
  | x :: xs => asRead x :: asReadItems xs
/-- The same for the fields of a dictionary. -/
def asReadFields : List (PyKey × PyData) → List (PyKey × PyData)
  | [] => []
  | (k, x) :: xs => (.str k.text, asRead x) :: asReadFields xs
end

/-- Values that JSON gives back as they are: without tuples, and all keys are strings. -/
inductive Faithful : PyData → Prop
  | none : Faithful .none
  | bool (b : Bool) : Faithful (.bool b)
  | int (n : Int) : Faithful (.int n)
  | float (t : Str) (h : FloatRepr t) : Faithful (.float t)
  | str (s : Str) : Faithful (.str s)
  | list (items : List PyData) (h : ∀ x ∈ items, Faithful x) : Faithful (.list items)
  | dict (items : List (PyKey × PyData)) (hk : ∀ p ∈ items, ∃ s, p.1 = .str s) (hn : (items.map (·.1)).Nodup)
      (h : ∀ p ∈ items, Faithful p.2) : Faithful (.dict items)

end Verif.Spec
