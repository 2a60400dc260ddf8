import Verif.Model.Format

/-! # Values of the same shape -/

namespace Verif.Spec
open Verif.Py Verif.Model

variable {T V : Type}

mutual
/-- The same structure, keys and types of leaves. -/
inductive SameShape : PyVal T V → PyVal T V → Prop
  | leaf (t : T) (n : Str) (v w : V) : SameShape (.leaf t n v) (.leaf t n w)
  | list {a b : List (PyVal T V)} : SameItems a b → SameShape (.list a) (.list b)
  | dict {a b : List (JKey × PyVal T V)} : SameFields a b → SameShape (.dict a) (.dict b)
/-- Items of the same shapes. -/
inductive SameItems : List (PyVal T V) → List (PyVal T V) → Prop
  | nil : SameItems [] []
  | cons {a b : PyVal T V} {as bs : List (PyVal T V)} : SameShape a b → SameItems as bs →
      SameItems (a :: as) (b :: bs)
/-- Fields with the same keys, in the same order, and of the same shapes. -/
inductive SameFields : List (JKey × PyVal T V) → List (JKey × PyVal T V) → Prop
  | nil : SameFields [] []
  | cons {k : JKey} {a b : PyVal T V} {as bs : List (JKey × PyVal T V)} : SameShape a b → SameFields as bs →
      SameFields ((k, a) :: as) ((k, b) :: bs)
end

mutual
/-- A property of all leaves (type and name) and keys. -/
inductive Everywhere (P : T → Str → Prop) (Q : JKey → Prop) : PyVal T V → Prop
  | leaf {t : T} {n : Str} {v : V} : P t n → Everywhere P Q (.leaf t n v)
  | list {a : List (PyVal T V)} : EverywhereItems P Q a → Everywhere P Q (.list a)
  | dict {a : List (JKey × PyVal T V)} : EverywhereFields P Q a → Everywhere P Q (.dict a)
inductive EverywhereItems (P : T → Str → Prop) (Q : JKey → Prop) : List (PyVal T V) → Prop
  | nil : EverywhereItems P Q []
  | cons {a : PyVal T V} {as : List (PyVal T V)} : Everywhere P Q a → EverywhereItems P Q as →
      EverywhereItems P Q (a :: as)
inductive EverywhereFields (P : T → Str → Prop) (Q : JKey → Prop) : List (JKey × PyVal T V) → Prop
  | nil : EverywhereFields P Q []
  | cons {k : JKey} {a : PyVal T V} {as : List (JKey × PyVal T V)} : Q k → Everywhere P Q a →
      EverywhereFields P Q as → EverywhereFields P Q ((k, a) :: as)
end

end Verif.Spec
