import Verif.Model.Hashing

/-! # Specification vocabulary for the digests (C110, C111) -/

namespace Verif.Spec
open Verif.Py Verif.Model

/-- The text of a float: not finite, or with digits and a point or an exponent. -/
def FloatText (t : Str) : Prop :=
  t = "NaN".toList ∨ t = "Infinity".toList ∨ t = "-Infinity".toList ∨
  ((∀ c ∈ t, c.isDigit = true ∨ c = '-' ∨ c = '+' ∨ c = '.' ∨ c = 'e') ∧
    (∃ c ∈ t, c.isDigit = true) ∧ ('.' ∈ t ∨ 'e' ∈ t))

/-- Values JSON gives back as they are: no tuples, and keys of dictionaries are strings. -/
inductive PlainData : PyData → Prop
  | none : PlainData .none
  | bool (b : Bool) : PlainData (.bool b)
  | int (n : Int) : PlainData (.int n)
  | float (t : Str) (h : FloatText t) : PlainData (.float t)
  | str (s : Str) : PlainData (.str s)
  | list (items : List PyData) (h : ∀ x ∈ items, PlainData x) : PlainData (.list items)
  | dict (items : List (PyKey × PyData)) (hk : ∀ p ∈ items, ∃ s, p.1 = .str s)
      (h : ∀ p ∈ items, PlainData p.2) : PlainData (.dict items)

/-- The arguments of a call are such values. -/
def PlainCall (c : FnCall) : Prop := (∀ x ∈ c.args, PlainData x) ∧ ∀ p ∈ c.kwargs, PlainData p.2

/-- The same call, but for the module of the function. -/
def SameCall (c d : FnCall) : Prop := c.qualname = d.qualname ∧ c.args = d.args ∧ c.kwargs = d.kwargs

/-- Different texts of a set have different digests. -/
def NoCollision (sha : Str → Str) (S : Str → Prop) : Prop := ∀ a b, S a → S b → sha a = sha b → a = b

/-- The headers a key keeps. -/
inductive KeepsHeader (lower : Str → Str) : Ignore → Str × Str → Prop
  | nothing (p : Str × Str) : KeepsHeader lower .nothing p
  | these (names : List Str) (p : Str × Str) (h : ∀ n ∈ names, lower n ≠ lower p.1) :
      KeepsHeader lower (.these names) p

end Verif.Spec
