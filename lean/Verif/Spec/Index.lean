import Verif.Py.Basic

/-! # A reader of nested lists in Markdown, as far as the index needs it -/

namespace Verif.Spec
open Verif.Py

/-- The number of indents of four spaces, and what follows. -/
def unindent : Str → Nat × Str
  | ' ' :: ' ' :: ' ' :: ' ' :: s => ((unindent s).1 + 1, (unindent s).2)
  | s => (0, s)

/-- A list item: its depth and its text. -/
def readItem (line : Str) : Option (Nat × Str) :=
  match unindent line with
  | (k, ' ' :: '*' :: ' ' :: s) => some (k, s)
  | _ => none

/-- The text before the first `](`, and what follows. -/
def linkText : Str → Option (Str × Str)
  | ']' :: '(' :: s => some ([], s)
  | c :: s => (linkText s).map (fun r => (c :: r.1, r.2))
  | [] => none

/-- A link: its text and its target. -/
def readLink : Str → Option (Str × Str)
  | '[' :: s =>
    match linkText s with
    | some (text, rest) => if rest.getLast? = some ')' then some (text, rest.dropLast) else none
    | none => none
  | _ => none

/-- The links of a nested list, with the items they are nested in; `stack` are the items around the
current position. -/
def linksOfLines : List Str → List Str → List (List Str × Str × Str)
  | _, [] => []
  | stack, line :: rest =>
    match readItem line with
    | none => linksOfLines stack rest
    | some (k, s) =>
      match readLink s with
      | some l => (stack.take k, l.1, l.2) :: linksOfLines stack rest
      | none => linksOfLines (stack.take k ++ [s]) rest

/-- The links of a text. -/
def readIndex (text : Str) : List (List Str × Str × Str) := linksOfLines [] (split '\n' text)

/-- A test name that can be put into the index. -/
def Linkable (name : Str) : Prop :=
  '\n' ∉ name ∧ ']' ∉ name ∧ '[' ∉ name

end Verif.Spec
