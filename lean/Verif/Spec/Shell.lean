import Verif.Model.Shell

/-! # Specification vocabulary for shell commands (C96–C98) -/

namespace Verif.Spec
open Verif.Py Verif.Model

/-- A character that the shell passes on as it is. -/
def PlainChar (c : Char) : Prop := c ∉ shellSpecial ∧ c ≠ ' ' ∧ c ≠ '\t'

/-- A text that the shell passes to a command as one argument that is not an option. -/
def PlainArg (p : Str) : Prop := p ≠ [] ∧ (∀ c ∈ p, PlainChar c) ∧ p.head? ≠ some '-'

/-- A part of a path that is the name of a file or directory. -/
def PlainPart (c : Str) : Prop := c ≠ [] ∧ c ≠ ".".toList ∧ c ≠ "..".toList ∧ '/' ∉ c

/-- The name of a test whose files are found by the shell. -/
def ShellName (n : Str) : Prop := (∀ c ∈ n, PlainChar c) ∧ ∀ c ∈ split '/' n, PlainPart c

end Verif.Spec
