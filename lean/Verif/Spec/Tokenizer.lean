import Verif.Model.Tokenizer

/-! # Specification vocabulary for the tokenizer

`Yields u s ts`: the Python loop `for t in TestTokenizer(s)` produces exactly the tokens `ts` and
then stops.  Defined by iterating `__next__`, without any bound on the number of steps. -/

namespace Verif.Spec
open Verif.Py Verif.Model

inductive Yields (u : Unicode) : Str → List Str → Prop
  | stop {s : Str} (h : Tokenizer.next u s = none) : Yields u s []
  | step {s t r : Str} {ts : List Str} (h : Tokenizer.next u s = some (t, r))
      (hr : Yields u r ts) : Yields u s (t :: ts)

/-- A number as people write it: optional sign, digits, optional fraction with digits. -/
structure IsNumber (u : Unicode) (s : Str) : Prop where
  shape : ∃ sign int frac : Str, s = sign ++ int ++ frac ∧
    (sign = [] ∨ sign = ['+'] ∨ sign = ['-']) ∧
    int ≠ [] ∧ (∀ c ∈ int, u.isNumeric c = true) ∧
    (frac = [] ∨ ∃ ds, frac = '.' :: ds ∧ ds ≠ [] ∧ ∀ c ∈ ds, u.isNumeric c = true)

/-- White space inside a line. -/
def IsBlank (c : Char) : Prop := c = ' ' ∨ c = '\t'

/-- The first token of a text `t ++ r` and what follows it: a run of blanks, a number, a word that
does not begin with a digit, or a single other character.  Runs, numbers and words are as long as
possible. -/
inductive TokenAt (u : Unicode) : Str → Str → Prop
  | blanks {t r : Str} (hne : t ≠ []) (ht : ∀ c ∈ t, IsBlank c)
      (hr : ∀ c cs, r = c :: cs → ¬ IsBlank c) : TokenAt u t r
  | number {t r : Str} (ht : IsNumber u t)
      (hr : ∀ c cs, r = c :: cs → u.isNumeric c = false)
      (hd : ∀ c cs, r = '.' :: c :: cs → '.' ∈ t ∨ u.isNumeric c = false) : TokenAt u t r
  | word {c : Char} {t r : Str} (hc : u.isNumeric c = false)
      (ht : ∀ x ∈ c :: t, u.isAlnum x = true)
      (hr : ∀ x xs, r = x :: xs → u.isAlnum x = false) : TokenAt u (c :: t) r
  | other {c : Char} {r : Str} (hb : ¬ IsBlank c) (ha : u.isAlnum c = false) (hz : c ≠ '\x00')
      (hs : c = '+' ∨ c = '-' → ∀ x xs, r = x :: xs → u.isNumeric x = false) : TokenAt u [c] r

end Verif.Spec
