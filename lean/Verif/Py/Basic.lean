/-!
# Python primitives used by booktest

Python `str` is modelled as `List Char` (`Str`).  Lean's `Char` is a Unicode scalar value, so lone
surrogates (which Python strings may contain) are not represented.
-/

namespace Verif.Py

/-- Python `str`. -/
abbrev Str := List Char

/-- The Unicode classification Python's `str.isnumeric`, `str.isalnum`, `str.isspace`,
`str.isupper` and `str.lower` use.  The tables themselves are not modelled: every theorem holds for
every classification that satisfies the laws below, which Python's tables do. -/
structure Unicode where
  isNumeric : Char → Bool
  isAlnum : Char → Bool
  isSpace : Char → Bool
  isUpper : Char → Bool
  /-- `str.lower` of a one character string (may give several characters). -/
  lower : Char → Str
  /-- Python documents `isalnum` as `isalpha() or isdecimal() or isdigit() or isnumeric()`. -/
  numeric_alnum : ∀ c, isNumeric c = true → isAlnum c = true
  space_not_alnum : ∀ c, isSpace c = true → isAlnum c = false
  letter_alnum : ∀ c, ('a' ≤ c ∧ c ≤ 'z') ∨ ('A' ≤ c ∧ c ≤ 'Z') → isAlnum c = true
  blank_space : isSpace ' ' = true
  tab_space : isSpace '\t' = true
  newline_space : isSpace '\n' = true
  cr_space : isSpace '\r' = true
  nul_not_alnum : isAlnum '\x00' = false
  nul_not_space : isSpace '\x00' = false
  plus_not_alnum : isAlnum '+' = false
  minus_not_alnum : isAlnum '-' = false
  dot_not_alnum : isAlnum '.' = false
  bar_not_alnum : isAlnum '|' = false
  bar_not_space : isSpace '|' = false
  eq_not_space : isSpace '=' = false

/-- ASCII lower-casing of one character. -/
def asciiLower (c : Char) : Char :=
  if 'A' ≤ c ∧ c ≤ 'Z' then Char.ofNat (c.toNat + 32) else c

/-- A concrete classification (ASCII only) used in the non-vacuity examples. -/
def ascii : Unicode where
  isNumeric c := '0' ≤ c ∧ c ≤ '9'
  isAlnum c := ('0' ≤ c ∧ c ≤ '9') ∨ ('a' ≤ c ∧ c ≤ 'z') ∨ ('A' ≤ c ∧ c ≤ 'Z')
  isSpace c := c = ' ' ∨ c = '\t' ∨ c = '\n' ∨ c = '\r' ∨ c = '\x0b' ∨ c = '\x0c'
  isUpper c := 'A' ≤ c ∧ c ≤ 'Z'
  lower c := [asciiLower c]
  numeric_alnum := by intro c h; simp at h ⊢; exact Or.inl h
  space_not_alnum := by
    intro c h
    simp only [decide_eq_true_eq] at h
    rcases h with h | h | h | h | h | h <;> subst h <;> decide
  letter_alnum := by intro c h; simp at h ⊢; exact Or.inr h
  blank_space := by decide
  tab_space := by decide
  newline_space := by decide
  cr_space := by decide
  nul_not_alnum := by decide
  nul_not_space := by decide
  plus_not_alnum := by decide
  minus_not_alnum := by decide
  dot_not_alnum := by decide
  bar_not_alnum := by decide
  bar_not_space := by decide
  eq_not_space := by decide

/-- `s.startswith(p)`. -/
def startsWith (s p : Str) : Bool := p.isPrefixOf s

/-- `s.endswith(p)`. -/
def endsWith (s p : Str) : Bool := p.isSuffixOf s

/-- `s.split(c)` for a one character separator: always at least one part. -/
def split (c : Char) : Str → List Str
  | [] => [[]]
  | x :: xs =>
    if x = c then [] :: split c xs
    else match split c xs with
      | [] => [[x]]
      | h :: t => (x :: h) :: t

/-- `sep.join(parts)`. -/
def join (sep : Str) : List Str → Str
  | [] => []
  | [p] => p
  | p :: q :: ps => p ++ sep ++ join sep (q :: ps)

/-- `s.strip()`. -/
def strip (u : Unicode) (s : Str) : Str :=
  ((s.dropWhile u.isSpace).reverse.dropWhile u.isSpace).reverse

/-- `s.lower()`, character by character (the context dependent final sigma is not modelled). -/
def lower (u : Unicode) (s : Str) : Str := s.flatMap u.lower

/-- `s.ljust(n)`, also `f"{s:<n>s}"`. -/
def ljust (n : Nat) (s : Str) : Str := s ++ List.replicate (n - s.length) ' '

/-- Text-mode reading with Python's default `newline=None`: `\r\n` and `\r` become `\n`. -/
def universalNewlines : Str → Str
  | [] => []
  | '\r' :: '\n' :: cs => '\n' :: universalNewlines cs
  | '\r' :: cs => '\n' :: universalNewlines cs
  | c :: cs => c :: universalNewlines cs

/-- The lines `for line in f` gives, each with its newline (the last one may have none). -/
def iterLines : Str → List Str
  | [] => []
  | c :: cs =>
    if c = '\n' then [c] :: iterLines cs
    else match iterLines cs with
      | [] => [[c]]
      | h :: t => (c :: h) :: t

/-- `f.readline()`: the next line including its newline, and the unread rest. -/
def readline : Str → Str × Str
  | [] => ([], [])
  | c :: cs =>
    if c = '\n' then ([c], cs)
    else ((c :: (readline cs).1), (readline cs).2)

end Verif.Py
