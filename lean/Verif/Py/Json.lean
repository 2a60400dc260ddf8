import Verif.Py.Basic

/-! # `json.dumps(value, indent=2)` for strings, lists and dictionaries -/

namespace Verif.Py

/-- A digit of `format(n, "x")`. -/
def hexDigit (n : Nat) : Char := "0123456789abcdef".toList.getD n '0'

/-- `'{0:04x}'.format(n)` for n < 65536. -/
def hex4 (n : Nat) : Str :=
  [hexDigit (n / 4096 % 16), hexDigit (n / 256 % 16), hexDigit (n / 16 % 16), hexDigit (n % 16)]

/-- A character in `json.encoder.py_encode_basestring_ascii`. -/
def jsonChar (c : Char) : Str :=
  if c = '\\' then "\\\\".toList
  else if c = '"' then "\\\"".toList
  else if c.toNat = 8 then "\\b".toList
  else if c.toNat = 12 then "\\f".toList
  else if c = '\n' then "\\n".toList
  else if c = '\r' then "\\r".toList
  else if c = '\t' then "\\t".toList
  else if 32 ≤ c.toNat ∧ c.toNat ≤ 126 then [c]
  else if c.toNat < 65536 then "\\u".toList ++ hex4 c.toNat
  else
    let n := c.toNat - 65536
    "\\u".toList ++ hex4 (0xd800 + n / 1024 % 1024) ++ "\\u".toList ++ hex4 (0xdc00 + n % 1024)

/-- A string in JSON. -/
def jsonStr (s : Str) : Str := "\"".toList ++ s.flatMap jsonChar ++ "\"".toList

/-- A key of a dictionary: a string, or something that is printed as the given text (numbers, `true`,
`null`). -/
inductive JKey where
  | str (s : Str)
  | other (text : Str)
deriving DecidableEq

/-- The string a key is converted to. -/
def JKey.text : JKey → Str
  | .str s => s
  | .other t => t

/-- Values made of strings, lists and dictionaries. -/
inductive Json where
  | str (s : Str)
  | list (items : List Json)
  | dict (items : List (JKey × Json))

/-- `'\n' + ' ' * (2 * level)`. -/
def newlineIndent (level : Nat) : Str := '\n' :: List.replicate (2 * level) ' '

mutual
/-- `json.dumps(value, indent=2)` at a level of nesting. -/
def dump (level : Nat) : Json → Str
  | .str s => jsonStr s
  | .list items => "[".toList ++ dumpItems level true items
  | .dict items => "{".toList ++ dumpFields level true items
/-- The items of a list and the closing bracket; the flag tells whether it is the first item. -/
def dumpItems (level : Nat) (first : Bool) : List Json → Str
  | [] => (if first then [] else newlineIndent level) ++ "]".toList
  | x :: xs =>
    (if first then [] else ",".toList) ++ newlineIndent (level + 1) ++ dump (level + 1) x ++
      dumpItems level false xs
/-- The fields of a dictionary and the closing bracket. -/
def dumpFields (level : Nat) (first : Bool) : List (JKey × Json) → Str
  | [] => (if first then [] else newlineIndent level) ++ "}".toList
  | (k, x) :: xs =>
    (if first then [] else ",".toList) ++ newlineIndent (level + 1) ++ jsonStr k.text ++ ": ".toList ++
      dump (level + 1) x ++ dumpFields level false xs
end

end Verif.Py
