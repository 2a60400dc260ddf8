import Verif.Py.Dumps
import Verif.Py.Dict

/-! # `json.dump(value, f, indent=n)` and `json.loads(text)`

From `json/encoder.py`, `json/decoder.py` and `json/scanner.py` of Python 3.11 with default settings (`strict`, no hooks).
Where the accelerator in C differs from the Python text (`\d` in numbers: ASCII digits only), it is followed.
An exception is `none`. Simplified: a float is given by its text; a string with half of a surrogate pair, which is
no text of `Char`s, is `none`, too; the recursion limit. -/

namespace Verif.Py
open Verif.Model

/-! ### Writing -/

/-- `'\n' + indent * level`. -/
def indentLine (n level : Nat) : Str := '\n' :: List.replicate (n * level) ' '

mutual
/-- `_iterencode` (json/encoder.py:414-442) at a level of nesting, with `indent=n`: the separators are `,` and `: `. -/
def dumpIndent (n level : Nat) : PyData → Str
  | .none => "null".toList
  | .bool b => boolText b
  | .int i => intText i
  | .float t => t
  | .str s => jsonStr s
  | .list [] => "[]".toList
  | .list (x :: xs) => '[' :: (indentLine n (level + 1) ++ (dumpIndent n (level + 1) x ++ dumpIndentItems n level xs))
  | .tuple [] => "[]".toList
  | .tuple (x :: xs) => '[' :: (indentLine n (level + 1) ++ (dumpIndent n (level + 1) x ++ dumpIndentItems n level xs))
  | .dict [] => "{}".toList
  | .dict ((k, x) :: xs) => '{' :: (indentLine n (level + 1) ++ (jsonStr k.text ++ (": ".toList ++
      (dumpIndent n (level + 1) x ++ dumpIndentFields n level xs))))
/-- The further items and the closing bracket (`_iterencode_list`, json/encoder.py:278-332). -/
def dumpIndentItems (n level : Nat) : List PyData → Str
  | [] => indentLine n level ++ "]".toList
  | x :: xs => ',' :: (indentLine n (level + 1) ++ (dumpIndent n (level + 1) x ++ dumpIndentItems n level xs))
/-- The further fields and the closing brace (`_iterencode_dict`, json/encoder.py:334-412). -/
def dumpIndentFields (n level : Nat) : List (PyKey × PyData) → Str
  | [] => indentLine n level ++ "}".toList
  | (k, x) :: xs => ',' :: (indentLine n (level + 1) ++ (jsonStr k.text ++ (": ".toList ++
      (dumpIndent n (level + 1) x ++ dumpIndentFields n level xs))))
end

/-! ### Reading -/

/-- `WHITESPACE.match`: blanks, tabs and ends of lines are skipped. -/
def skipWs : Str → Str
  | [] => []
  | c :: s => if c = ' ' ∨ c = '\t' ∨ c = '\n' ∨ c = '\r' then skipWs s else c :: s

/-- The value of a hexadecimal digit. -/
def hexValue (c : Char) : Option Nat :=
  if '0' ≤ c ∧ c ≤ '9' then some (c.toNat - 48)
  else if 'a' ≤ c ∧ c ≤ 'f' then some (c.toNat - 87)
  else if 'A' ≤ c ∧ c ≤ 'F' then some (c.toNat - 55)
  else none

/-- `_decode_uXXXX` (json/decoder.py:59-67). -/
def hexValue4 (a b c d : Char) : Option Nat :=
  match hexValue a, hexValue b, hexValue c, hexValue d with
  | some a, some b, some c, some d => some (a * 4096 + b * 256 + c * 16 + d)
  | _, _, _, _ => none

/-- `BACKSLASH` (json/decoder.py:54-57). -/
def escaped (c : Char) : Option Nat :=
  if c = '"' then some 34
  else if c = '\\' then some 92
  else if c = '/' then some 47
  else if c = 'b' then some 8
  else if c = 'f' then some 12
  else if c = 'n' then some 10
  else if c = 'r' then some 13
  else if c = 't' then some 9
  else none

/-- `scanstring` (json/decoder.py:69-126) after the opening quote: the code points up to the closing quote, in which
pairs of surrogates are not yet joined, and the text after it. -/
def scanUnits : Str → Option (List Nat × Str)
  | [] => none
  | c :: s =>
    if c = '"' then some ([], s)
    else if c = '\\' then
      match s with
      | [] => none
      | e :: s =>
        if e = 'u' then
          match s with
          | a :: b :: c :: d :: s =>
            match hexValue4 a b c d, scanUnits s with
            | some n, some (ns, r) => some (n :: ns, r)
            | _, _ => none
          | _ => none
        else
          match escaped e, scanUnits s with
          | some n, some (ns, r) => some (n :: ns, r)
          | _, _ => none
    else if c.toNat < 32 then none
    else
      match scanUnits s with
      | some (ns, r) => some (c.toNat :: ns, r)
      | none => none

/-- The joining of surrogates (json/decoder.py:119-123): one of the upper half followed by one of the lower half. A pair
is always written as two escapes. -/
def joinUnits : List Nat → Option Str
  | [] => some []
  | n :: ns =>
    if 0xd800 ≤ n ∧ n ≤ 0xdbff then
      match ns with
      | [] => none
      | m :: ns =>
        if 0xdc00 ≤ m ∧ m ≤ 0xdfff then
          (joinUnits ns).map (Char.ofNat (0x10000 + ((n - 0xd800) * 1024 + (m - 0xdc00))) :: ·)
        else none
    else if 0xdc00 ≤ n ∧ n ≤ 0xdfff then none
    else (joinUnits ns).map (Char.ofNat n :: ·)

/-- `scanstring`. -/
def scanString (s : Str) : Option (Str × Str) :=
  match scanUnits s with
  | some (ns, r) => (joinUnits ns).map (fun t => (t, r))
  | none => none

/-- The longest prefix of digits. -/
def takeDigits : Str → Str × Str
  | [] => ([], [])
  | c :: s => if c.isDigit then ((c :: (takeDigits s).1), (takeDigits s).2) else ([], c :: s)

/-- `0|[1-9]\d*`: a number that begins with `0` has one digit. -/
def wholePart (s : Str) : Option (Str × Str) :=
  match s with
  | [] => none
  | c :: r =>
    if c = '0' then some (['0'], r)
    else if c.isDigit then some (c :: (takeDigits r).1, (takeDigits r).2)
    else none

/-- `-?(?:0|[1-9]\d*)` of `NUMBER_RE` (json/scanner.py:11-13). -/
def intPart (s : Str) : Option (Str × Str) :=
  match s with
  | [] => none
  | c :: r => if c = '-' then (wholePart r).map (fun x => ('-' :: x.1, x.2)) else wholePart (c :: r)

/-- `(\.\d+)?`. -/
def fracPart (s : Str) : Str × Str :=
  match s with
  | [] => ([], [])
  | c :: r =>
    if c = '.' ∧ (takeDigits r).1 ≠ [] then ('.' :: (takeDigits r).1, (takeDigits r).2) else ([], c :: r)

/-- `[-+]?`. -/
def signPart (s : Str) : Str × Str :=
  match s with
  | [] => ([], [])
  | c :: r => if c = '+' ∨ c = '-' then ([c], r) else ([], c :: r)

/-- `([eE][-+]?\d+)?`. -/
def expPart (s : Str) : Str × Str :=
  match s with
  | [] => ([], [])
  | c :: r =>
    if (c = 'e' ∨ c = 'E') ∧ (takeDigits (signPart r).2).1 ≠ [] then
      (c :: ((signPart r).1 ++ (takeDigits (signPart r).2).1), (takeDigits (signPart r).2).2)
    else ([], c :: r)

/-- `int(text)` of a text that `intPart` has found. -/
def readInt (t : Str) : Int :=
  match t with
  | [] => 0
  | c :: ds => if c = '-' then - (Nat.ofDigitChars 10 ds 0 : Int) else (Nat.ofDigitChars 10 (c :: ds) 0 : Int)

/-- The number at the beginning of a text (json/scanner.py:48-55). -/
def scanNumber (s : Str) : Option (PyData × Str) :=
  match intPart s with
  | none => none
  | some (i, r) =>
    let f := fracPart r
    let e := expPart f.2
    if f.1 = [] ∧ e.1 = [] then some (.int (readInt i), e.2) else some (.float (i ++ (f.1 ++ e.1)), e.2)

/-- `dict(pairs)` (json/decoder.py:212): the last value of a key counts. -/
def dictOf (pairs : List (Str × PyData)) : List (PyKey × PyData) :=
  (pairs.foldl (fun (d : Dict PyData) p => d.set p.1 p.2) []).map (fun p => (.str p.1, p.2))

mutual
/-- `_scan_once` (json/scanner.py:28-63). The first argument bounds the number of nested calls; `loads` gives it a
value that is always enough. -/
def scanOnce : Nat → Str → Option (PyData × Str)
  | 0, _ => none
  | _ + 1, [] => none
  | fuel + 1, c :: s =>
    if c = '"' then (scanString s).map (fun r => (.str r.1, r.2))
    else if c = '{' then
      match skipWs s with
      | [] => none
      | d :: r =>
        if d = '}' then some (.dict [], r)
        else (scanFields fuel (d :: r)).map (fun x => (.dict (dictOf x.1), x.2))
    else if c = '[' then
      match skipWs s with
      | [] => none
      | d :: r =>
        if d = ']' then some (.list [], r)
        else (scanItems fuel (d :: r)).map (fun x => (.list x.1, x.2))
    else if startsWith (c :: s) "null".toList then some (.none, (c :: s).drop 4)
    else if startsWith (c :: s) "true".toList then some (.bool true, (c :: s).drop 4)
    else if startsWith (c :: s) "false".toList then some (.bool false, (c :: s).drop 5)
    else match scanNumber (c :: s) with
      | some x => some x
      | none =>
        if startsWith (c :: s) "NaN".toList then some (.float "NaN".toList, (c :: s).drop 3)
        else if startsWith (c :: s) "Infinity".toList then some (.float "Infinity".toList, (c :: s).drop 8)
        else if startsWith (c :: s) "-Infinity".toList then some (.float "-Infinity".toList, (c :: s).drop 9)
        else none
/-- The loop of `JSONArray` (json/decoder.py:217-251). -/
def scanItems : Nat → Str → Option (List PyData × Str)
  | 0, _ => none
  | fuel + 1, s =>
    match scanOnce fuel s with
    | none => none
    | some (x, r) =>
      match skipWs r with
      | [] => none
      | d :: r =>
        if d = ']' then some ([x], r)
        else if d = ',' then (scanItems fuel (skipWs r)).map (fun y => (x :: y.1, y.2))
        else none
/-- The loop of `JSONObject` (json/decoder.py:136-215). -/
def scanFields : Nat → Str → Option (List (Str × PyData) × Str)
  | 0, _ => none
  | _ + 1, [] => none
  | fuel + 1, q :: s =>
    if q = '"' then
      match scanString s with
      | none => none
      | some (k, r) =>
        match skipWs r with
        | [] => none
        | d :: r =>
          if d = ':' then
            match scanOnce fuel (skipWs r) with
            | none => none
            | some (x, r) =>
              match skipWs r with
              | [] => none
              | d :: r =>
                if d = '}' then some ([(k, x)], r)
                else if d = ',' then (scanFields fuel (skipWs r)).map (fun y => ((k, x) :: y.1, y.2))
                else none
          else none
    else none
end

/-- `json.loads(text)` (json/decoder.py:332-358). -/
def loads (s : Str) : Option PyData :=
  match scanOnce (2 * s.length + 2) (skipWs s) with
  | some (x, r) => if skipWs r = [] then some x else none
  | none => none

end Verif.Py
