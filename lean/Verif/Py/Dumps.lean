import Verif.Py.Json
import Verif.Model.Console

/-! # `json.dumps(value)` with its default settings

The values are those `json.dumps` can write.  A float is given by its text (`float.__repr__`, or `NaN`,
`Infinity`, `-Infinity`).  Values that contain themselves and subclasses of the built-in types are left
out. -/

namespace Verif.Py
open Verif.Model

/-- Keys of dictionaries that `json.dumps` accepts. -/
inductive PyKey where
  | str (s : Str)
  | int (n : Int)
  | float (text : Str)
  | bool (b : Bool)
  | none
deriving DecidableEq, Repr

/-- Values that `json.dumps` accepts. -/
inductive PyData where
  | none
  | bool (b : Bool)
  | int (n : Int)
  | float (text : Str)
  | str (s : Str)
  | list (items : List PyData)
  | tuple (items : List PyData)
  | dict (items : List (PyKey × PyData))
deriving Repr

/-- `int.__repr__`. -/
def intText : Int → Str
  | .ofNat n => natText n
  | .negSucc n => '-' :: natText (n + 1)

/-- `True` and `False` in JSON. -/
def boolText (b : Bool) : Str := if b then "true".toList else "false".toList

/-- The string a key is converted to (`json.encoder._iterencode_dict`). -/
def PyKey.text : PyKey → Str
  | .str s => s
  | .int n => intText n
  | .float t => t
  | .bool b => boolText b
  | .none => "null".toList

mutual
/-- `json.dumps(value)`: `ensure_ascii`, separators `', '` and `': '`, keys in their order. -/
def dumps : PyData → Str
  | .none => "null".toList
  | .bool b => boolText b
  | .int n => intText n
  | .float t => t
  | .str s => jsonStr s
  | .list items => '[' :: dumpsItems true items
  | .tuple items => '[' :: dumpsItems true items
  | .dict items => '{' :: dumpsFields true items
/-- The items of a list and the closing bracket; the flag tells whether it is the first item. -/
def dumpsItems (first : Bool) : List PyData → Str
  | [] => [']']
  | x :: xs => (if first then [] else [',', ' ']) ++ (dumps x ++ dumpsItems false xs)
/-- The fields of a dictionary and the closing brace. -/
def dumpsFields (first : Bool) : List (PyKey × PyData) → Str
  | [] => ['}']
  | (k, x) :: xs =>
    (if first then [] else [',', ' ']) ++ (jsonStr k.text ++ ([':', ' '] ++ (dumps x ++ dumpsFields false xs)))
end

end Verif.Py
