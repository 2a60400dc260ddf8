import Verif.Py.Basic

/-! # Model of `booktest/naming.py`

The module name of a class is given (`inspect.getmodule`, naming.py:54). -/

namespace Verif.Model
open Verif.Py

/-- The loop of `camel_case_to_snake_case` (naming.py:9-19); the first argument is
`is_prev_lower_case`. `i.lower()` is the lower case of one character. -/
def snakeLoop (u : Unicode) : Bool → Str → Str
  | _, [] => []
  | prevLower, c :: rest =>
    (if prevLower && u.isUpper c then ['_'] else []) ++ u.lower c ++ snakeLoop u (!u.isUpper c) rest

/-- `camel_case_to_snake_case` (naming.py:9-19). -/
def camelToSnake (u : Unicode) (name : Str) : Str := snakeLoop u false name

/-- `clean_test_postfix` (naming.py:22-40). `lower` is done character by character (Python treats a
final capital sigma specially). -/
def cleanTestPostfix (u : Unicode) (name : Str) : Str :=
  let name := lower u name
  if endsWith name "_testbook".toList then name.take (name.length - "_testbook".toList.length)
  else if endsWith name "testbook".toList then name.take (name.length - "testbook".toList.length)
  else if endsWith name "_test_book".toList then name.take (name.length - "_test_book".toList.length)
  else if endsWith name "test_book".toList then name.take (name.length - "test_book".toList.length)
  else if endsWith name "_book".toList then name.take (name.length - "_book".toList.length)
  else if endsWith name "book".toList then name.take (name.length - "book".toList.length)
  else if endsWith name "_test".toList then name.take (name.length - "_test".toList.length)
  else if endsWith name "test".toList then name.take (name.length - "test".toList.length)
  else name

/-- `clean_class_name` (naming.py:43-44). -/
def cleanClassName (u : Unicode) (name : Str) : Str := cleanTestPostfix u (camelToSnake u name)

/-- `clean_method_name` (naming.py:47-51). -/
def cleanMethodName (name : Str) : Option Str :=
  if startsWith name "test_".toList then some (name.drop "test_".toList.length) else none

/-- `s.replace("_", "")`. -/
def dropUnderscores (s : Str) : Str := s.filter (· ≠ '_')

/-- `class_to_test_path` (naming.py:54-69), for a class of the given name in the module of the given
name. -/
def classToTestPath (u : Unicode) (module clazz : Str) : Str :=
  let pathAndFile := split '.' module
  let path := pathAndFile.dropLast
  let fileName := pathAndFile.getLastD []
  let cleanedFile := cleanTestPostfix u fileName
  let cleanedClass := cleanClassName u clazz
  join ['/'] (path ++ [cleanedFile] ++
    (if dropUnderscores cleanedFile ≠ dropUnderscores cleanedClass then [cleanedClass] else []))

end Verif.Model
