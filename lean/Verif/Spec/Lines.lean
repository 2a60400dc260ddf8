import Verif.Py.Basic

/-! # What the lines of a snapshot file are

`fileLines raw`: translate `\r\n` and `\r` to `\n`, cut at the newlines; a last piece without a
newline loses its last character, an empty last piece is not a line.  (Files written by booktest
end with a newline, so for them these are simply the lines.) -/

namespace Verif.Spec
open Verif.Py

def fileLines (raw : Str) : List Str :=
  let ps := split '\n' (universalNewlines raw)
  ps.dropLast ++ (match ps.getLast? with
    | some (c :: cs) => [(c :: cs).dropLast]
    | _ => [])

/-- A text as a file of lines: every line is followed by a newline. -/
def unlines (ls : List Str) : Str := (ls.map (· ++ ['\n'])).flatten

end Verif.Spec
