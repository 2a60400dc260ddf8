import Verif.Py.Dict

/-! # Model of `booktest/config.py`, of the settings in `Tests.exec_parsed` and of `booktest/setup.py`

Files are texts; that a file cannot be opened or decoded is not modelled.  The values of the command
line options are taken as given (argparse is not modelled). -/

namespace Verif.Model
open Verif.Py

/-- A value of a setting: `True`/`False`, a string, or a number (from `-p1` … `--parallel-count`). -/
inductive CVal where
  | bool (b : Bool)
  | str (s : Str)
  | int (n : Int)
deriving DecidableEq, Repr

/-- Python truth of a value. -/
def CVal.truthy : CVal → Bool
  | .bool b => b
  | .str s => !s.isEmpty
  | .int n => n != 0

/-- `f"{value}"`. -/
def CVal.show : CVal → Str
  | .bool true => "True".toList
  | .bool false => "False".toList
  | .str s => s
  | .int n => (toString n).toList

/-- `parse_config_value` (config.py:11-17). -/
def parseConfigValue (value : Str) : CVal :=
  if value = "1".toList then .bool true
  else if value = "0".toList then .bool false
  else .str value

/-- `line.split('=', 1)` unpacked into two variables: `none` is the `ValueError` if there is no `=`. -/
def splitEq : Str → Option (Str × Str)
  | [] => none
  | c :: cs => if c = '=' then some ([], cs) else (splitEq cs).map (fun p => (c :: p.1, p.2))

/-- The loop over the lines in `parse_config_file` (config.py:23-27). -/
def parseLines (u : Unicode) : List Str → Dict CVal → Option (Dict CVal)
  | [], config => some config
  | line :: rest, config =>
    if startsWith line "#".toList || (strip u line).isEmpty then parseLines u rest config
    else
      match splitEq (strip u line) with
      | none => none
      | some (key, value) => parseLines u rest (config.set key (parseConfigValue value))

/-- What configuration is read from: the files by the path given to `open` (`none`: does not exist), the
environment (`os.environ.items()`), and the path of the user's home directory. -/
structure ConfigWorld where
  files : Str → Option Str
  environ : List (Str × Str)
  home : Str

/-- `parse_config_file` (config.py:20-27). -/
def parseConfigFile (u : Unicode) (w : ConfigWorld) (file : Str) (config : Dict CVal) : Option (Dict CVal) :=
  match w.files file with
  | none => some config
  | some text => parseLines u (iterLines (universalNewlines text)) config

/-- The loop over the environment (config.py:38-41). -/
def parseEnviron (u : Unicode) : List (Str × Str) → Dict CVal → Dict CVal
  | [], config => config
  | (key, value) :: rest, config =>
    if startsWith key "BOOKTEST_".toList then
      parseEnviron u rest (config.set (lower u (key.drop "BOOKTEST_".toList.length)) (parseConfigValue value))
    else parseEnviron u rest config

/-- `resolve_default_config` (config.py:30-43). Python does not expand the `~`. -/
def resolveDefaultConfig (u : Unicode) (w : ConfigWorld) (file : Str) : Option (Dict CVal) := do
  let rv ← parseConfigFile u w "~/.booktest".toList []
  let rv ← parseConfigFile u w file rv
  return parseEnviron u w.environ rv

/-- `get_default_config` (config.py:46-50); the first argument is the global `DEFAULT_CONFIG`. -/
def getDefaultConfig (u : Unicode) (global : Option (Dict CVal)) (w : ConfigWorld) : Option (Dict CVal) :=
  match global with
  | some config => some config
  | none => resolveDefaultConfig u w ".booktest".toList

/-- The parsed options that are settings (tests.py:374-404). -/
structure Args where
  i : Bool := false
  I : Bool := false
  v : Bool := false
  L : Bool := false
  f : Bool := false
  c : Bool := false
  r : Bool := false
  u : Bool := false
  a : Bool := false
  p : CVal := .bool false
  s : Bool := false
  S : Bool := false
  cov : Bool := false
  mdViewer : Option Str := none
  diffTool : Option Str := none

/-- `if flag: config[key] = value`. -/
def setIf (flag : Bool) (key : Str) (value : CVal) (config : Dict CVal) : Dict CVal :=
  if flag then config.set key value else config

/-- A string option is true if it is given and not empty. -/
def optTruthy (o : Option Str) : Bool := !(o.getD []).isEmpty

/-- The settings made by the options (tests.py:375-404). -/
def setFlags (a : Args) (config : Dict CVal) : Dict CVal :=
  let config := setIf a.i "interactive".toList (.bool true) config
  let config := setIf a.I "always_interactive".toList (.bool true) config
  let config := setIf a.v "verbose".toList (.bool true) config
  let config := setIf a.L "print_logs".toList (.bool true) config
  let config := setIf a.f "fail_fast".toList (.bool true) config
  let config := setIf a.c "continue".toList (.bool true) config
  let config := setIf a.r "refresh_sources".toList (.bool true) config
  let config := setIf a.u "update".toList (.bool true) config
  let config := setIf a.a "accept".toList (.bool true) config
  let config := setIf a.p.truthy "parallel".toList a.p config
  let config := setIf a.s "complete_snapshots".toList (.bool true) config
  let config := setIf a.S "refresh_snapshots".toList (.bool true) config
  let config := setIf a.cov "coverage".toList (.bool true) config
  let config := setIf (optTruthy a.mdViewer) "md_viewer".toList (.str (a.mdViewer.getD [])) config
  setIf (optTruthy a.diffTool) "diff_tool".toList (.str (a.diffTool.getD [])) config

/-- `config[key] = value` for all items of a dictionary (tests.py:372-373). -/
def setAll (config : Dict CVal) (items : List (Str × CVal)) : Dict CVal :=
  items.foldl (fun c p => c.set p.1 p.2) config

/-- The configuration in `exec_parsed` (tests.py:369-404); `none` if the files cannot be parsed. The
dictionary is the global one, so the result is also the global `DEFAULT_CONFIG` afterwards. -/
def execConfig (u : Unicode) (global : Option (Dict CVal)) (w : ConfigWorld) (extra : Dict CVal) (a : Args) :
    Option (Dict CVal) :=
  (getDefaultConfig u global w).map (fun config => setFlags a (setAll config extra))

/-- The configuration of the last of several calls of `Tests.exec` in one process (tests.py:543-556, which
gives no extra configuration); the files and the environment may change between the calls. The process
is taken to end if a configuration file cannot be parsed. -/
def execSeq (u : Unicode) (global : Option (Dict CVal)) : List (ConfigWorld × Args) → Option (Dict CVal)
  | [] => global
  | (w, a) :: rest =>
    match execConfig u global w [] a with
    | none => none
    | some config => execSeq u (some config) rest

/-! ### `--setup` -/

/-- The settings asked for, with their comments and defaults (setup.py:4-70). -/
def setupKeys : List (Str × Str × Str) :=
  [("diff_tool".toList,
    "#\n# diff_tool is the tool used to see changes in the results\n#\n# one option is Meld: https://meldmerge.org/\n#\n# you can install 'meld' in Debian based distros with\n#\n#   'sudo apt install meld'\n#\n".toList,
    "meld".toList),
   ("fast_diff_tool".toList,
    "#\n#\n# fast_diff_tool is used to see changes in the results quickly\n#\n# default option is diff, which should be present in most systems\n#\n".toList,
    "diff".toList),
   ("md_viewer".toList,
    "#\n# md_viewer is the tool used to view the md content, like tables, lists, links and images\n#\n# one option is retext, which is an md editor\n#\n# Retext - https://github.com/retext-project/retext\n#\n# you can install 'retext' in Debian based distros with\n#\n#   'sudo apt install retext'\n#\n".toList,
    "retext --preview".toList),
   ("log_viewer".toList,
    "#\n#\n# log_viewer is used to view the logs\n#\n# one option is less, which should be present in most systems\n#\n".toList,
    "less".toList),
   ("test_paths".toList,
    "#\n# booktest automatically detects tests in the default_tests directories\n#\n".toList,
    "test,book,run".toList),
   ("default_tests".toList,
    "#\n# booktest will run all default_tests test cases, if no argument is given\n#\n".toList,
    "test,book".toList),
   ("books_path".toList,
    "#\n# books_path specifies directory, where results and books are stored\n#\n".toList,
    "books".toList)]

/-- `prompt_config` (setup.py:73-88): the value for an answer of the user. -/
def promptValue (config : Dict CVal) (key default answer : Str) : CVal :=
  if answer.isEmpty then (config.get key).getD (.str default) else .str answer

/-- The values chosen (setup.py:99-106); `none`: the input ended (`EOFError`). -/
def promptAll (config : Dict CVal) : List (Str × Str × Str) → List Str → Option (List (Str × Str × CVal))
  | [], _ => some []
  | _ :: _, [] => none
  | (key, comment, default) :: keys, answer :: answers =>
    (promptAll config keys answers).map ((key, comment, promptValue config key default answer) :: ·)

/-- The text written to `.booktest` (setup.py:108-111). -/
def setupText : List (Str × Str × CVal) → Str
  | [] => []
  | (key, comment, value) :: rest =>
    comment ++ key ++ "=".toList ++ value.show ++ "\n\n".toList ++ setupText rest

/-- `setup_booktest` (setup.py:91-114): the new content of `.booktest`. -/
def setupBooktest (config : Dict CVal) (answers : List Str) : Option Str :=
  (promptAll config setupKeys answers).map setupText

end Verif.Model
