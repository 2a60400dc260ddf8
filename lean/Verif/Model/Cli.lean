import Verif.Model.Config
import Verif.Model.Suites

/-! # Model of the command line: `Tests.setup_parser` (`booktest/tests.py`) and `argparse`

The parser is made by `setup_parser`; the arguments are read by `argparse` of the Python standard library,
whose functions are cited as in Python 3.11.10. They are specialised to this parser: the prefix character of
options is `-`, abbreviations are allowed, options have one or no argument, and there is one positional
argument with `nargs='*'`. Messages are left out, and so is `argcomplete`. -/

namespace Verif.Model
open Verif.Py

/-! ### The options -/

/-- What an option stores: a constant, its argument, its argument as a number, or that it prints the help. -/
inductive Act where
  | const (v : CVal)
  | str
  | int
  | help
deriving DecidableEq, Repr

/-- An option: where it stores, and what. -/
structure Opt where
  dest : Str
  act : Act
deriving DecidableEq, Repr

/-- The options by their names (tests.py:125-327, and `-h` of `ArgumentParser.__init__`). The destination of
`-md-viewer` is `md_viewer`. -/
def options : List (Str × Opt) :=
  [("-h".toList, ⟨"help".toList, .help⟩),
   ("--help".toList, ⟨"help".toList, .help⟩),
   ("-i".toList, ⟨"i".toList, .const (.bool true)⟩),
   ("-I".toList, ⟨"I".toList, .const (.bool true)⟩),
   ("-v".toList, ⟨"v".toList, .const (.bool true)⟩),
   ("-L".toList, ⟨"L".toList, .const (.bool true)⟩),
   ("-f".toList, ⟨"f".toList, .const (.bool true)⟩),
   ("-c".toList, ⟨"c".toList, .const (.bool true)⟩),
   ("-r".toList, ⟨"r".toList, .const (.bool true)⟩),
   ("-u".toList, ⟨"u".toList, .const (.bool true)⟩),
   ("-a".toList, ⟨"a".toList, .const (.bool true)⟩),
   ("-p".toList, ⟨"p".toList, .const (.bool true)⟩),
   ("-p1".toList, ⟨"p".toList, .const (.int 1)⟩),
   ("-p2".toList, ⟨"p".toList, .const (.int 2)⟩),
   ("-p3".toList, ⟨"p".toList, .const (.int 3)⟩),
   ("-p4".toList, ⟨"p".toList, .const (.int 4)⟩),
   ("-p6".toList, ⟨"p".toList, .const (.int 6)⟩),
   ("-p8".toList, ⟨"p".toList, .const (.int 8)⟩),
   ("-p16".toList, ⟨"p".toList, .const (.str "16".toList)⟩),
   ("--parallel-count".toList, ⟨"p".toList, .int⟩),
   ("-s".toList, ⟨"s".toList, .const (.bool true)⟩),
   ("-S".toList, ⟨"S".toList, .const (.bool true)⟩),
   ("--cov".toList, ⟨"cov".toList, .const (.bool true)⟩),
   ("-md-viewer".toList, ⟨"md_viewer".toList, .str⟩),
   ("-diff-tool".toList, ⟨"diff_tool".toList, .str⟩),
   ("-l".toList, ⟨"cmd".toList, .const (.str "-l".toList)⟩),
   ("--setup".toList, ⟨"cmd".toList, .const (.str "--setup".toList)⟩),
   ("--garbage".toList, ⟨"cmd".toList, .const (.str "--garbage".toList)⟩),
   ("--clean".toList, ⟨"cmd".toList, .const (.str "--clean".toList)⟩),
   ("--config".toList, ⟨"cmd".toList, .const (.str "--config".toList)⟩),
   ("--print".toList, ⟨"cmd".toList, .const (.str "--print".toList)⟩),
   ("--view".toList, ⟨"cmd".toList, .const (.str "--view".toList)⟩),
   ("--path".toList, ⟨"cmd".toList, .const (.str "--path".toList)⟩),
   ("--review".toList, ⟨"cmd".toList, .const (.str "--review".toList)⟩),
   ("-w".toList, ⟨"cmd".toList, .const (.str "--review".toList)⟩),
   ("--forget".toList, ⟨"cmd".toList, .const (.str "--forget".toList)⟩)]

/-- `self._option_string_actions` as a dictionary. -/
def findOption (s : Str) : Option Opt := (options.find? (fun p => p.1 == s)).map (·.2)

/-- Whether the option has an argument (`nargs=None`), or none (`nargs=0`). -/
def Act.takesArg : Act → Bool
  | .str => true
  | .int => true
  | _ => false

/-- What is used of Python for numbers: `int(text)` (`none` is the `ValueError`), and the texts that match
`_negative_number_matcher` (argparse.py:1386). -/
structure Numbers where
  int : Str → Option Int
  negative : Str → Bool

/-! ### What an argument is -/

/-- The result of `_parse_optional` for an argument, or that it is `--`: a positional argument, an option with
its name, the separator and the explicit argument, or an unknown option. -/
inductive Kind where
  | arg
  | dashes
  | option (o : Opt) (name : Str) (sep : Option Str) (given : Option Str)
  | unknown
deriving DecidableEq, Repr

/-- `_get_option_tuples` (argparse.py:2300-2337), for texts of at least two characters of which the first is
`-`. -/
def optionTuples (s : Str) : List (Opt × Str × Option Str × Option Str) :=
  if startsWith s "--".toList then
    match splitEq s with
    | none => (options.filter (fun p => startsWith p.1 s)).map (fun p => (p.2, p.1, none, none))
    | some (pre, given) => (options.filter (fun p => startsWith p.1 pre)).map
        (fun p => (p.2, p.1, some "=".toList, some given))
  else options.filterMap (fun p =>
    if p.1 = s.take 2 then some (p.2, p.1, some [], some (s.drop 2))
    else if startsWith p.1 s then some (p.2, p.1, none, none)
    else none)

/-- The last part of `_parse_optional` (argparse.py:2267-2298). `none`: the option is ambiguous, which ends the
process with an error. -/
def parseTuples (N : Numbers) (s : Str) : Option Kind :=
  match optionTuples s with
  | _ :: _ :: _ => none
  | [(o, name, sep, given)] => some (.option o name sep given)
  | [] =>
    if N.negative s then some .arg
    else if s.contains ' ' then some .arg
    else some .unknown

/-- `_parse_optional` (argparse.py:2243-2298). -/
def parseOptional (N : Numbers) (s : Str) : Option Kind :=
  if s.isEmpty then some .arg
  else if s.head? ≠ some '-' then some .arg
  else match findOption s with
    | some o => some (.option o s none none)
    | none =>
      if s.length = 1 then some .arg
      else match splitEq s with
        | some (name, given) =>
          match findOption name with
          | some o => some (.option o name (some "=".toList) (some given))
          | none => parseTuples N s
        | none => parseTuples N s

/-- The first loop of `_parse_known_args` (argparse.py:1936-1956). -/
def classify (N : Numbers) : List Str → Option (List (Str × Kind))
  | [] => some []
  | s :: rest =>
    if s = "--".toList then some ((s, .dashes) :: rest.map (fun s => (s, .arg)))
    else match parseOptional N s with
      | none => none
      | some k => (classify N rest).map ((s, k) :: ·)

/-! ### Options with their arguments -/

/-- How the loop of `consume_optional` ends: with an error; with the options found and their arguments, and
whether something was not recognised; or with a last option whose argument are the following strings. -/
inductive Consumed where
  | error
  | stop (found : List (Opt × Option Str)) (extra : Bool)
  | follow (found : List (Opt × Option Str)) (last : Opt)
deriving DecidableEq, Repr

/-- The loop of `consume_optional` (argparse.py:1995-2046), while there is an explicit argument. -/
def consumeGiven (o : Opt) (name sep : Str) (found : List (Opt × Option Str)) : Str → Consumed
  | [] => if o.act.takesArg then .stop (found ++ [(o, some [])]) false else .error
  | c :: cs =>
    if o.act.takesArg = false ∧ name[1]? ≠ some '-' then
      if sep ≠ [] ∨ c = '-' then .error
      else match findOption ['-', c] with
        | none => .stop (found ++ [(o, none)]) true
        | some o' =>
          match cs with
          | [] => .follow (found ++ [(o, none)]) o'
          | c' :: cs' =>
            if c' = '=' then consumeGiven o' ['-', c] "=".toList (found ++ [(o, none)]) cs'
            else consumeGiven o' ['-', c] [] (found ++ [(o, none)]) (c' :: cs')
    else if o.act.takesArg then .stop (found ++ [(o, some (c :: cs))]) false
    else .error

/-- What `parse_args` gives: the stored values and the positional arguments (`none` for the default `'*'`);
the end of the process after the help or an error. -/
inductive ParseEnd where
  | ok (values : Dict CVal) (cases : Option (List Str))
  | help
  | error
deriving DecidableEq, Repr

/-- `take_action` for an option (argparse.py:1965-1983, 2475-2529). -/
def takeAction (N : Numbers) (values : Dict CVal) (x : Opt × Option Str) : Except ParseEnd (Dict CVal) :=
  match x.1.act, x.2 with
  | .const v, _ => .ok (values.set x.1.dest v)
  | .str, some s => .ok (values.set x.1.dest (.str s))
  | .int, some s =>
    match N.int s with
    | none => .error .error
    | some n => .ok (values.set x.1.dest (.int n))
  | .help, _ => .error .help
  | _, none => .error .error

/-- The options found in one argument, one after the other (argparse.py:2067-2069). -/
def takeActions (N : Numbers) (values : Dict CVal) : List (Opt × Option Str) → Except ParseEnd (Dict CVal)
  | [] => .ok values
  | x :: xs =>
    match takeAction N values x with
    | .error e => .error e
    | .ok values => takeActions N values xs

/-- Whether an argument is an option (`O` in `arg_strings_pattern`). -/
def Kind.isOption : Kind → Bool
  | .option _ _ _ _ => true
  | .unknown => true
  | _ => false

/-- The values of the positional argument (argparse.py:2475-2502, 2516-2519): the first `--` is removed; without any
strings the default `'*'` is taken, else all of them have to be choices. `none` is an error. -/
def positionalValues (choices : List Str) (strings : List Str) : Option (Option (List Str)) :=
  let names := strings.erase "--".toList
  if names.isEmpty then some none
  else if names.all choices.contains then some (some names)
  else none

/-- The argument of the last option of `consume_optional`, if it has to be taken from the following strings
(argparse.py:2048-2060): the options found, and the strings after them. -/
def consumeFollowing (found : List (Opt × Option Str)) (o : Opt) (rest : List (Str × Kind)) :
    Option (List (Opt × Option Str) × List (Str × Kind)) :=
  if o.act.takesArg then
    match rest with
    | (s, .arg) :: rest => some (found ++ [(o, some s)], rest)
    | _ => none
  else some (found ++ [(o, none)], rest)

/-- What `consume_optional` does for an option that is known (argparse.py:1986-2070): it gives the strings after
it, whether something was not recognised, and the stored values. -/
def consumeOptional (N : Numbers) (o : Opt) (name : Str) (sep given : Option Str) (rest : List (Str × Kind))
    (values : Dict CVal) : Except ParseEnd (List (Str × Kind) × Bool × Dict CVal) :=
  match (match given with
    | some g => consumeGiven o name (sep.getD []) [] g
    | none => .follow [] o) with
  | .error => .error .error
  | .stop found extra =>
    match takeActions N values found with
    | .error e => .error e
    | .ok values => .ok (rest, extra, values)
  | .follow found last =>
    match consumeFollowing found last rest with
    | none => .error .error
    | some (found, rest) =>
      match takeActions N values found with
      | .error e => .error e
      | .ok values => .ok (rest, false, values)

/-- The positional argument: `none` before it has been read, and then its value. -/
abbrev PosValue := Option (Option (List Str))

/-- The second loop of `_parse_known_args` and what follows (argparse.py:2096-2147), and `parse_args`
(argparse.py:1873-1878): it is an error if something was not recognised. Every iteration consumes at least one
string, so that `fuel` may be their number and one more for the end. -/
def parseLoop (N : Numbers) (choices : List Str) :
    Nat → List (Str × Kind) → PosValue → Bool → Dict CVal → ParseEnd
  | 0, _, _, _, _ => .error
  | fuel + 1, strings, pos, extra, values =>
    match strings with
    | (_, .option o name sep given) :: rest =>
      match consumeOptional N o name sep given rest values with
      | .error e => e
      | .ok (rest, e, values) => parseLoop N choices fuel rest pos (extra || e) values
    | (_, .unknown) :: rest => parseLoop N choices fuel rest pos true values
    | strings =>
      let block := (strings.takeWhile (fun s => !s.2.isOption)).map (·.1)
      let rest := strings.dropWhile (fun s => !s.2.isOption)
      match pos with
      | none =>
        match positionalValues choices block with
        | none => .error
        | some cases =>
          if rest.isEmpty then (if extra then .error else .ok values cases)
          else parseLoop N choices fuel rest (some cases) extra values
      | some cases =>
        if rest.isEmpty then (if extra || !block.isEmpty then .error else .ok values cases)
        else parseLoop N choices fuel rest pos true values

/-- `parser.parse_args(args)` for the parser of a test suite with the given names (cli.py:53, tests.py:548-556). -/
def parseArgs (N : Numbers) (names : List Str) (args : List Str) : ParseEnd :=
  match classify N args with
  | none => .error
  | some strings => parseLoop N (testChoices names) (strings.length + 1) strings none false []

/-- The settings among the stored values, as `exec_parsed` looks at them (tests.py:375-404). Options that are
not given have the value `False` or `None`. -/
def argsOf (values : Dict CVal) : Args where
  i := values.get "i".toList = some (.bool true)
  I := values.get "I".toList = some (.bool true)
  v := values.get "v".toList = some (.bool true)
  L := values.get "L".toList = some (.bool true)
  f := values.get "f".toList = some (.bool true)
  c := values.get "c".toList = some (.bool true)
  r := values.get "r".toList = some (.bool true)
  u := values.get "u".toList = some (.bool true)
  a := values.get "a".toList = some (.bool true)
  p := (values.get "p".toList).getD (.bool false)
  s := values.get "s".toList = some (.bool true)
  S := values.get "S".toList = some (.bool true)
  cov := values.get "cov".toList = some (.bool true)
  mdViewer := (values.get "md_viewer".toList).map CVal.show
  diffTool := (values.get "diff_tool".toList).map CVal.show

/-- `parsed.cmd` (tests.py:443). -/
def commandOf (values : Dict CVal) : Option Str :=
  match values.get "cmd".toList with
  | some (.str c) => some c
  | _ => none

end Verif.Model
