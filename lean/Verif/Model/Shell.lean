import Verif.Model.Project
import Verif.Py.Path

/-! # Model of the shell commands that booktest runs with `os.system`

The names of directories and files are put into the command lines without quotes.  A command line is
modelled if it contains no character that is special to the shell other than blanks and if no operand
begins with `-`; else the result is `none`: not modelled.  There are no symbolic links and no
permissions. -/

namespace Verif.Model
open Verif.Py

/-- The characters other than blanks that the shell may treat specially. -/
def shellSpecial : Str := "\n\r|&;<>()$`\\\"'*?[]#~!{}".toList

/-- The blanks at which the shell splits a command line. -/
def isShellBlank (c : Char) : Bool := c == ' ' || c == '\t'

/-- The words of a line without special characters. -/
def blankWords : Str → List Str
  | [] => []
  | c :: cs =>
    if isShellBlank c then blankWords cs
    else match cs with
      | [] => [[c]]
      | d :: _ =>
        if isShellBlank d then [c] :: blankWords cs
        else match blankWords cs with
          | [] => [[c]]
          | w :: ws => (c :: w) :: ws

/-- The words of a command line; `none` if it is not modelled. -/
def shellWords (line : Str) : Option (List Str) :=
  if line.any shellSpecial.contains then none else some (blankWords line)

/-- The operands of a command; `none` if one of them is an option. -/
def operands (line command : Str) : Option (List Str) :=
  match shellWords (command ++ ' ' :: line) with
  | none => none
  | some ws =>
    let ops := ws.drop (blankWords command).length
    if ops.any (fun w => startsWith w "-".toList) then none else some ops

/-- One component of a path. -/
def resolveStep (p : Path) (c : Str) : Path :=
  if c = [] ∨ c = ".".toList then p
  else if c = "..".toList then p.dropLast
  else p ++ [c]

/-- The file that a path refers to in a process with the given current directory. -/
def resolve (cwd : Path) (p : Str) : Path :=
  (split '/' p).foldl resolveStep (if startsWith p "/".toList then [] else cwd)

/-- `rm -rf` of one operand: the current directory, its parent and the root are refused. -/
def rmOne (cwd : Path) (fs : FS) (w : Str) : FS :=
  match ((split '/' w).filter (fun c => c ≠ [])).getLast? with
  | none => fs
  | some c =>
    if c = ".".toList ∨ c = "..".toList then fs
    else fs.filter (fun e => !(resolve cwd w).isPrefixOf e.1)

/-- `os.system(f"rm -rf {arg}")` (runs.py:39). -/
def systemRm (cwd : Path) (fs : FS) (arg : Str) : Option FS :=
  (operands arg "rm -rf".toList).map (·.foldl (rmOne cwd) fs)

/-- `os.system(f"mkdir -p {arg}")` (runs.py:313, testcaserun.py:48, 59, testrun.py:125). -/
def systemMkdir (cwd : Path) (fs : FS) (arg : Str) : Option FS :=
  (operands arg "mkdir -p".toList).map (·.foldl (fun fs w => mkdirs fs (resolve cwd w)) fs)

/-- What `os.system(f"cat {arg}")` prints to the standard output (tests.py:459). -/
def systemCat (cwd : Path) (fs : FS) (arg : Str) : Option Str :=
  (operands arg "cat".toList).map (fun ws => (ws.map (fun w =>
    match fs.get (resolve cwd w) with
    | some (.file text) => text
    | _ => [])).flatten)

/-- `path.split(name)[0]` (testcaserun.py:28), for names without empty parts. -/
def relativeDir (name : Str) : Str := join ['/'] (split '/' name).dropLast

/-- The directories that are made for a test (testcaserun.py:47-48, 58-59). -/
def systemDirs (cwd : Path) (expDir outDir name : Str) (fs : FS) : Option FS :=
  match systemMkdir cwd fs (pathJoin expDir (relativeDir name)) with
  | none => none
  | some fs => systemMkdir cwd fs (pathJoin outDir (relativeDir name))

/-- `prepare_batch_dir` (runs.py:32-40): `none` if it is not modelled, else `ValueError` or the files
afterwards. -/
def prepareBatchDir (cwd : Path) (outDir : Str) (fs : FS) : Option (Except Unit FS) :=
  if outDir.length < ".out".toList.length then some (.error ())
  else
    let dir := pathJoin outDir ".batches".toList
    if fs.exists_ (resolve cwd dir) then
      (systemRm cwd fs dir).map (fun fs => .ok (mkdirs fs (resolve cwd dir)))
    else some (.ok fs)

/-- `--print` (tests.py:455-460): what is printed for the tests `todo`. -/
def printSnapshots (cwd : Path) (expDir : Str) (fs : FS) : List Str → Option Str
  | [] => some []
  | name :: names =>
    let file := pathJoin expDir (name ++ ".md".toList)
    if fs.exists_ (resolve cwd file) then
      match systemCat cwd fs file, printSnapshots cwd expDir fs names with
      | some a, some b => some (a ++ b)
      | _, _ => none
    else printSnapshots cwd expDir fs names

/-! ### The exit status of the process -/

/-- What the function `main` returns (cli.py:46-58): a number, or `None` (`--forget`). -/
abbrev MainValue := Option Int

/-- The exit status of a process that ends with `sys.exit(value)` (`__main__.py:4`, and the script of
`pyproject.toml`): `None` is success, a number is reduced to 8 bits by the operating system. -/
def exitStatus : MainValue → Int
  | none => 0
  | some n => n % 256

/-- `os.system` returns the wait status: the exit status of the command times 256 (for a command that
is not killed by a signal). -/
def waitStatus (status : Nat) : Int := status * 256

/-- `run_tool` (review.py:16-26): `none` if the tool is not configured. -/
def runTool (status : Option Nat) : Int :=
  match status with
  | some s => waitStatus s
  | none => 1

/-- What `--view` returns (tests.py:466-475); `files` tells whether there is something to view. -/
def viewValue (files : Bool) (status : Option Nat) : MainValue :=
  if files then some (runTool status) else some 0

end Verif.Model
