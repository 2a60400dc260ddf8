import Verif.Py.FS
import Verif.Model.RelPath
import Verif.Model.CaseRun

/-! # Model of the files of a test: `file`, `rename_file_to_hash`, `timage` (`booktest/testcaserun.py`)

A path is both a text, as `os.path` handles it, and a list of names, under which the file system has the
file; `C113_line` is about the text, `C113_kept` about the files. -/

namespace Verif.Model
open Verif.Py

/-- `os.path.basename`: what follows the last slash. -/
def baseName (p : Str) : Str := (p.reverse.takeWhile (· ≠ '/')).reverse

/-- `os.path.split(p)[0]`: what comes before, without trailing slashes unless it is made of slashes. -/
def dirName (p : Str) : Str :=
  let head := (p.reverse.dropWhile (· ≠ '/')).reverse
  if head.all (· == '/') then head else (head.reverse.dropWhile (· == '/')).reverse

/-- `os.path.splitext(name)[0]` of a name without slashes: the part before the last dot, unless there
are only dots before it. -/
def stemName (name : Str) : Str :=
  match name.reverse.dropWhile (· ≠ '.') with
  | [] => name
  | _ :: before => if before.all (· == '.') then name else before.reverse

/-- Where a test puts its files: the working directory, `out_base_dir` and its place in the file system,
and the name of the test (testcaserun.py:58-62). -/
structure BookPlace where
  cwd : Str
  base : Str
  place : Path
  test : Str

/-- The directory of the test: `out_dir_name`. -/
def BookPlace.dir (b : BookPlace) : Path := b.place ++ [b.test]

/-- `file(filename)` (testcaserun.py:145-156), after which the test writes the file.  The name is one
without slashes. -/
def writeBookFile (b : BookPlace) (filename bytes : Str) (fs : FS) : Except FsErr (FS × Path × Str) :=
  let fs := if fs.exists_ b.dir then fs else (b.dir, .dir) :: fs
  if fs.isDir b.dir then
    .ok (fs.write (b.dir ++ [filename]) bytes, b.dir ++ [filename], pathJoin (pathJoin b.base b.test) filename)
  else .error .notADirectory

/-- `rename_file_to_hash(file, postfix)` (testcaserun.py:158-175); `sha` is the SHA-1 digest. -/
def renameToHash (sha : Str → Str) (file : Path) (text postfix_ : Str) (fs : FS) : Except FsErr (FS × Path × Str) :=
  match fs.get file with
  | none => .error .notFound
  | some .dir => .error .isADirectory
  | some (.file bytes) => do
    let name := sha bytes ++ postfix_
    let fs ← fs.rename file (file.dropLast ++ [name])
    pure (fs, file.dropLast ++ [name], pathJoin (dirName text) name)

/-- The line of `timage(file, alt_text)` (testcaserun.py:682-687). -/
def imageLine (b : BookPlace) (text : Str) (alt : Option Str) : Str :=
  "![".toList ++ alt.getD (stemName (baseName text)) ++ "](".toList ++
    (relPath b.cwd b.base text).getD "None".toList ++ ")".toList

/-- A picture: the name under which the test writes it, its contents, and the postfix it is to have. -/
structure Picture where
  name : Str
  bytes : Str
  postfix_ : Str

/-- `p = t.file(name)`, writing the picture, `p = t.rename_file_to_hash(p, postfix)`, `t.timage(p)`. -/
def showPicture (sha : Str → Str) (b : BookPlace) (p : Picture) (fs : FS) : Except FsErr (FS × Op) := do
  let (fs, file, text) ← writeBookFile b p.name p.bytes fs
  let (fs, _, text) ← renameToHash sha file text p.postfix_ fs
  pure (fs, .tln (imageLine b text none))

/-- A test that shows pictures. -/
def showPictures (sha : Str → Str) (b : BookPlace) : List Picture → FS → Except FsErr (FS × List Op)
  | [], fs => .ok (fs, [])
  | p :: ps, fs => do
    let (fs, op) ← showPicture sha b p fs
    let (fs, ops) ← showPictures sha b ps fs
    pure (fs, op :: ops)

end Verif.Model
