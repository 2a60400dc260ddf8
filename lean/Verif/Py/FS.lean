import Verif.Py.Basic

/-! # A file system

Paths are lists of components (`os.path.join` and the resolution of separators, `.` and `..` are
not modelled; symbolic links, permissions and I/O errors neither).  A file system is a list of
entries; the first entry of a path counts. -/

namespace Verif.Py

abbrev Path := List Str

/-- A file with its content, or a directory. -/
inductive Node where
  | file (content : Str)
  | dir
deriving DecidableEq, Repr

abbrev FS := List (Path × Node)

/-- What is found at a path. -/
def FS.get (fs : FS) (p : Path) : Option Node := fs.lookup p

/-- `os.path.exists`. -/
def FS.exists_ (fs : FS) (p : Path) : Bool := (fs.get p).isSome

/-- `os.path.isdir`. -/
def FS.isDir (fs : FS) (p : Path) : Bool := fs.get p == some .dir

/-- The exceptions of the operations below. -/
inductive FsErr where
  | notFound | notADirectory | isADirectory | notEmpty | invalid
deriving DecidableEq, Repr

/-- `shutil.rmtree(d)`: removes the directory and everything below it. -/
def FS.rmtree (fs : FS) (d : Path) : Except FsErr FS :=
  match fs.get d with
  | none => .error .notFound
  | some (.file _) => .error .notADirectory
  | some .dir => .ok (fs.filter (fun e => !d.isPrefixOf e.1))

/-- The subtree at `a` moved to `b`. -/
def FS.moved (fs : FS) (a b : Path) : FS :=
  (fs.filter (fun e => a.isPrefixOf e.1)).map (fun e => (b ++ e.1.drop a.length, e.2))

/-- `os.rename(a, b)` on POSIX: a file replaces a file, a directory replaces an empty directory; the
directory that is to contain `b` must exist. Atomic. -/
def FS.rename (fs : FS) (a b : Path) : Except FsErr FS :=
  match fs.get a with
  | none => .error .notFound
  | some n =>
    if a = b then .ok fs
    else if !fs.isDir b.dropLast then .error .notFound
    else match n with
      | .file c =>
        match fs.get b with
        | some .dir => .error .isADirectory
        | _ => .ok ((b, .file c) :: fs.filter (fun e => decide (e.1 ≠ a)))
      | .dir =>
        if a.isPrefixOf b then .error .invalid
        else match fs.get b with
          | some (.file _) => .error .notADirectory
          | _ =>
            if fs.any (fun e => b.isPrefixOf e.1 && decide (e.1 ≠ b)) then .error .notEmpty
            else .ok (fs.moved a b ++ fs.filter (fun e => !a.isPrefixOf e.1))

/-- `open(p, "w")`, writing a text and closing it: the file replaces what was there. -/
def FS.write (fs : FS) (p : Path) (text : Str) : FS := (p, .file text) :: fs

/-- `os.remove(p)` of a file. -/
def FS.remove (fs : FS) (p : Path) : Except FsErr FS :=
  match fs.get p with
  | none => .error .notFound
  | some .dir => .error .isADirectory
  | some (.file _) => .ok (fs.filter (fun e => decide (e.1 ≠ p)))

/-- Every entry is in a directory (entries directly below the root excepted: the root `[]` is given
as an entry or not). -/
def FS.WellFormed (fs : FS) : Prop :=
  ∀ (p : Path) (c : Str), (fs.get (p ++ [c])).isSome → fs.get p = some .dir

end Verif.Py
