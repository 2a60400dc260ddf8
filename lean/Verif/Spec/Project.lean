import Verif.Spec.Review
import Verif.Spec.Repeat
import Verif.Model.Project

/-! # Specification vocabulary for whole runs (C81–C83) -/

namespace Verif.Spec
open Verif.Py Verif.Model

/-- The endings of the files that booktest keeps for a test. -/
def endings : List Str :=
  [".md".toList, ".txt".toList, ".log".toList, ".bin".toList, ".tmp".toList]

/-- A name whose files cannot be mistaken for other files: no part of it ends like one of booktest's
files, it is not in `.out`, and its snapshot is not the index. -/
structure PlainName (n : Str) : Prop where
  parts : ∀ c ∈ split '/' n, ∀ x ∈ endings, ¬ x <:+ c
  top : (split '/' n).head? ≠ some ".out".toList
  index : n ≠ "index".toList

/-- Plain names, none of which names a directory that contains another one. -/
def PlainNames (ns : List Str) : Prop :=
  (∀ n ∈ ns, PlainName n) ∧ ∀ a ∈ ns, ∀ b ∈ ns, a ≠ b → NotNested a b

/-- The directory of the snapshots, or of the outputs. -/
def booksDir (root : Path) (out : Bool) : Path := if out then root ++ [".out".toList] else root

/-- The file (or directory) `name ++ ending` in one of them. -/
def slot (root : Path) (out : Bool) (name ending : Str) : Path :=
  booksDir root out ++ split '/' (name ++ ending)

/-- The directory that contains the files of a test. -/
def slotDir (root : Path) (out : Bool) (name : Str) : Path :=
  booksDir root out ++ (split '/' name).dropLast

/-- A project directory without oddities, for some tests: files are in directories, no file is in the
way of a directory that booktest needs and no directory in the way of a file. The project need not
have been run before: the directories need not exist. -/
structure SoundTree (root : Path) (ns : List Str) (fs : FS) : Prop where
  wf : fs.WellFormed
  cwd : fs.get [] = some .dir
  ways : ∀ n ∈ ns, ∀ o q, q <+: slotDir root o n → ∀ t, fs.get q ≠ some (.file t)
  files : ∀ n ∈ ns, ∀ o x, x ∈ endings → x ≠ ".tmp".toList → fs.get (slot root o n x) ≠ some .dir
  dirs : ∀ n ∈ ns, ∀ o x, x = [] ∨ x = ".tmp".toList →
    ∀ t, fs.get (slot root o n x) ≠ some (.file t)
  index : fs.get (root ++ ["index.md".toList]) ≠ some .dir
  base : ∀ q, q <+: booksDir root true → ∀ t, fs.get q ≠ some (.file t)

/-- The snapshot of a test. -/
def snapshot (root : Path) (fs : FS) (n : Str) : Option Str :=
  match fs.get (slot root false n ".md".toList) with
  | some (.file c) => some c
  | _ => none

/-- The user is never asked. -/
def NotAsking (cfg : Config) : Prop := cfg.alwaysInteractive = false ∧ cfg.interactive = false

/-- The result is accepted without asking: `-u` accepts what is OK, `-a` what is different. -/
def AutoAccepted (cfg : Config) (v : Result) : Prop :=
  (v = .OK ∧ cfg.update = true) ∨ (v = .DIFF ∧ cfg.accept = true)

instance (cfg : Config) (v : Result) : Decidable (AutoAccepted cfg v) := by
  unfold AutoAccepted; infer_instance

/-- A test without file system: how it ends, given its snapshot, and the snapshot afterwards. -/
def caseSpec (P : Project) (cfg : Config) (n : Str) (snap : Option Str) : CaseEnd × Option Str :=
  match runTest (P.env snap) (P.tests n).body with
  | none => (.hangs, snap)
  | some s =>
    let v := verdict (P.env snap) s
    if AutoAccepted cfg v then (.done .OK .NONE, some s.out) else (.done v .NONE, snap)

/-- `-f` stops nothing: it is not given, or every test is `OK` or accepted by an option. -/
def NeverStops (P : Project) (cfg : Config) (fs : FS) (todo : List Str) : Prop :=
  cfg.failFast = true → ∀ n ∈ todo, ∀ s, runTest (P.env (snapshot P.root fs n)) (P.tests n).body = some s →
    verdict (P.env (snapshot P.root fs n)) s = .OK ∨ AutoAccepted cfg (verdict (P.env (snapshot P.root fs n)) s)

/-- A test that can be repeated (see C08): it raises no exception, its calls can be repeated, no
token straddles two printed texts, and it prints no carriage return. -/
structure RepeatableTest (u : Unicode) (x : Test) : Prop where
  raises : x.raises = none
  calls : AllRepeat u x.ops []
  aligned : Aligned u (allPieces u x.ops [])
  noReturn : '\r' ∉ (allPieces u x.ops []).flatten

/-- Directories may have been made; otherwise everything outside of a directory is as before. -/
def OnlyNewDirs (d : Path) (fs fs' : FS) : Prop :=
  ∀ p, ¬ d <+: p → fs'.get p = fs.get p ∨ (fs.get p = none ∧ fs'.get p = some .dir)

end Verif.Spec
