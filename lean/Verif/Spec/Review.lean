import Verif.Model.Review

/-! # Specification vocabulary for accepting snapshots (C17–C22) -/

namespace Verif.Spec
open Verif.Py Verif.Model

/-- The directories of snapshots and outputs, and a test name: the output directory is `.out` inside
the snapshot directory (booktest's layout) and the test is not called `.out/…`, or the two
directories are unrelated. -/
def Apart (exp out : Path) (name : Str) : Prop :=
  (out = exp ++ [".out".toList] ∧ (split '/' name).head? ≠ some ".out".toList) ∨
  (¬ exp <+: out ∧ ¬ out <+: exp)

/-- The file `name.md` in a directory. -/
def mdFile (d : Path) (name : Str) : Path := d ++ split '/' (name ++ ".md".toList)

/-- The directory of resource files of a test. -/
def resourceDir (d : Path) (name : Str) : Path := d ++ split '/' name

/-- The state in which a finished run leaves the files of a test: there is an output file, the
snapshot's directory exists, and nothing odd is in the place of the snapshot. -/
structure Ready (fs : FS) (exp out : Path) (name : Str) : Prop where
  wf : fs.WellFormed
  output : ∃ text, fs.get (mdFile out name) = some (.file text)
  place : fs.get (mdFile exp name).dropLast = some .dir
  md : fs.get (mdFile exp name) ≠ some .dir
  dir : ∀ text, fs.get (resourceDir exp name) ≠ some (.file text)
  odir : ∀ text, fs.get (resourceDir out name) ≠ some (.file text)

/-- The files of a test: its snapshot and everything in its resource directory. -/
def Belongs (d : Path) (name : Str) (p : Path) : Prop :=
  p = mdFile d name ∨ resourceDir d name <+: p

/-- The user is asked about a result. -/
def Asked (cfg : Config) (r : Result) : Prop :=
  cfg.alwaysInteractive = true ∨ (r ≠ .OK ∧ cfg.interactive = true)

/-- The first of the entered lines that ends the question: `a` (unless the test failed), `c`, `q`. -/
def decision (r : Result) (answers : List Str) : Option Str :=
  answers.find? (fun a => (a == "a".toList && r != .FAIL) || a == "c".toList || a == "q".toList)

/-- The result is accepted: by the user, by `-u` if it is OK, by `-a` if it is a difference. -/
def Accepts (cfg : Config) (r : Result) (answers : List Str) : Prop :=
  (Asked cfg r ∧ decision r answers = some "a".toList) ∨ (r = .OK ∧ cfg.update = true) ∨
  (r = .DIFF ∧ cfg.accept = true)

/-- The user is asked but the input ends before a decision. -/
def InputEnds (cfg : Config) (r : Result) (answers : List Str) : Prop :=
  Asked cfg r ∧ decision r answers = none

/-- Neither test is in a directory named after the other one. -/
def NotNested (a b : Str) : Prop :=
  ¬ split '/' a <+: split '/' b ∧ ¬ split '/' b <+: split '/' a

/-- No part of the name ends with `.md`. -/
def NoMd (name : Str) : Prop := ∀ c ∈ split '/' name, ¬ ".md".toList <:+ c

end Verif.Spec
