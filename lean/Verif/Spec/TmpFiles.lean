import Verif.Model.TmpFiles
import Verif.Spec.Project

/-! # Temporary files as if every test had a place of its own (C132) -/

namespace Verif.Spec
open Verif.Py Verif.Model

/-- What is in the place of a test: at `[]` is its directory of temporary files. -/
abbrev Place := Path → Option Node

/-- A place where nothing is. -/
def nowhere : Place := fun _ => none

/-- Something is put somewhere. -/
def Place.put (s : Place) (p : Path) (x : Node) : Place := fun q => if q = p then some x else s q

/-- The directory of temporary files is there as soon as it is asked for. -/
def Place.asked (s : Place) : Place := s.put [] .dir

/-- What a use of temporary files does and gives. -/
inductive Does1 (s : Place) : TmpCall → Place → Except FsErr Str → Prop
  | path (n : Str) : Does1 s (.path n) s.asked (.ok [])
  | dir (n : Str) : s [n] = none → Does1 s (.dir n) (s.asked.put [n] .dir) (.ok [])
  /-- a second directory or file with the same name is an error -/
  | dirThere (n : Str) : s [n] ≠ none → Does1 s (.dir n) s.asked (.error .invalid)
  | make (n : Str) (ps : List Str) : s (n :: ps) = none → s.asked (n :: ps).dropLast = some .dir →
      Does1 s (.make n ps) (s.asked.put (n :: ps) .dir) (.ok [])
  | makeThere (n : Str) (ps : List Str) : s (n :: ps) ≠ none → Does1 s (.make n ps) s.asked (.error .invalid)
  | makeNowhere (n : Str) (ps : List Str) : s (n :: ps) = none → s.asked (n :: ps).dropLast ≠ some .dir →
      Does1 s (.make n ps) s.asked (.error .notFound)
  | write (n : Str) (ps : List Str) (t : Str) : s (n :: ps) ≠ some .dir → s.asked (n :: ps).dropLast = some .dir →
      Does1 s (.write n ps t) (s.asked.put (n :: ps) (.file t)) (.ok [])
  | writeDir (n : Str) (ps : List Str) (t : Str) : s (n :: ps) = some .dir →
      Does1 s (.write n ps t) s.asked (.error .isADirectory)
  | writeNowhere (n : Str) (ps : List Str) (t : Str) : s (n :: ps) ≠ some .dir → s.asked (n :: ps).dropLast ≠ some .dir →
      Does1 s (.write n ps t) s.asked (.error .notFound)
  | read (n : Str) (ps : List Str) (t : Str) : s (n :: ps) = some (.file t) → Does1 s (.read n ps) s.asked (.ok t)
  | readDir (n : Str) (ps : List Str) : s (n :: ps) = some .dir → Does1 s (.read n ps) s.asked (.error .isADirectory)
  | readNone (n : Str) (ps : List Str) : s (n :: ps) = none → Does1 s (.read n ps) s.asked (.error .notFound)

/-- What a test does if it finds a given place: what is there afterwards, and its calls. -/
inductive DoesAlone : Place → TmpTest → Place → TestFn → Prop
  | rest (s : Place) (f : TestFn) : DoesAlone s (.rest f) s f
  | use {s s' s'' : Place} {c : TmpCall} {k : Except FsErr Str → TmpTest} {a : Except FsErr Str} {f : TestFn} :
      Does1 s c s' a → DoesAlone s' (k a) s'' f → DoesAlone s (.use c k) s'' f

/-- One more run: its configuration, the tests, how long they take, and the answers of a user. -/
structure Rerun (fl : Durations) where
  cfg : Config
  selected : List Str
  dur : Str → fl.D
  answers : List Str

/-- Runs one after the other, each of which ends with success and changes no snapshot. -/
def AllPassT {fl : Durations} (T : TProject) (ns all : List Str) : List (Rerun fl) → FS → Option Bytes → Prop
  | [], _, _ => True
  | x :: xs, fs, report =>
    let r := runProjectT T x.cfg x.dur all x.selected fs x.answers report
    r.result = some .OK ∧ (∀ n ∈ ns, snapshot T.root r.fs n = snapshot T.root fs n) ∧ AllPassT T ns all xs r.fs r.report

end Verif.Spec
