import Verif.Model.Images
import Verif.Spec.RelPath

/-! # Specification vocabulary for pictures (C113) -/

namespace Verif.Spec
open Verif.Py Verif.Model

/-- The name of a file in its directory. -/
def Component (s : Str) : Prop := s ≠ [] ∧ s ≠ ".".toList ∧ s ≠ "..".toList ∧ '/' ∉ s

/-- The digests are texts of one length, of letters and digits. -/
def HexDigest (sha : Str → Str) : Prop := ∃ n, 0 < n ∧ ∀ x, (sha x).length = n ∧ ∀ c ∈ sha x, c.isAlphanum = true

/-- The name a picture gets. -/
def hashName (sha : Str → Str) (p : Picture) : Str := sha p.bytes ++ p.postfix_

/-- What a picture is: its contents, and its postfix (the type). -/
def shows (p : Picture) : Str × Str := (p.bytes, p.postfix_)

/-- The line that shows a picture: the name of its file, below the directory of the test. -/
def pictureLine (test file alt : Str) : Str :=
  "![".toList ++ alt ++ "](".toList ++ test ++ "/".toList ++ file ++ ")".toList

/-- The place of the test is as `TestCaseRun.__init__` leaves it: the directory of the outputs is there, the
directory of the test and everything in it is removed. -/
structure FreshPlace (b : BookPlace) (fs : FS) : Prop where
  base : fs.get b.place = some .dir
  empty : ∀ q, b.dir <+: q → fs.get q = none

/-- The texts and the places of `BookPlace` belong together. -/
structure PlaceOK (b : BookPlace) : Prop where
  cwd : Absolute b.cwd
  cwdPlain : Plain b.cwd
  basePlain : Plain b.base
  denotes : Denotes b.cwd b.base b.place
  notRoot : b.place ≠ []
  test : Component b.test

/-- A picture the test can write: plain names, and the name it is written under is not one of the given
digest names. -/
structure PictureOK (sha : Str → Str) (ps : List Picture) (p : Picture) : Prop where
  name : Component p.name
  postfix_ : '/' ∉ p.postfix_
  fresh : ∀ q ∈ ps, p.name ≠ hashName sha q

end Verif.Spec
