import Verif.Spec.CaseRun

/-! # Specification vocabulary for sections and sets -/

namespace Verif.Spec
open Verif.Py Verif.Model

/-- A section: a header and the lines below it. -/
structure Section where
  head : Str
  body : List Str

/-- The calls printing a list of sections. -/
def sectionOps (ss : List Section) : List Op :=
  ss.flatMap (fun x => .header x.head :: x.body.map .tln)

/-- The lines of a section: header, blank line, body. -/
def Section.lines (x : Section) : List Str := x.head :: [] :: x.body

/-- The lines of a document made of sections, separated by blank lines. -/
def documentLines : List Section → List Str
  | [] => []
  | [x] => x.lines
  | x :: y :: ys => x.lines ++ [] :: documentLines (y :: ys)

/-- The section stands in the snapshot, followed by a blank line or the end of the file, and its
header is the only such line. -/
def StandsIn (ls : List Str) (x : Section) : Prop :=
  ∃ pre post, ls = pre ++ x.lines ++ post ∧ x.head ∉ pre ∧ x.head ∉ [] :: x.body ++ post ∧
    (post = [] ∨ ∃ post', post = [] :: post')

/-- A section of plain lines. -/
def Section.Plain (x : Section) : Prop := PlainLine x.head ∧ ∀ l ∈ x.body, PlainLine l

/-- The lines with the given prefix from line `k` on. -/
def listedFrom (pre : Str) (ls : List Str) (k : Nat) : List Str :=
  (ls.drop k).takeWhile (fun l => pre.isPrefixOf l)

/-- As duplicate-free lists, `items` and the listed lines are the same set. -/
def SameSet (pre : Str) (items listed : List Str) : Prop :=
  items.Nodup ∧ ∀ x, x ∈ items ↔ pre ++ x ∈ listed

end Verif.Spec
