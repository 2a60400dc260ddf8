import Verif.Spec.Repeat

/-! # Specification vocabulary for the termination of tests (C100) -/

namespace Verif.Spec
open Verif.Py Verif.Model

/-- The texts of the caller that a call of the testing API prints. -/
def shownTexts : Op → List Str
  | .t x => [x]
  | .i x => [x]
  | .tln x => [x]
  | .iln x => [x]
  | .anchor x => [x]
  | .anchorln x => [x]
  | .header x => [x]
  | .diff => []
  | .fail => []
  | .assertln c m => if c then [] else m.toList
  | .must x c m => x :: if c then [] else m.toList
  | .tlist is p => is.map (p ++ ·)
  | .tset is p => is.map (p ++ ·)
  | .keyvalueln k v => [k, v]
  | .ifloatln x un => x :: un.toList
  | .tmsln over f x => if over then [f] else [x]
  | .tdf tb => tb.cols.map (·.1) ++
      tb.cols.flatMap (fun c => (List.range tb.rows).map (fun i => c.2.getD i []))

/-- The texts of an exception that the handler prints: its message and its traceback. -/
def raisedTexts (x : Test) : List Str :=
  match x.raises with
  | none => []
  | some (msg, tb) => [msg, tb]

/-- A text without NUL character. -/
def NulFree (x : Str) : Prop := '\x00' ∉ x

/-- No text that the test prints contains a NUL character. -/
def NulFreeTest (x : Test) : Prop :=
  (∀ o ∈ x.ops, ∀ y ∈ shownTexts o, NulFree y) ∧ ∀ y ∈ raisedTexts x, NulFree y

/-- Calls that print a number of the snapshot once more, in the format of the call. -/
def QuotesNumber : Op → Prop
  | .ifloatln _ _ => True
  | .tmsln _ _ _ => True
  | _ => False

/-- Formatted numbers contain no NUL character. -/
def PlainNumbers (e : Env) : Prop := ∀ x y, e.refmt x = some y → NulFree y

end Verif.Spec
