import Verif.Lemmas.Tokenizer
import Verif.Lemmas.Cursor
import Verif.Spec.CaseRun

/-! # Field-wise effect of the `TestCaseRun` primitives -/

namespace Verif.Lemmas
open Verif.Py Verif.Model Verif.Spec

variable (e : Env)

theorem core_nextExpToken (s : St) : core (nextExpToken e s).2 = core s := by
  unfold nextExpToken
  split
  · split <;> rfl
  · rfl

@[simp] theorem nextExpLine_out (s : St) : (nextExpLine e s).out = s.out :=
  congrArg Core.out (core_nextExpLine e s)
@[simp] theorem nextExpLine_outLine (s : St) : (nextExpLine e s).outLine = s.outLine :=
  congrArg Core.outLine (core_nextExpLine e s)
@[simp] theorem nextExpLine_rep (s : St) : (nextExpLine e s).rep = s.rep :=
  congrArg Core.rep (core_nextExpLine e s)
@[simp] theorem nextExpLine_lineDiff (s : St) : (nextExpLine e s).lineDiff = s.lineDiff :=
  congrArg Core.lineDiff (core_nextExpLine e s)
@[simp] theorem nextExpLine_lineError (s : St) : (nextExpLine e s).lineError = s.lineError :=
  congrArg Core.lineError (core_nextExpLine e s)
@[simp] theorem nextExpLine_lineNumber (s : St) : (nextExpLine e s).lineNumber = s.lineNumber :=
  congrArg Core.lineNumber (core_nextExpLine e s)
@[simp] theorem nextExpLine_diffs (s : St) : (nextExpLine e s).diffs = s.diffs :=
  congrArg Core.diffs (core_nextExpLine e s)
@[simp] theorem nextExpLine_errors (s : St) : (nextExpLine e s).errors = s.errors :=
  congrArg Core.errors (core_nextExpLine e s)
@[simp] theorem nextExpLine_lastChecked (s : St) : (nextExpLine e s).lastChecked = s.lastChecked :=
  congrArg Core.lastChecked (core_nextExpLine e s)

@[simp] theorem resetExpReader_out (s : St) : (resetExpReader e s).out = s.out :=
  congrArg Core.out (core_resetExpReader e s)
@[simp] theorem resetExpReader_outLine (s : St) : (resetExpReader e s).outLine = s.outLine :=
  congrArg Core.outLine (core_resetExpReader e s)
@[simp] theorem resetExpReader_rep (s : St) : (resetExpReader e s).rep = s.rep :=
  congrArg Core.rep (core_resetExpReader e s)
@[simp] theorem resetExpReader_lineDiff (s : St) : (resetExpReader e s).lineDiff = s.lineDiff :=
  congrArg Core.lineDiff (core_resetExpReader e s)
@[simp] theorem resetExpReader_lineError (s : St) : (resetExpReader e s).lineError = s.lineError :=
  congrArg Core.lineError (core_resetExpReader e s)
@[simp] theorem resetExpReader_lineNumber (s : St) : (resetExpReader e s).lineNumber = s.lineNumber :=
  congrArg Core.lineNumber (core_resetExpReader e s)
@[simp] theorem resetExpReader_diffs (s : St) : (resetExpReader e s).diffs = s.diffs :=
  congrArg Core.diffs (core_resetExpReader e s)
@[simp] theorem resetExpReader_errors (s : St) : (resetExpReader e s).errors = s.errors :=
  congrArg Core.errors (core_resetExpReader e s)
@[simp] theorem resetExpReader_lastChecked (s : St) : (resetExpReader e s).lastChecked = s.lastChecked :=
  congrArg Core.lastChecked (core_resetExpReader e s)

@[simp] theorem jump_out (n : Nat) (s : St) : (jump e n s).out = s.out :=
  congrArg Core.out (core_jump e n s)
@[simp] theorem jump_outLine (n : Nat) (s : St) : (jump e n s).outLine = s.outLine :=
  congrArg Core.outLine (core_jump e n s)
@[simp] theorem jump_rep (n : Nat) (s : St) : (jump e n s).rep = s.rep :=
  congrArg Core.rep (core_jump e n s)
@[simp] theorem jump_lineDiff (n : Nat) (s : St) : (jump e n s).lineDiff = s.lineDiff :=
  congrArg Core.lineDiff (core_jump e n s)
@[simp] theorem jump_lineError (n : Nat) (s : St) : (jump e n s).lineError = s.lineError :=
  congrArg Core.lineError (core_jump e n s)
@[simp] theorem jump_lineNumber (n : Nat) (s : St) : (jump e n s).lineNumber = s.lineNumber :=
  congrArg Core.lineNumber (core_jump e n s)
@[simp] theorem jump_diffs (n : Nat) (s : St) : (jump e n s).diffs = s.diffs :=
  congrArg Core.diffs (core_jump e n s)
@[simp] theorem jump_errors (n : Nat) (s : St) : (jump e n s).errors = s.errors :=
  congrArg Core.errors (core_jump e n s)
@[simp] theorem jump_lastChecked (n : Nat) (s : St) : (jump e n s).lastChecked = s.lastChecked :=
  congrArg Core.lastChecked (core_jump e n s)

@[simp] theorem seek_out (p : Str → Bool) (b : Nat) (x : Option Nat) (s : St) : (seek e p b x s).out = s.out :=
  congrArg Core.out (core_seek e p b x s)
@[simp] theorem seek_outLine (p : Str → Bool) (b : Nat) (x : Option Nat) (s : St) : (seek e p b x s).outLine = s.outLine :=
  congrArg Core.outLine (core_seek e p b x s)
@[simp] theorem seek_rep (p : Str → Bool) (b : Nat) (x : Option Nat) (s : St) : (seek e p b x s).rep = s.rep :=
  congrArg Core.rep (core_seek e p b x s)
@[simp] theorem seek_lineDiff (p : Str → Bool) (b : Nat) (x : Option Nat) (s : St) : (seek e p b x s).lineDiff = s.lineDiff :=
  congrArg Core.lineDiff (core_seek e p b x s)
@[simp] theorem seek_lineError (p : Str → Bool) (b : Nat) (x : Option Nat) (s : St) : (seek e p b x s).lineError = s.lineError :=
  congrArg Core.lineError (core_seek e p b x s)
@[simp] theorem seek_lineNumber (p : Str → Bool) (b : Nat) (x : Option Nat) (s : St) : (seek e p b x s).lineNumber = s.lineNumber :=
  congrArg Core.lineNumber (core_seek e p b x s)
@[simp] theorem seek_diffs (p : Str → Bool) (b : Nat) (x : Option Nat) (s : St) : (seek e p b x s).diffs = s.diffs :=
  congrArg Core.diffs (core_seek e p b x s)
@[simp] theorem seek_errors (p : Str → Bool) (b : Nat) (x : Option Nat) (s : St) : (seek e p b x s).errors = s.errors :=
  congrArg Core.errors (core_seek e p b x s)
@[simp] theorem seek_lastChecked (p : Str → Bool) (b : Nat) (x : Option Nat) (s : St) : (seek e p b x s).lastChecked = s.lastChecked :=
  congrArg Core.lastChecked (core_seek e p b x s)

@[simp] theorem seekLine_out (a : Str) (b : Nat) (x : Option Nat) (s : St) : (seekLine e a b x s).out = s.out :=
  congrArg Core.out (core_seek e _ b x s)
@[simp] theorem seekLine_outLine (a : Str) (b : Nat) (x : Option Nat) (s : St) : (seekLine e a b x s).outLine = s.outLine :=
  congrArg Core.outLine (core_seek e _ b x s)
@[simp] theorem seekLine_rep (a : Str) (b : Nat) (x : Option Nat) (s : St) : (seekLine e a b x s).rep = s.rep :=
  congrArg Core.rep (core_seek e _ b x s)
@[simp] theorem seekLine_lineDiff (a : Str) (b : Nat) (x : Option Nat) (s : St) : (seekLine e a b x s).lineDiff = s.lineDiff :=
  congrArg Core.lineDiff (core_seek e _ b x s)
@[simp] theorem seekLine_lineError (a : Str) (b : Nat) (x : Option Nat) (s : St) : (seekLine e a b x s).lineError = s.lineError :=
  congrArg Core.lineError (core_seek e _ b x s)
@[simp] theorem seekLine_lineNumber (a : Str) (b : Nat) (x : Option Nat) (s : St) : (seekLine e a b x s).lineNumber = s.lineNumber :=
  congrArg Core.lineNumber (core_seek e _ b x s)
@[simp] theorem seekLine_diffs (a : Str) (b : Nat) (x : Option Nat) (s : St) : (seekLine e a b x s).diffs = s.diffs :=
  congrArg Core.diffs (core_seek e _ b x s)
@[simp] theorem seekLine_errors (a : Str) (b : Nat) (x : Option Nat) (s : St) : (seekLine e a b x s).errors = s.errors :=
  congrArg Core.errors (core_seek e _ b x s)
@[simp] theorem seekLine_lastChecked (a : Str) (b : Nat) (x : Option Nat) (s : St) : (seekLine e a b x s).lastChecked = s.lastChecked :=
  congrArg Core.lastChecked (core_seek e _ b x s)

@[simp] theorem seekPrefix_out (a : Str) (s : St) : (seekPrefix e a s).out = s.out :=
  congrArg Core.out (core_seek e _ 0 none s)
@[simp] theorem seekPrefix_outLine (a : Str) (s : St) : (seekPrefix e a s).outLine = s.outLine :=
  congrArg Core.outLine (core_seek e _ 0 none s)
@[simp] theorem seekPrefix_rep (a : Str) (s : St) : (seekPrefix e a s).rep = s.rep :=
  congrArg Core.rep (core_seek e _ 0 none s)
@[simp] theorem seekPrefix_lineDiff (a : Str) (s : St) : (seekPrefix e a s).lineDiff = s.lineDiff :=
  congrArg Core.lineDiff (core_seek e _ 0 none s)
@[simp] theorem seekPrefix_lineError (a : Str) (s : St) : (seekPrefix e a s).lineError = s.lineError :=
  congrArg Core.lineError (core_seek e _ 0 none s)
@[simp] theorem seekPrefix_lineNumber (a : Str) (s : St) : (seekPrefix e a s).lineNumber = s.lineNumber :=
  congrArg Core.lineNumber (core_seek e _ 0 none s)
@[simp] theorem seekPrefix_diffs (a : Str) (s : St) : (seekPrefix e a s).diffs = s.diffs :=
  congrArg Core.diffs (core_seek e _ 0 none s)
@[simp] theorem seekPrefix_errors (a : Str) (s : St) : (seekPrefix e a s).errors = s.errors :=
  congrArg Core.errors (core_seek e _ 0 none s)
@[simp] theorem seekPrefix_lastChecked (a : Str) (s : St) : (seekPrefix e a s).lastChecked = s.lastChecked :=
  congrArg Core.lastChecked (core_seek e _ 0 none s)

@[simp] theorem nextExpToken_out (s : St) : (nextExpToken e s).2.out = s.out :=
  congrArg Core.out (core_nextExpToken e s)
@[simp] theorem nextExpToken_outLine (s : St) : (nextExpToken e s).2.outLine = s.outLine :=
  congrArg Core.outLine (core_nextExpToken e s)
@[simp] theorem nextExpToken_rep (s : St) : (nextExpToken e s).2.rep = s.rep :=
  congrArg Core.rep (core_nextExpToken e s)
@[simp] theorem nextExpToken_lineDiff (s : St) : (nextExpToken e s).2.lineDiff = s.lineDiff :=
  congrArg Core.lineDiff (core_nextExpToken e s)
@[simp] theorem nextExpToken_lineError (s : St) : (nextExpToken e s).2.lineError = s.lineError :=
  congrArg Core.lineError (core_nextExpToken e s)
@[simp] theorem nextExpToken_lineNumber (s : St) : (nextExpToken e s).2.lineNumber = s.lineNumber :=
  congrArg Core.lineNumber (core_nextExpToken e s)
@[simp] theorem nextExpToken_diffs (s : St) : (nextExpToken e s).2.diffs = s.diffs :=
  congrArg Core.diffs (core_nextExpToken e s)
@[simp] theorem nextExpToken_errors (s : St) : (nextExpToken e s).2.errors = s.errors :=
  congrArg Core.errors (core_nextExpToken e s)
@[simp] theorem nextExpToken_lastChecked (s : St) : (nextExpToken e s).2.lastChecked = s.lastChecked :=
  congrArg Core.lastChecked (core_nextExpToken e s)


/-! ### `diff` and `fail` -/

theorem diff_lineDiff (s : St) : (diff s).lineDiff = some (s.lineDiff.getD s.outLine.length) := by
  unfold diff; cases h : s.lineDiff <;> simp [h]

theorem fail_lineError (s : St) : (fail s).lineError = some (s.lineError.getD s.outLine.length) := by
  unfold fail; cases h : s.lineError <;> simp [h]

@[simp] theorem diff_out (s : St) : (diff s).out = s.out := by unfold diff; split <;> rfl
@[simp] theorem fail_out (s : St) : (fail s).out = s.out := by unfold fail; split <;> rfl
@[simp] theorem diff_outLine (s : St) : (diff s).outLine = s.outLine := by unfold diff; split <;> rfl
@[simp] theorem fail_outLine (s : St) : (fail s).outLine = s.outLine := by unfold fail; split <;> rfl
@[simp] theorem diff_rep (s : St) : (diff s).rep = s.rep := by unfold diff; split <;> rfl
@[simp] theorem fail_rep (s : St) : (fail s).rep = s.rep := by unfold fail; split <;> rfl
@[simp] theorem fail_lineDiff (s : St) : (fail s).lineDiff = s.lineDiff := by unfold fail; split <;> rfl
@[simp] theorem diff_lineError (s : St) : (diff s).lineError = s.lineError := by unfold diff; split <;> rfl
@[simp] theorem diff_lineNumber (s : St) : (diff s).lineNumber = s.lineNumber := by unfold diff; split <;> rfl
@[simp] theorem fail_lineNumber (s : St) : (fail s).lineNumber = s.lineNumber := by unfold fail; split <;> rfl
@[simp] theorem diff_diffs (s : St) : (diff s).diffs = s.diffs := by unfold diff; split <;> rfl
@[simp] theorem fail_diffs (s : St) : (fail s).diffs = s.diffs := by unfold fail; split <;> rfl
@[simp] theorem diff_errors (s : St) : (diff s).errors = s.errors := by unfold diff; split <;> rfl
@[simp] theorem fail_errors (s : St) : (fail s).errors = s.errors := by unfold fail; split <;> rfl
@[simp] theorem diff_lastChecked (s : St) : (diff s).lastChecked = s.lastChecked := by unfold diff; split <;> rfl
@[simp] theorem fail_lastChecked (s : St) : (fail s).lastChecked = s.lastChecked := by unfold fail; split <;> rfl
@[simp] theorem diff_exp (s : St) : (diff s).exp = s.exp := by unfold diff; split <;> rfl
@[simp] theorem fail_exp (s : St) : (fail s).exp = s.exp := by unfold fail; split <;> rfl
@[simp] theorem diff_expLine (s : St) : (diff s).expLine = s.expLine := by unfold diff; split <;> rfl
@[simp] theorem fail_expLine (s : St) : (fail s).expLine = s.expLine := by unfold fail; split <;> rfl
@[simp] theorem diff_expLineNumber (s : St) : (diff s).expLineNumber = s.expLineNumber := by unfold diff; split <;> rfl
@[simp] theorem fail_expLineNumber (s : St) : (fail s).expLineNumber = s.expLineNumber := by unfold fail; split <;> rfl
@[simp] theorem diff_expTokens (s : St) : (diff s).expTokens = s.expTokens := by unfold diff; split <;> rfl
@[simp] theorem fail_expTokens (s : St) : (fail s).expTokens = s.expTokens := by unfold fail; split <;> rfl

/-! ### `write_line` and `commit_line` -/

@[simp] theorem writeLine_out (s : St) : (writeLine e s).out = s.out ++ s.outLine ++ ['\n'] := by
  simp [writeLine]
@[simp] theorem writeLine_outLine (s : St) : (writeLine e s).outLine = [] := by
  simp [writeLine]
@[simp] theorem writeLine_lineNumber (s : St) : (writeLine e s).lineNumber = s.lineNumber + 1 := by
  simp [writeLine]
@[simp] theorem writeLine_rep (s : St) : (writeLine e s).rep = s.rep := by
  simp [writeLine]
@[simp] theorem writeLine_lineDiff (s : St) : (writeLine e s).lineDiff = s.lineDiff := by
  simp [writeLine]
@[simp] theorem writeLine_lineError (s : St) : (writeLine e s).lineError = s.lineError := by
  simp [writeLine]
@[simp] theorem writeLine_diffs (s : St) : (writeLine e s).diffs = s.diffs := by
  simp [writeLine]
@[simp] theorem writeLine_errors (s : St) : (writeLine e s).errors = s.errors := by
  simp [writeLine]
@[simp] theorem writeLine_lastChecked (s : St) : (writeLine e s).lastChecked = s.lastChecked := by
  simp [writeLine]

/-- What `commit_line` prints into the report for the line. -/
def repLine (s : St) : Str :=
  if s.lineError.isSome || s.lineDiff.isSome then
    (if s.lineError.isSome then ['!'] else ['?']) ++ [' '] ++ ljust 60 s.outLine ++ [' ', '|', ' '] ++
      s.expLine.getD ['E', 'O', 'F']
  else [' ', ' '] ++ s.outLine

/-- The optional line with the caret. -/
def caretLine (s : St) : List Str :=
  if e.pointErrorPos && (s.lineError.isSome || s.lineDiff.isSome) then
    [[' ', ' '] ++ List.replicate ((s.lineError.or s.lineDiff).getD 0) ' ' ++ ['^']]
  else []

@[simp] theorem commitLine_out (s : St) : (commitLine e s).out = s.out ++ s.outLine ++ ['\n'] := by
  unfold commitLine; split <;> simp
@[simp] theorem commitLine_outLine (s : St) : (commitLine e s).outLine = [] := by
  unfold commitLine; split <;> simp
@[simp] theorem commitLine_lineNumber (s : St) : (commitLine e s).lineNumber = s.lineNumber + 1 := by
  unfold commitLine; split <;> simp
@[simp] theorem commitLine_lineDiff (s : St) : (commitLine e s).lineDiff = none := by
  unfold commitLine; split
  · simp
  · rename_i h; cases hd : s.lineDiff <;> simp_all
@[simp] theorem commitLine_lineError (s : St) : (commitLine e s).lineError = none := by
  unfold commitLine; split
  · simp
  · rename_i h; cases hd : s.lineError <;> simp_all
@[simp] theorem commitLine_lastChecked (s : St) : (commitLine e s).lastChecked = s.lastChecked := by
  unfold commitLine; split <;> simp
@[simp] theorem commitLine_diffs (s : St) :
    (commitLine e s).diffs = s.diffs + (if s.lineDiff.isSome then 1 else 0) := by
  unfold commitLine; split
  · cases hd : s.lineDiff <;> simp
  · rename_i h; cases hd : s.lineDiff <;> simp_all
@[simp] theorem commitLine_errors (s : St) :
    (commitLine e s).errors = s.errors + (if s.lineError.isSome then 1 else 0) := by
  unfold commitLine; split
  · cases hd : s.lineError <;> simp
  · rename_i h; cases hd : s.lineError <;> simp_all
@[simp] theorem commitLine_rep (s : St) :
    (commitLine e s).rep = s.rep ++ [repLine s] ++ caretLine e s := by
  unfold commitLine repLine caretLine
  split
  · rename_i h
    cases h1 : s.lineError <;> cases h2 : s.lineDiff <;> cases h3 : s.expLine <;>
      cases h4 : e.pointErrorPos <;> simp_all
  · rename_i h
    simp only [Bool.not_eq_true] at h
    simp [h]

/-! ### `feed_token` -/

/-- The token comparison of `feed_token`. -/
def mismatch (s : St) (token : Str) : Bool :=
  e.exists_ && decide (some token ≠ (nextExpToken e s).1)

/-- The state after the comparison, before the token is appended or the line committed. -/
def compared (s : St) (token : Str) (check : Bool) : St :=
  let s' := { (nextExpToken e s).2 with lastChecked := check }
  if mismatch e s token && check then diff s' else s'

theorem feedToken_eq (s : St) (token : Str) (check : Bool) :
    feedToken e s token check =
      if token = ['\n'] then commitLine e (compared e s token check)
      else { compared e s token check with outLine := s.outLine ++ token } := by
  have ho := nextExpToken_outLine e s
  unfold feedToken compared mismatch
  generalize nextExpToken e s = p at ho ⊢
  obtain ⟨x, s'⟩ := p
  simp only at ho ⊢
  by_cases h : token = ['\n']
  · simp [h]
  · simp only [h, if_false]
    split <;> simp [ho]

@[simp] theorem compared_out (s : St) (t : Str) (c : Bool) : (compared e s t c).out = s.out := by
  unfold compared; dsimp only; split <;> simp
@[simp] theorem compared_outLine (s : St) (t : Str) (c : Bool) : (compared e s t c).outLine = s.outLine := by
  unfold compared; dsimp only; split <;> simp
@[simp] theorem compared_rep (s : St) (t : Str) (c : Bool) : (compared e s t c).rep = s.rep := by
  unfold compared; dsimp only; split <;> simp
@[simp] theorem compared_lineError (s : St) (t : Str) (c : Bool) : (compared e s t c).lineError = s.lineError := by
  unfold compared; dsimp only; split <;> simp
@[simp] theorem compared_lineNumber (s : St) (t : Str) (c : Bool) : (compared e s t c).lineNumber = s.lineNumber := by
  unfold compared; dsimp only; split <;> simp
@[simp] theorem compared_diffs (s : St) (t : Str) (c : Bool) : (compared e s t c).diffs = s.diffs := by
  unfold compared; dsimp only; split <;> simp
@[simp] theorem compared_errors (s : St) (t : Str) (c : Bool) : (compared e s t c).errors = s.errors := by
  unfold compared; dsimp only; split <;> simp
@[simp] theorem compared_lastChecked (s : St) (t : Str) (c : Bool) :
    (compared e s t c).lastChecked = c := by
  unfold compared; dsimp only; split <;> simp
theorem compared_lineDiff (s : St) (t : Str) (c : Bool) :
    (compared e s t c).lineDiff =
      if mismatch e s t && c then some (s.lineDiff.getD s.outLine.length) else s.lineDiff := by
  unfold compared; dsimp only
  split
  · rw [diff_lineDiff]; simp
  · simp

theorem feedToken_text (s : St) (t : Str) (c : Bool) :
    (feedToken e s t c).out ++ (feedToken e s t c).outLine = s.out ++ s.outLine ++ t := by
  rw [feedToken_eq]
  split
  · rename_i h; subst h; simp
  · simp

theorem feedToken_errMarks (s : St) (t : Str) (c : Bool) :
    errMarks (feedToken e s t c) = errMarks s := by
  rw [feedToken_eq]
  unfold errMarks
  split
  · simp
  · simp

theorem feedToken_diffMarks_unchecked (s : St) (t : Str) :
    diffMarks (feedToken e s t false) = diffMarks s := by
  rw [feedToken_eq]
  unfold diffMarks
  split
  · simp [compared_lineDiff]
  · simp [compared_lineDiff]

theorem feedToken_diffMarks_no_file (hx : e.exists_ = false) (s : St) (t : Str) (c : Bool) :
    diffMarks (feedToken e s t c) = diffMarks s := by
  rw [feedToken_eq]
  unfold diffMarks
  split
  · simp [compared_lineDiff, mismatch, hx]
  · simp [compared_lineDiff, mismatch, hx]

end Verif.Lemmas
