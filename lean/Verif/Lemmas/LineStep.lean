import Verif.Lemmas.Text

/-! # Printing one whole line -/

namespace Verif.Lemmas
open Verif.Py Verif.Model Verif.Spec

variable (e : Env)

theorem pull_nil (u : Unicode) : BufIter.pull u [] = ⟨none, []⟩ := rfl

theorem nextExpToken_none {s : St} (h : s.expTokens = none) :
    nextExpToken e s = (none, s) := by
  simp [nextExpToken, h]

theorem nextExpToken_nil {s : St} (h : s.expTokens = some (BufIter.pull e.u [])) :
    nextExpToken e s = (some ['\n'], s) := by
  simp [nextExpToken, h, pull_nil, BufIter.next]

theorem nextExpToken_pull {s : St} {r t r' : Str} (h : s.expTokens = some (BufIter.pull e.u r))
    (hn : Tokenizer.next e.u r = some (t, r')) :
    nextExpToken e s = (some t, { s with expTokens := some (BufIter.pull e.u r') }) := by
  simp [nextExpToken, h, BufIter.pull, BufIter.next, hn]

/-- `x` is `s` with `l` put on the open line, apart from token position and difference mark. -/
structure SameLine (s x : St) (l : Str) : Prop where
  out : x.out = s.out
  outLine : x.outLine = s.outLine ++ l
  rep : x.rep = s.rep
  lineError : x.lineError = s.lineError
  lineNumber : x.lineNumber = s.lineNumber
  diffs : x.diffs = s.diffs
  errors : x.errors = s.errors
  exp : x.exp = s.exp
  expLine : x.expLine = s.expLine
  expLineNumber : x.expLineNumber = s.expLineNumber

/-- The unread tokens of the current snapshot line are those of `r` (`none`: end of file). -/
def Toks (s : St) (r : Option Str) : Prop := s.expTokens = r.map (BufIter.pull e.u)

theorem nextExpToken_exp (s : St) : (nextExpToken e s).2.exp = s.exp := by
  unfold nextExpToken; split
  · split <;> rfl
  · rfl
theorem nextExpToken_expLine (s : St) : (nextExpToken e s).2.expLine = s.expLine := by
  unfold nextExpToken; split
  · split <;> rfl
  · rfl
theorem nextExpToken_expLineNumber (s : St) :
    (nextExpToken e s).2.expLineNumber = s.expLineNumber := by
  unfold nextExpToken; split
  · split <;> rfl
  · rfl

theorem compared_exp (s : St) (t : Str) (c : Bool) : (compared e s t c).exp = s.exp := by
  unfold compared; dsimp only; split <;> simp [nextExpToken_exp]
theorem compared_expLine (s : St) (t : Str) (c : Bool) : (compared e s t c).expLine = s.expLine := by
  unfold compared; dsimp only; split <;> simp [nextExpToken_expLine]
theorem compared_expLineNumber (s : St) (t : Str) (c : Bool) :
    (compared e s t c).expLineNumber = s.expLineNumber := by
  unfold compared; dsimp only; split <;> simp [nextExpToken_expLineNumber]
theorem compared_expTokens (s : St) (t : Str) (c : Bool) :
    (compared e s t c).expTokens = (nextExpToken e s).2.expTokens := by
  unfold compared; dsimp only; split <;> simp

theorem sameLine_compared (s : St) (t : Str) (c : Bool) : SameLine s (compared e s t c) [] :=
  ⟨by simp, by simp, by simp, by simp, by simp, by simp, by simp, compared_exp e s t c,
    compared_expLine e s t c, compared_expLineNumber e s t c⟩

theorem SameLine.trans {a b c : St} {x y : Str} (h1 : SameLine a b x) (h2 : SameLine b c y) :
    SameLine a c (x ++ y) :=
  ⟨h2.out.trans h1.out, by rw [h2.outLine, h1.outLine]; simp, h2.rep.trans h1.rep,
    h2.lineError.trans h1.lineError, h2.lineNumber.trans h1.lineNumber, h2.diffs.trans h1.diffs,
    h2.errors.trans h1.errors, h2.exp.trans h1.exp, h2.expLine.trans h1.expLine,
    h2.expLineNumber.trans h1.expLineNumber⟩

theorem feedToken_sameLine {s : St} {t : Str} {c : Bool} (ht : t ≠ ['\n']) :
    SameLine s (feedToken e s t c) t := by
  rw [feedToken_eq]
  simp only [ht, if_false]
  exact ⟨by simp, by simp, by simp, by simp, by simp, by simp, by simp, compared_exp e s t c,
    compared_expLine e s t c, compared_expLineNumber e s t c⟩

theorem tokenize_newline : tokenize e.u ['\n'] = some [['\n']] := by
  have := tokenize_newline_cons e.u (b := []) (tb := []) (by simp) (by simp)
  simpa using this

theorem opTln_eq {l : Str} {ts : List Str} (hts : tokenize e.u l = some ts) (s : St) :
    opTln e l s = some (feedTokens e s (ts ++ [['\n']]) true) := by
  simp [opTln, feed, hts, tokenize_newline, feedTokens]

theorem opIln_eq {l : Str} {ts : List Str} (hts : tokenize e.u l = some ts) (s : St) :
    opIln e l s = some (feedTokens e s (ts ++ [['\n']]) false) := by
  simp [opIln, feed, hts, tokenize_newline, feedTokens]

/-- Comparing the tokens of a line with the tokens of the snapshot line is comparing the lines. -/
theorem feedLine (hx : e.exists_ = true) (check : Bool) (ts : List Str) :
    ∀ (l : Str), tokenize e.u l = some ts → '\n' ∉ l →
    ∀ (r : Option Str) (s : St), (∀ y, r = some y → '\n' ∉ y) → Toks e s r →
      ∃ x, feedTokens e s (ts ++ [['\n']]) check = commitLine e x ∧ SameLine s x l ∧
        x.lineDiff.isSome = (s.lineDiff.isSome || (check && decide (some l ≠ r))) ∧
        x.lastChecked = check ∧ (x.expLine = none → s.expTokens = none → x.expTokens = none) := by
  induction ts with
  | nil =>
    intro l hts hl r s hr hs
    have hl0 : l = [] := by simpa using (tokenize_flatten e.u hts).symm
    subst hl0
    refine ⟨compared e s ['\n'] check, ?_, sameLine_compared e _ _ _, ?_, by simp, ?_⟩
    · simp [feedTokens, feedToken_eq]
    · rw [compared_lineDiff]
      have hm : mismatch e s ['\n'] = decide (some ([] : Str) ≠ r) := by
        unfold mismatch
        simp only [hx, Bool.true_and]
        cases r with
        | none => rw [nextExpToken_none e hs]; simp
        | some y =>
          cases hn : Tokenizer.next e.u y with
          | none =>
            have hy := (next_eq_none e.u).mp hn
            subst hy
            rw [nextExpToken_nil e hs]; simp
          | some p =>
            obtain ⟨t', r'⟩ := p
            rw [nextExpToken_pull e hs hn]
            have hne : y ≠ [] := by rintro rfl; simp [Tokenizer.next] at hn
            have htn : t' ≠ ['\n'] := by
              rintro rfl
              apply hr y rfl
              rw [← next_concat e.u hn]; simp
            simp [Ne.symm htn, Ne.symm hne]
      rw [hm]
      cases check <;> cases hd : s.lineDiff <;> by_cases hh : some ([] : Str) = r <;> simp [hh]
    · intro _ hst
      rw [compared_expTokens, nextExpToken_none e hst]; exact hst
  | cons t ts ih =>
    intro l hts hl r s hr hs
    have hz := nul_free_of_tokenize e.u hts
    cases hnx : Tokenizer.next e.u l with
    | none => rw [(next_eq_none e.u).mp hnx] at hts; simp at hts
    | some p =>
      obtain ⟨t0, l'⟩ := p
      have hcat := next_concat e.u hnx
      rw [tokenize_cons_of_next e.u hnx hz] at hts
      simp only [Option.map_eq_some_iff, List.cons.injEq] at hts
      obtain ⟨ts', hts', rfl, rfl⟩ := hts
      have htn : t0 ≠ ['\n'] := by
        rintro rfl; apply hl; rw [← hcat]; simp
      have hl' : '\n' ∉ l' := by intro h; apply hl; rw [← hcat]; simp [h]
      have hlne : l ≠ [] := by rintro rfl; simp [Tokenizer.next] at hnx
      have hstep : feedTokens e s (t0 :: ts' ++ [['\n']]) check =
          feedTokens e (feedToken e s t0 check) (ts' ++ [['\n']]) check := rfl
      rw [hstep]
      have hsame := feedToken_sameLine e (s := s) (c := check) htn
      have hld : (feedToken e s t0 check).lineDiff =
          if mismatch e s t0 && check then some (s.lineDiff.getD s.outLine.length)
          else s.lineDiff := by
        rw [feedToken_eq]; simp only [htn, if_false]; exact compared_lineDiff e s t0 check
      have htk : (feedToken e s t0 check).expTokens = (nextExpToken e s).2.expTokens := by
        rw [feedToken_eq]; simp only [htn, if_false]; exact compared_expTokens e s t0 check
      have hlt : s.expTokens = none → (feedToken e s t0 check).expTokens = none := by
        intro h; rw [htk, nextExpToken_none e h]; exact h
      -- the next unread snapshot text and the comparison result
      have key : ∃ r1 : Option Str, (∀ y, r1 = some y → '\n' ∉ y) ∧
          Toks e (feedToken e s t0 check) r1 ∧
          (mismatch e s t0 || decide (some l' ≠ r1)) = decide (some l ≠ r) := by
        cases r with
        | none =>
          refine ⟨none, by simp, by rw [Toks, hlt hs]; rfl, ?_⟩
          simp [mismatch, hx, nextExpToken_none e hs]
        | some y =>
          cases hn : Tokenizer.next e.u y with
          | none =>
            have hy := (next_eq_none e.u).mp hn
            subst hy
            refine ⟨some [], by simp, ?_, ?_⟩
            · unfold Toks; rw [htk, nextExpToken_nil e hs]; exact hs
            · simp [mismatch, hx, nextExpToken_nil e hs, htn, hlne]
          | some p =>
            obtain ⟨t', y'⟩ := p
            have hycat := next_concat e.u hn
            refine ⟨some y', ?_, ?_, ?_⟩
            · intro z hz'
              cases hz'
              intro h; apply hr y rfl; rw [← hycat]; simp [h]
            · unfold Toks; rw [htk, nextExpToken_pull e hs hn]; rfl
            · simp only [mismatch, hx, nextExpToken_pull e hs hn, Bool.true_and, ne_eq,
                Option.some.injEq, decide_not]
              by_cases htt : t0 = t'
              · subst htt
                rw [← hcat, ← hycat]
                simp
              · have hly : l ≠ y := by
                  rintro rfl
                  rw [hn] at hnx
                  simp only [Option.some.injEq, Prod.mk.injEq] at hnx
                  exact htt hnx.1.symm
                simp [htt, hly]
      obtain ⟨r1, k1, k2, k3⟩ := key
      obtain ⟨x, i1, i2, i3, i4, i5⟩ := ih l' hts' hl' r1 (feedToken e s t0 check) k1 k2
      refine ⟨x, i1, ?_, ?_, i4, ?_⟩
      · rw [← hcat]; exact hsame.trans i2
      · rw [i3, hld, ← k3]
        cases hm : mismatch e s t0 <;> cases check <;> cases hd : s.lineDiff <;> simp
      · intro h1 h2
        exact i5 h1 (hlt h2)

/-- `commit_line` moves the cursor to the next line. -/
theorem commitLine_cursor (x : St) : ∃ y, (y.exp = x.exp ∧ y.expLine = x.expLine ∧
    y.expLineNumber = x.expLineNumber ∧ y.expTokens = x.expTokens) ∧
    (commitLine e x).exp = (nextExpLine e y).exp ∧
    (commitLine e x).expLine = (nextExpLine e y).expLine ∧
    (commitLine e x).expLineNumber = (nextExpLine e y).expLineNumber ∧
    (commitLine e x).expTokens = (nextExpLine e y).expTokens := by
  have hw : ∀ A B C, ∃ y : St, (y.exp = x.exp ∧ y.expLine = x.expLine ∧
      y.expLineNumber = x.expLineNumber ∧ y.expTokens = x.expTokens) ∧
      (writeLine e { x with rep := A, diffs := B, errors := C }).exp = (nextExpLine e y).exp ∧
      (writeLine e { x with rep := A, diffs := B, errors := C }).expLine =
        (nextExpLine e y).expLine ∧
      (writeLine e { x with rep := A, diffs := B, errors := C }).expLineNumber =
        (nextExpLine e y).expLineNumber ∧
      (writeLine e { x with rep := A, diffs := B, errors := C }).expTokens =
        (nextExpLine e y).expTokens := fun A B C =>
    ⟨{ x with out := x.out ++ x.outLine ++ ['\n'], outLine := [], rep := A, diffs := B,
              errors := C }, ⟨rfl, rfl, rfl, rfl⟩, rfl, rfl, rfl, rfl⟩
  unfold commitLine
  split
  · exact hw _ _ _
  · exact hw _ _ _

theorem at_congr {s s' : St} {k : Nat} (h : At e s k) (h1 : s'.exp = s.exp)
    (h2 : s'.expLine = s.expLine) (h3 : s'.expLineNumber = s.expLineNumber)
    (h4 : s'.expLine = none → s'.expTokens = none) : At e s' k :=
  ⟨h.ex, h3.trans h.num, h2.trans h.line, h.le, h1.trans h.rd, h4⟩

theorem commitLine_at {x : St} {k : Nat} (h : At e x k) :
    At e (commitLine e x) (min (k + 1) (snap e).length) ∧ Fresh e (commitLine e x) := by
  obtain ⟨y, ⟨y1, y2, y3, y4⟩, c1, c2, c3, c4⟩ := commitLine_cursor e x
  have hy : At e y k := at_congr e h y1 y2 y3 (fun hh => by rw [y4]; exact h.tok (y2 ▸ hh))
  obtain ⟨n1, n2⟩ := nextExpLine_at_min e hy
  refine ⟨at_congr e n1 c1 c2 c3 (fun hh => by rw [c4]; exact n1.tok (c2 ▸ hh)), ?_⟩
  unfold Fresh at *
  rw [c4, c2, n2]

/-- The state at the beginning of a line, with the cursor on line `k` of the snapshot. -/
structure LineStart (s : St) (k : Nat) : Prop where
  at_ : At e s k
  fresh : Fresh e s
  outLine : s.outLine = []
  lineDiff : s.lineDiff = none
  lineError : s.lineError = none

theorem start_lineStart (hx : e.exists_ = true) : LineStart e (start e) 0 := by
  obtain ⟨h1, h2⟩ := start_at e hx
  have hc := core_start e
  refine ⟨h1, h2, ?_, ?_, ?_⟩
  · exact congrArg Core.outLine hc
  · exact congrArg Core.lineDiff hc
  · exact congrArg Core.lineError hc

/-- The report line for a whole line `l` compared with the snapshot line `x`. -/
def lineReport (checked : Bool) (x : Option Str) (l : Str) : Str :=
  if checked && decide (some l ≠ x) then
    ['?', ' '] ++ l ++ List.replicate (60 - l.length) ' ' ++ [' ', '|', ' '] ++ x.getD ['E', 'O', 'F']
  else [' ', ' '] ++ l

/-- Printing one line with `tln` (`checked`) or `iln`. -/
theorem line_step (checked : Bool) {l : Str} (hn : '\n' ∉ l) (hz : '\x00' ∉ l) {s : St} {k : Nat}
    (h : LineStart e s k) :
    ∃ s', (if checked then opTln e l s else opIln e l s) = some s' ∧
      LineStart e s' (min (k + 1) (snap e).length) ∧
      s'.out = s.out ++ l ++ ['\n'] ∧ s'.lineNumber = s.lineNumber + 1 ∧ s'.errors = s.errors ∧
      s'.diffs = s.diffs + (if checked && decide (some l ≠ (snap e)[k]?) then 1 else 0) ∧
      (e.pointErrorPos = false → s'.rep = s.rep ++ [lineReport checked ((snap e)[k]?) l]) ∧
      s'.lastChecked = checked := by
  obtain ⟨ts, hts⟩ := tokenize_nul_free e.u hz
  have hr : ∀ y, (snap e)[k]? = some y → '\n' ∉ y := by
    intro y hy
    exact snap_newline_free e y (List.mem_of_getElem? hy)
  have htoks : Toks e s ((snap e)[k]?) := by
    unfold Toks
    rw [h.fresh, h.at_.line]; rfl
  obtain ⟨x, x1, x2, x3, x4, x5⟩ := feedLine e h.at_.ex checked ts l hts hn _ s hr htoks
  refine ⟨commitLine e x, ?_, ?_, ?_, ?_, ?_, ?_, ?_, ?_⟩
  · cases checked
    · simp only [Bool.false_eq_true, if_false]; rw [opIln_eq e hts, x1]
    · simp only [if_true]; rw [opTln_eq e hts, x1]
  · have hx : At e x k := at_congr e h.at_ x2.exp x2.expLine x2.expLineNumber
      (fun hh => x5 hh (h.at_.tok (x2.expLine ▸ hh)))
    obtain ⟨c1, c2⟩ := commitLine_at e hx
    exact ⟨c1, c2, by simp, by simp, by simp⟩
  · rw [commitLine_out, x2.out, x2.outLine, h.outLine]; simp
  · rw [commitLine_lineNumber, x2.lineNumber]
  · rw [commitLine_errors, x2.errors, x2.lineError, h.lineError]; simp
  · rw [commitLine_diffs, x2.diffs, x3, h.lineDiff]; simp
  · intro hp
    rw [commitLine_rep, x2.rep]
    simp only [caretLine, hp, Bool.false_and, Bool.false_eq_true, if_false, List.append_nil]
    have ho : x.outLine = l := by rw [x2.outLine, h.outLine]; rfl
    have he : x.lineError = none := by rw [x2.lineError, h.lineError]
    have hd := x3
    rw [h.lineDiff] at hd
    simp only [Option.isSome_none, Bool.false_or] at hd
    have hexp : x.expLine = (snap e)[k]? := by rw [x2.expLine, h.at_.line]
    unfold repLine lineReport
    rw [he, hd, ho, hexp]
    simp [ljust]
  · rw [commitLine_lastChecked, x4]

end Verif.Lemmas
