import Verif.Lemmas.LineStep

/-! # Relations preserved by all API calls -/

namespace Verif.Lemmas
open Verif.Py Verif.Model Verif.Spec

variable (e : Env)

theorem diffMarks_of_core {s s' : St} (h : core s' = core s) : diffMarks s' = diffMarks s := by
  have h1 := congrArg Core.diffs h
  have h2 := congrArg Core.lineDiff h
  simp only [core] at h1 h2
  simp [diffMarks, h1, h2]

theorem errMarks_of_core {s s' : St} (h : core s' = core s) : errMarks s' = errMarks s := by
  have h1 := congrArg Core.errors h
  have h2 := congrArg Core.lineError h
  simp only [core] at h1 h2
  simp [errMarks, h1, h2]

theorem errMarks_diff (s : St) : errMarks (diff s) = errMarks s := by simp [errMarks]

theorem start_marks : diffMarks (start e) = 0 ∧ errMarks (start e) = 0 := by
  have h := core_start e
  exact ⟨diffMarks_of_core h, errMarks_of_core h⟩

/-- Calls that mark no error keep the number of error marks. -/
theorem execAll_errMarks {os : List Op} (ho : ∀ o ∈ os, marksError o = false) {s s' : St}
    (h : execAll e os s = some s') : errMarks s' = errMarks s :=
  execAll_rel e (R := fun s s' => errMarks s' = errMarks s) (fun _ => rfl)
    (fun _ _ _ h1 h2 => h2.trans h1) (fun s => errMarks_of_core (core_nextExpLine e s))
    (fun s => errMarks_of_core (core_resetExpReader e s))
    (fun s t c _ => feedToken_errMarks e s t c) os (fun _ s => errMarks_diff s)
    (fun ⟨o, h1, h2⟩ => by rw [ho o h1] at h2; cases h2) h

theorem ignored_marks {o : Op} (ho : ignored o = true) {s s' : St} (h : o.exec e s = some s') :
    diffMarks s' = diffMarks s ∧ errMarks s' = errMarks s := by
  let R : St → St → Prop := fun s s' => diffMarks s' = diffMarks s ∧ errMarks s' = errMarks s
  have hrefl : ∀ s, R s s := fun _ => ⟨rfl, rfl⟩
  have htrans : ∀ a b c, R a b → R b c → R a c :=
    fun _ _ _ h1 h2 => ⟨h2.1.trans h1.1, h2.2.trans h1.2⟩
  have hf : ∀ s t, Tok t → R s (feedToken e s t false) := fun s t _ =>
    ⟨feedToken_diffMarks_unchecked e s t, feedToken_errMarks e s t false⟩
  show R s s'
  cases o <;> simp only [ignored, Bool.false_eq_true] at ho
  · exact feed_rel e hrefl htrans hf h
  · exact iln_rel e hrefl htrans hf h
  · exact assertln_rel e hrefl htrans hf (fun hc => by rw [ho] at hc; cases hc) h
  · simp only [Op.exec, opMust, bind, Option.bind_eq_some_iff] at h
    obtain ⟨s1, h1, h2⟩ := h
    exact htrans _ _ _ (feed_rel e hrefl htrans hf h1)
      (assertln_rel e hrefl htrans hf (fun hc => by rw [ho] at hc; cases hc) h2)
  · exact ifloatln_rel e hrefl htrans hf h
  · rename_i over f x
    have : over = false := by simpa using ho
    subst this
    simp only [Op.exec, opTmsln, Bool.false_eq_true, if_false] at h
    exact ifloatln_rel e hrefl htrans hf h

/-! ### Errors are not lost -/

/-- Errors stay counted, and the error of the open line is counted when the line is written. -/
def KeepsErrors (s s' : St) : Prop :=
  s.errors ≤ s'.errors ∧
  (s.lineError.isSome = true → s.errors < s'.errors ∨ (s'.lineError.isSome = true ∧ s'.out = s.out))

theorem keepsErrors_trans (a b c : St) (h1 : KeepsErrors a b) (h2 : KeepsErrors b c) :
    KeepsErrors a c := by
  refine ⟨Nat.le_trans h1.1 h2.1, fun h => ?_⟩
  rcases h1.2 h with h3 | ⟨h3, h4⟩
  · left; have := h2.1; omega
  · rcases h2.2 h3 with h5 | ⟨h5, h6⟩
    · left; have := h1.1; omega
    · exact Or.inr ⟨h5, h6.trans h4⟩

theorem keepsErrors_of_core {s s' : St} (h : core s' = core s) : KeepsErrors s s' := by
  have h1 := congrArg Core.errors h
  have h2 := congrArg Core.lineError h
  have h3 := congrArg Core.out h
  simp only [core] at h1 h2 h3
  exact ⟨by omega, fun hs => Or.inr ⟨by rw [h2]; exact hs, h3⟩⟩

theorem keepsErrors_feedToken (s : St) (t : Str) (c : Bool) :
    KeepsErrors s (feedToken e s t c) := by
  rw [feedToken_eq]
  split
  · refine ⟨by simp, fun h => Or.inl (by simp [h])⟩
  · exact ⟨by simp, fun h => Or.inr (by simp [h])⟩

theorem keepsErrors_diff (s : St) : KeepsErrors s (diff s) :=
  ⟨by simp, fun h => Or.inr (by simp [h])⟩

theorem keepsErrors_fail (s : St) : KeepsErrors s (fail s) :=
  ⟨by simp, fun h => Or.inr (by simp [fail_lineError])⟩

theorem keepsErrors_exec {o : Op} {s s' : St} (h : o.exec e s = some s') : KeepsErrors s s' :=
  exec_rel e (fun _ => keepsErrors_of_core rfl) keepsErrors_trans
    (fun s => keepsErrors_of_core (core_nextExpLine e s))
    (fun s => keepsErrors_of_core (core_resetExpReader e s))
    (fun s t c _ => keepsErrors_feedToken e s t c) o (fun _ => keepsErrors_diff)
    (fun _ => keepsErrors_fail) h

theorem keepsErrors_execAll {os : List Op} {s s' : St} (h : execAll e os s = some s') :
    KeepsErrors s s' :=
  foldlM_rel (fun _ => keepsErrors_of_core rfl) keepsErrors_trans _ _
    (fun _ _ _ _ h => keepsErrors_exec e h) h

theorem feed_newline (s : St) (c : Bool) :
    feed e s ['\n'] c = some (feedToken e s ['\n'] c) := by
  simp [feed, tokenize_newline, feedTokens]

theorem iln_ends {x : Str} {s s' : St} (h : opIln e x s = some s') : s'.outLine = [] := by
  simp only [opIln, bind, Option.bind_eq_some_iff] at h
  obtain ⟨s1, -, h2⟩ := h
  rw [feed_newline] at h2
  cases h2
  rw [feedToken_eq]; simp

theorem tln_ends {x : Str} {s s' : St} (h : opTln e x s = some s') : s'.outLine = [] := by
  simp only [opTln, bind, Option.bind_eq_some_iff] at h
  obtain ⟨s1, -, h2⟩ := h
  rw [feed_newline] at h2
  cases h2
  rw [feedToken_eq]; simp

theorem emits_out_ne {s s' : St} {x : Str} (h : Emits s (x ++ ['\n']) s') (ho : s'.outLine = []) :
    s'.out ≠ s.out := by
  intro hc
  unfold Emits at h
  rw [ho, hc] at h
  have := congrArg List.length h
  simp at this

theorem keepsErrors_iln {x : Str} {s s' : St} (h : opIln e x s = some s') : KeepsErrors s s' :=
  iln_rel e (fun _ => keepsErrors_of_core rfl) keepsErrors_trans
    (fun s t _ => keepsErrors_feedToken e s t false) h
theorem keepsErrors_tln {x : Str} {s s' : St} (h : opTln e x s = some s') : KeepsErrors s s' :=
  tln_rel e (fun _ => keepsErrors_of_core rfl) keepsErrors_trans
    (fun s t _ => keepsErrors_feedToken e s t true) h

theorem fail_then_iln {x : Str} {s s' : St} (h : opIln e x (fail s) = some s') :
    s.errors < s'.errors := by
  rcases (keepsErrors_iln e h).2 (by simp [fail_lineError]) with h1 | ⟨-, h1⟩
  · simpa using h1
  · exact absurd h1 (emits_out_ne (iln_emits e h) (iln_ends e h))

theorem fail_then_tln {x : Str} {s s' : St} (h : opTln e x (fail s) = some s') :
    s.errors < s'.errors := by
  rcases (keepsErrors_tln e h).2 (by simp [fail_lineError]) with h1 | ⟨-, h1⟩
  · simpa using h1
  · exact absurd h1 (emits_out_ne (tln_emits e h) (tln_ends e h))

theorem assert_false_errors {m : Option Str} {s s' : St} (h : opAssertln e false m s = some s') :
    s.errors < s'.errors := by
  unfold opAssertln at h
  simp only [Bool.false_eq_true, if_false] at h
  split at h <;> exact fail_then_iln e h

/-- A marking call other than `fail` writes its line itself. -/
theorem marksError_errors {o : Op} (ho : marksError o = true) (hf : o ≠ .fail) {s s' : St}
    (h : o.exec e s = some s') : s.errors < s'.errors := by
  cases o <;> simp only [marksError, Bool.false_eq_true] at ho
  · exact absurd rfl hf
  · rename_i c m
    have : c = false := by simpa using ho
    subst this
    exact assert_false_errors e h
  · rename_i x c m
    have : c = false := by simpa using ho
    subst this
    simp only [Op.exec, opMust, bind, Option.bind_eq_some_iff] at h
    obtain ⟨s1, h1, h2⟩ := h
    have h3 : KeepsErrors s s1 := feed_rel e (fun _ => keepsErrors_of_core rfl) keepsErrors_trans
      (fun s t _ => keepsErrors_feedToken e s t false) h1
    have := h3.1
    have := assert_false_errors e h2
    omega
  · subst ho
    simp only [Op.exec, opTmsln, if_true] at h
    exact fail_then_tln e h

/-! ### Without a snapshot -/

theorem no_file_exec (hx : e.exists_ = false) {o : Op} (ho : o ≠ .diff) {s s' : St}
    (h : o.exec e s = some s') (hl : s.expLine = none) :
    s'.expLine = none ∧ diffMarks s' = diffMarks s := by
  let R : St → St → Prop := fun s s' =>
    s.expLine = none → s'.expLine = none ∧ diffMarks s' = diffMarks s
  have hrefl : ∀ s, R s s := fun _ h => ⟨h, rfl⟩
  have htrans : ∀ a b c, R a b → R b c → R a c := fun _ _ _ h1 h2 h =>
    ⟨(h2 (h1 h).1).1, (h2 (h1 h).1).2.trans (h1 h).2⟩
  have hn : ∀ s, nextExpLine e s = s := fun s => by simp [nextExpLine, hx]
  have hcur : ∀ s, R s (nextExpLine e s) := fun s => by rw [hn]; exact hrefl s
  have hreset : ∀ s, R s (resetExpReader e s) := fun s h => by
    refine ⟨?_, diffMarks_of_core (core_resetExpReader e s)⟩
    unfold resetExpReader; rw [hn]
  have hfeed : ∀ s t c, R s (feedToken e s t c) := fun s t c h => by
    refine ⟨?_, feedToken_diffMarks_no_file e hx s t c⟩
    rw [feedToken_eq]
    split
    · obtain ⟨y, ⟨-, y2, -, -⟩, -, c2, -, -⟩ := commitLine_cursor e (compared e s t c)
      rw [c2, hn, y2, compared_expLine, h]
    · rw [← h]; exact compared_expLine e s t c
  have key : R s s' := by
    cases o with
    | tset is p =>
      intro hl
      simp only [Op.exec, opTset, hl] at h
      exact foldlM_rel hrefl htrans _ _
        (fun s a s' _ h => iln_rel e hrefl htrans (fun s t _ => hfeed s t false) h) h hl
    | diff => exact absurd rfl ho
    | fail =>
      simp only [Op.exec, Option.some.injEq] at h; subst h
      intro hl
      exact ⟨by unfold fail; split <;> exact hl, by simp [diffMarks]⟩
    | _ =>
      exact exec_rel e hrefl htrans hcur hreset (fun s t c _ => hfeed s t c) _
        (fun h => by simp [marksDiff] at h)
        (fun _ s hl => ⟨by unfold fail; split <;> exact hl, by simp [diffMarks]⟩) h
  exact key hl

/-! ### The cursor is always on a line -/

theorem nextExpToken_at {s : St} {k : Nat} (h : At e s k) : At e (nextExpToken e s).2 k :=
  at_congr e h (nextExpToken_exp e s) (nextExpToken_expLine e s) (nextExpToken_expLineNumber e s)
    (fun hn => by
      rw [nextExpToken_expLine] at hn
      rw [nextExpToken_none e (h.tok hn)]; exact h.tok hn)

theorem compared_at {s : St} {k : Nat} (h : At e s k) (t : Str) (c : Bool) :
    At e (compared e s t c) k := by
  have h1 := nextExpToken_at e h
  exact at_congr e h1 (by rw [compared_exp, nextExpToken_exp])
    (by rw [compared_expLine, nextExpToken_expLine])
    (by rw [compared_expLineNumber, nextExpToken_expLineNumber])
    (fun hn => by rw [compared_expTokens]; rw [compared_expLine] at hn
                  exact h1.tok (by rw [nextExpToken_expLine]; exact hn))

theorem feedToken_at {s : St} {k : Nat} (h : At e s k) (t : Str) (c : Bool) :
    At e (feedToken e s t c) (if t = ['\n'] then min (k + 1) (snap e).length else k) := by
  rw [feedToken_eq]
  split
  · exact (commitLine_at e (compared_at e h t c)).1
  · have := compared_at e h t c
    exact at_congr e this rfl rfl rfl this.tok

theorem exec_at {o : Op} {s s' : St} (h : o.exec e s = some s') (hs : ∃ k, At e s k) :
    ∃ k, At e s' k := by
  refine exec_rel e (R := fun s s' => (∃ k, At e s k) → ∃ k, At e s' k) (fun _ h => h)
    (fun _ _ _ h1 h2 h => h2 (h1 h)) (fun s ⟨k, h⟩ => ⟨_, (nextExpLine_at_min e h).1⟩)
    (fun s ⟨k, h⟩ => ⟨_, (reset_at e h.ex s).1⟩) (fun s t c _ ⟨k, h⟩ => ⟨_, feedToken_at e h t c⟩) o
    (fun _ s ⟨k, h⟩ => ⟨k, ?_⟩) (fun _ s ⟨k, h⟩ => ⟨k, ?_⟩) h hs
  · unfold diff; split
    · exact at_congr e h rfl rfl rfl h.tok
    · exact h
  · unfold fail; split
    · exact at_congr e h rfl rfl rfl h.tok
    · exact h

theorem execAll_at {os : List Op} {s s' : St} (h : execAll e os s = some s')
    (hs : ∃ k, At e s k) : ∃ k, At e s' k :=
  foldlM_rel (R := fun s s' => (∃ k, At e s k) → ∃ k, At e s' k) (fun _ h => h)
    (fun _ _ _ h1 h2 h => h2 (h1 h)) _ _ (fun _ _ _ _ h => exec_at e h) h hs

theorem seekPos_spec (p : Str → Bool) (ls : List Str) (k : Nat) (hk : k ≤ ls.length) :
    AnchorTarget p ls k (seekPos p ls k) := by
  have hle := List.findIdx_le_length (p := p) (xs := ls.drop k)
  have hafter : ∀ i x, i - k < (ls.drop k).findIdx p → k ≤ i → ls[i]? = some x → p x = false := by
    intro i x h1 h2 h3
    have := List.not_of_lt_findIdx h1
    simp only [List.getElem_drop] at this
    have e1 : k + (i - k) = i := by omega
    simp only [e1] at this
    have h4 : ls[i]'(by simp at hle; omega) = x := by
      rw [List.getElem?_eq_getElem (by simp at hle; omega)] at h3; exact Option.some.inj h3
    rw [h4] at this; simpa using this
  by_cases hj : k + (ls.drop k).findIdx p < ls.length
  · left
    have hp : seekPos p ls k = k + (ls.drop k).findIdx p := by simp [seekPos, hj]
    rw [hp]
    have hlt : (ls.drop k).findIdx p < (ls.drop k).length := by simp; omega
    have := List.findIdx_getElem (w := hlt)
    simp only [List.getElem_drop] at this
    exact ⟨_, by omega, List.getElem?_eq_getElem hj, this, fun i x h1 h2 h3 =>
      hafter i x (by omega) h1 h3⟩
  · have hall : ∀ i x, k ≤ i → ls[i]? = some x → p x = false := by
      intro i x h1 h2
      have : i < ls.length := by
        rcases Nat.lt_or_ge i ls.length with h | h
        · exact h
        · simp [h] at h2
      exact hafter i x (by omega) h1 h2
    have hp : seekPos p ls k = (ls.take k).findIdx p := by simp [seekPos, hj]
    rw [hp]
    have hbefore : ∀ i x, i < (ls.take k).findIdx p → ls[i]? = some x → p x = false := by
      intro i x h1 h2
      have := List.not_of_lt_findIdx h1
      simp only [List.getElem_take] at this
      have hi : i < ls.length := by
        rcases Nat.lt_or_ge i ls.length with h | h
        · exact h
        · simp [h] at h2
      rw [List.getElem?_eq_getElem hi] at h2
      rw [Option.some.inj h2] at this; simpa using this
    have hle2 := List.findIdx_le_length (p := p) (xs := ls.take k)
    rw [List.length_take] at hle2
    by_cases hq : (ls.take k).findIdx p < k
    · right; left
      have hlt : (ls.take k).findIdx p < (ls.take k).length := by rw [List.length_take]; omega
      have := List.findIdx_getElem (w := hlt)
      rw [List.getElem_take] at this
      exact ⟨hall, _, List.getElem?_eq_getElem (by omega), this, hbefore⟩
    · right; right
      have hqk : (ls.take k).findIdx p = k := by omega
      refine ⟨?_, hqk⟩
      intro l hl
      obtain ⟨i, hi⟩ := List.mem_iff_getElem?.mp hl
      by_cases h1 : k ≤ i
      · exact hall i l h1 hi
      · exact hbefore i l (by omega) hi

/-! ### The report as a log of lines -/

/-- From `s` to `s'` exactly the lines `ls` were committed. -/
structure Commits (s s' : St) (ls : List LogLine) : Prop where
  out : s'.out = s.out ++ (ls.map (fun l => l.text ++ ['\n'])).flatten
  rep : s'.rep = s.rep ++ (ls.map (LogLine.shown e.pointErrorPos)).flatten
  errors : s'.errors = s.errors + ls.countP (·.err)
  diffs : s'.diffs = s.diffs + ls.countP (·.diff)
  lineNumber : s'.lineNumber = s.lineNumber + ls.length

theorem Commits.refl (s : St) : Commits e s s [] := ⟨by simp, by simp, by simp, by simp, by simp⟩

theorem Commits.trans {e : Env} {a b c : St} {x y : List LogLine} (h1 : Commits e a b x)
    (h2 : Commits e b c y) : Commits e a c (x ++ y) :=
  ⟨by rw [h2.out, h1.out]; simp, by rw [h2.rep, h1.rep]; simp,
    by rw [h2.errors, h1.errors]; simp; omega, by rw [h2.diffs, h1.diffs]; simp; omega,
    by rw [h2.lineNumber, h1.lineNumber]; simp; omega⟩

theorem commits_of_core {s s' : St} (h : core s' = core s) : Commits e s s' [] := by
  have h1 := congrArg Core.out h
  have h2 := congrArg Core.rep h
  have h3 := congrArg Core.errors h
  have h4 := congrArg Core.diffs h
  have h5 := congrArg Core.lineNumber h
  simp only [core] at h1 h2 h3 h4 h5
  exact ⟨by simp [h1], by simp [h2], by simp [h3], by simp [h4], by simp [h5]⟩

/-- The error marks of the committed lines when no call marks an error: only the mark that was
already on the open line, on the first line. -/
def Quiet (s s' : St) : List LogLine → Prop
  | [] => s'.lineError = s.lineError
  | l :: ls => l.err = s.lineError.isSome ∧ (∀ x ∈ ls, x.err = false) ∧ s'.lineError = none

theorem Quiet.trans {a b c : St} {x y : List LogLine} (h1 : Quiet a b x) (h2 : Quiet b c y) :
    Quiet a c (x ++ y) := by
  cases x with
  | nil =>
    simp only [Quiet] at h1
    cases y with
    | nil => simp only [Quiet] at h2 ⊢; simpa [Quiet] using h2.trans h1
    | cons l ls =>
      simp only [Quiet] at h2
      simp only [List.nil_append, Quiet]
      rw [← h1]; exact h2
  | cons l ls =>
    simp only [Quiet] at h1
    simp only [List.cons_append, Quiet]
    refine ⟨h1.1, ?_, ?_⟩
    · intro x hx
      rcases List.mem_append.mp hx with hx | hx
      · exact h1.2.1 x hx
      · cases y with
        | nil => cases hx
        | cons l' ls' =>
          simp only [Quiet] at h2
          rcases List.mem_cons.mp hx with hx | hx
          · rw [hx, h2.1, h1.2.2]; rfl
          · exact h2.2.1 x hx
    · cases y with
      | nil => simp only [Quiet] at h2; exact h2.trans h1.2.2
      | cons l' ls' => exact h2.2.2

theorem feedToken_commits (s : St) (t : Str) (c : Bool) :
    ∃ ls, Commits e s (feedToken e s t c) ls ∧ Quiet s (feedToken e s t c) ls ∧
      ls.length = (if t = ['\n'] then 1 else 0) := by
  rw [feedToken_eq]
  split
  · refine ⟨[⟨s.outLine, s.expLine, s.lineError.isSome, (compared e s t c).lineDiff.isSome,
      ((compared e s t c).lineError.or (compared e s t c).lineDiff).getD 0⟩], ?_, ?_, rfl⟩
    · refine ⟨by simp, ?_, ?_, ?_, by simp⟩
      · rw [commitLine_rep]
        simp only [compared_rep, List.map_cons, List.map_nil, List.flatten_cons,
          List.flatten_nil, List.append_nil, List.append_assoc]
        congr 1
        have ho : (compared e s t c).outLine = s.outLine := by simp
        have hl : (compared e s t c).lineError = s.lineError := by simp
        have hx := compared_expLine e s t c
        simp only [repLine, caretLine, LogLine.shown, ho, hl, hx, ljust]
        cases s.lineError.isSome <;> cases (compared e s t c).lineDiff.isSome <;>
          cases e.pointErrorPos <;> simp
      · rw [commitLine_errors]; cases h : s.lineError <;> simp [h]
      · rw [commitLine_diffs]; cases h : (compared e s t c).lineDiff <;> simp
    · exact ⟨rfl, by simp, by simp⟩
  · exact ⟨[], ⟨by simp, by simp, by simp, by simp, by simp⟩, by simp [Quiet], rfl⟩

theorem exec_commits {o : Op} {s s' : St} (h : o.exec e s = some s') :
    ∃ ls, Commits e s s' ls ∧ (marksError o = false → Quiet s s' ls) := by
  by_cases hm : marksError o = true
  · obtain ⟨ls, hl⟩ := exec_rel e (R := fun s s' => ∃ ls, Commits e s s' ls)
      (fun s => ⟨[], Commits.refl e s⟩)
      (fun _ _ _ ⟨x, h1⟩ ⟨y, h2⟩ => ⟨x ++ y, h1.trans h2⟩)
      (fun s => ⟨[], commits_of_core e (core_nextExpLine e s)⟩)
      (fun s => ⟨[], commits_of_core e (core_resetExpReader e s)⟩)
      (fun s t c _ => (feedToken_commits e s t c).imp fun _ h => h.1) o
      (fun _ s => ⟨[], by simp, by simp, by simp, by simp, by simp⟩)
      (fun _ s => ⟨[], by simp, by simp, by simp, by simp, by simp⟩) h
    exact ⟨ls, hl, fun h => by rw [hm] at h; cases h⟩
  · obtain ⟨ls, hl, hq⟩ := exec_rel e (R := fun s s' => ∃ ls, Commits e s s' ls ∧ Quiet s s' ls)
      (fun s => ⟨[], Commits.refl e s, rfl⟩)
      (fun _ _ _ ⟨x, h1, q1⟩ ⟨y, h2, q2⟩ => ⟨x ++ y, h1.trans h2, q1.trans q2⟩)
      (fun s => ⟨[], commits_of_core e (core_nextExpLine e s),
        congrArg Core.lineError (core_nextExpLine e s)⟩)
      (fun s => ⟨[], commits_of_core e (core_resetExpReader e s),
        congrArg Core.lineError (core_resetExpReader e s)⟩)
      (fun s t c _ => (feedToken_commits e s t c).imp fun _ h => ⟨h.1, h.2.1⟩) o
      (fun _ s => ⟨[], ⟨by simp, by simp, by simp, by simp, by simp⟩, by simp [Quiet]⟩)
      (fun h => absurd h hm) h
    exact ⟨ls, hl, fun _ => hq⟩

theorem execAll_commits {os : List Op} {s s' : St} (h : execAll e os s = some s') :
    ∃ ls, Commits e s s' ls :=
  foldlM_rel (R := fun s s' => ∃ ls, Commits e s s' ls) (fun s => ⟨[], Commits.refl e s⟩)
    (fun _ _ _ ⟨x, h1⟩ ⟨y, h2⟩ => ⟨x ++ y, h1.trans h2⟩) _ _
    (fun _ _ _ _ h => (exec_commits e h).imp fun _ h => h.1) h

/-! ### Calls return -/

theorem feed_total {x : Str} (hz : '\x00' ∉ x) (s : St) (c : Bool) : ∃ s', feed e s x c = some s' := by
  obtain ⟨ts, hts⟩ := tokenize_nul_free e.u hz
  exact ⟨_, by simp only [feed, hts]; rfl⟩

theorem iln_total {x : Str} (hz : '\x00' ∉ x) (s : St) : ∃ s', opIln e x s = some s' := by
  obtain ⟨s1, h1⟩ := feed_total e hz s false
  exact ⟨_, by simp only [opIln, h1, bind, Option.bind_some]; exact feed_newline e s1 false⟩

theorem tln_total {x : Str} (hz : '\x00' ∉ x) (s : St) : ∃ s', opTln e x s = some s' := by
  obtain ⟨s1, h1⟩ := feed_total e hz s true
  exact ⟨_, by simp only [opTln, h1, bind, Option.bind_some]; exact feed_newline e s1 true⟩

end Verif.Lemmas
