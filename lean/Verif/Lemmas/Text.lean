import Verif.Lemmas.Exec

/-! # The text an API call emits -/

namespace Verif.Lemmas
open Verif.Py Verif.Model Verif.Spec

variable (e : Env)

section
variable (u : Unicode)
theorem printed_header (x : Str) : printed u (.header x) = x ++ ['\n', '\n'] := rfl
theorem printed_assert_true (m : Option Str) :
    printed u (.assertln true m) = "ok\n".toList := by cases m <;> rfl
theorem printed_assert_some (c : Char) (cs : Str) :
    printed u (.assertln false (some (c :: cs))) = c :: cs ++ ['\n'] := rfl
theorem printed_must_true (x : Str) (m : Option Str) :
    printed u (.must x true m) = " * MUST ".toList ++ x ++ "...ok\n".toList := by cases m <;> rfl
theorem printed_must_some (x : Str) (c : Char) (cs : Str) :
    printed u (.must x false (some (c :: cs))) =
      " * MUST ".toList ++ x ++ "...".toList ++ c :: cs ++ ['\n'] := rfl
theorem printed_must_nil (x : Str) :
    printed u (.must x false (some [])) = " * MUST ".toList ++ x ++ "...FAILED\n".toList := rfl
theorem printed_must_none (x : Str) :
    printed u (.must x false none) = " * MUST ".toList ++ x ++ "...FAILED\n".toList := rfl
theorem printed_assert_nil : printed u (.assertln false (some [])) = "FAILED\n".toList := rfl
theorem printed_assert_none : printed u (.assertln false none) = "FAILED\n".toList := rfl
theorem printed_tset (is : List Str) (p : Str) :
    printed u (.tset is p) = (is.map (fun i => p ++ i ++ ['\n'])).flatten := rfl
theorem printed_keyvalueln (k v : Str) :
    printed u (.keyvalueln k v) = k ++ ' ' :: v ++ ['\n'] := rfl
theorem printed_tmsln_over (f x : Str) : printed u (.tmsln true f x) = f ++ ['\n'] := rfl
theorem printed_tdf (tb : Table) :
    printed u (.tdf tb) = ((tableLines u tb).map (· ++ ['\n'])).flatten := rfl
end

/-- From `s` to `s'` exactly the text `x` was emitted (written or put on the open line). -/
def Emits (s : St) (x : Str) (s' : St) : Prop := s'.out ++ s'.outLine = s.out ++ s.outLine ++ x

theorem Emits.trans {a b c : St} {x y : Str} (h1 : Emits a x b) (h2 : Emits b y c) :
    Emits a (x ++ y) c := by
  unfold Emits at *
  rw [h2, h1]; simp

theorem emits_of_core {s s' : St} (h : core s' = core s) : Emits s [] s' := by
  have h1 := congrArg Core.out h
  have h2 := congrArg Core.outLine h
  simp only [core] at h1 h2
  simp [Emits, h1, h2]

theorem feedTokens_emits (ts : List Str) (s : St) (c : Bool) :
    Emits s ts.flatten (feedTokens e s ts c) := by
  induction ts generalizing s with
  | nil => simp [Emits, feedTokens]
  | cons t ts ih =>
    have h1 : Emits s t (feedToken e s t c) := feedToken_text e s t c
    simpa [feedTokens] using h1.trans (ih _)

theorem feed_emits {x : Str} {c : Bool} {s s' : St} (h : feed e s x c = some s') :
    Emits s x s' := by
  simp only [feed, Option.map_eq_some_iff] at h
  obtain ⟨ts, hts, rfl⟩ := h
  rw [← tokenize_flatten e.u hts]
  exact feedTokens_emits e ts s c

theorem tln_emits {x : Str} {s s' : St} (h : opTln e x s = some s') :
    Emits s (x ++ ['\n']) s' := by
  simp only [opTln, bind, Option.bind_eq_some_iff] at h
  obtain ⟨s1, h1, h2⟩ := h
  exact (feed_emits e h1).trans (feed_emits e h2)

theorem iln_emits {x : Str} {s s' : St} (h : opIln e x s = some s') :
    Emits s (x ++ ['\n']) s' := by
  simp only [opIln, bind, Option.bind_eq_some_iff] at h
  obtain ⟨s1, h1, h2⟩ := h
  exact (feed_emits e h1).trans (feed_emits e h2)

theorem Emits.cast {s s' : St} {x y : Str} (h : Emits s x s') (hxy : x = y) : Emits s y s' :=
  hxy ▸ h

theorem fail_emits (s : St) : Emits s [] (fail s) := by simp [Emits]
theorem diff_emits (s : St) : Emits s [] (diff s) := by simp [Emits]

theorem foldlM_emits {α : Type} (f : St → α → Option St) (g : α → Str)
    (hf : ∀ s a s', f s a = some s' → Emits s (g a) s') (l : List α) {s s' : St}
    (h : l.foldlM f s = some s') : Emits s (l.map g).flatten s' := by
  induction l generalizing s with
  | nil => simp at h; subst h; simp [Emits]
  | cons a l ih =>
    simp only [List.foldlM_cons, bind, Option.bind_eq_some_iff] at h
    obtain ⟨s1, h1, h2⟩ := h
    simpa using (hf s a s1 h1).trans (ih h2)

theorem anchorln_emits {a : Str} {s s' : St} (h : opAnchorln e a s = some s') :
    Emits s (a ++ ['\n']) s' := by
  simpa using (emits_of_core (core_seek e _ _ _ _)).trans (tln_emits e h)

theorem anchor_emits {a : Str} {s s' : St} (h : opAnchor e a s = some s') : Emits s a s' := by
  simpa using (emits_of_core (core_seek e _ _ _ _)).trans (feed_emits e h)

theorem assertln_emits {c : Bool} {m : Option Str} {s s' : St}
    (h : opAssertln e c m s = some s') : Emits s (printed e.u (.assertln c m)) s' := by
  unfold opAssertln at h
  split at h
  · rename_i hc; subst hc
    exact (iln_emits e h).cast rfl
  · rename_i hc
    have hc : c = false := by simpa using hc
    subst hc
    split at h
    · exact ((fail_emits s).trans (iln_emits e h)).cast (by simp [printed_assert_some])
    · rename_i hm
      refine ((fail_emits s).trans (iln_emits e h)).cast ?_
      cases m with
      | none => rfl
      | some x =>
        cases x with
        | nil => rfl
        | cons c cs => exact absurd rfl (hm c cs)

theorem tsetItems_emits (pre : Str) (b x : Nat) (is : List Str) {s s' : St} {c c' : List Str}
    (h : tsetItems e pre b x is (s, c) = some (s', c')) :
    Emits s (is.map (fun i => pre ++ i ++ ['\n'])).flatten s' := by
  induction is generalizing s c with
  | nil =>
    simp only [tsetItems, Option.some.injEq, Prod.mk.injEq] at h
    rw [h.1]; simp [Emits]
  | cons i is ih =>
    simp only [tsetItems, bind, Option.bind_eq_some_iff] at h
    obtain ⟨s1, h1, h2⟩ := h
    have h3 := ih h2
    have h4 := (iln_emits e h1).trans h3
    by_cases hi : i ∈ c
    · simp only [hi, if_true] at h4
      simpa using (emits_of_core (core_seek e _ _ _ _)).trans h4
    · simp only [hi, if_false] at h4
      simpa using (diff_emits s).trans h4

theorem colPad_eq (rows : Nat) (c : Str × List Str) : colPad rows c = colWidth rows c := by
  unfold colPad colWidth
  generalize List.range rows = is
  have key : ∀ (is : List Nat) (m : Nat),
      is.foldl (fun m i => max m (c.2.getD i []).length) m =
        max m (((is.map (fun i => c.2.getD i [])).map List.length).foldr max 0) := by
    intro is
    induction is with
    | nil => intro m; simp
    | cons i is ih =>
      intro m
      simp only [List.foldl_cons, List.map_cons, List.foldr_cons]
      rw [ih]; omega
  rw [key]
  simp

theorem cellText_eq (u : Unicode) (x : Str) : cellText u x = cellShown u x := by
  unfold cellText cellShown
  congr 1
  rw [List.map_map]
  apply List.map_congr_left
  intro c _
  by_cases h1 : c = '\r'
  · subst h1; decide
  · simp [h1]

theorem headRow_eq (tb : Table) :
    headRow tb = barRow (tb.cols.map (fun c => (colWidth tb.rows c, c.1))) := by
  simp [headRow, barRow, ljust, colPad_eq, Function.comp_def]

theorem sepRow_eq (tb : Table) : sepRow tb =
    barRow (tb.cols.map (fun c => (colWidth tb.rows c, List.replicate (colWidth tb.rows c) '-'))) := by
  simp [sepRow, barRow, colPad_eq, Function.comp_def]

theorem row_emits {tb : Table} {i : Nat} {s s' : St} (h : opRow e tb i s = some s') :
    Emits s (barRow (tb.cols.map (fun c => (colWidth tb.rows c, cellShown e.u (c.2.getD i [])))) ++
      ['\n']) s' := by
  simp only [opRow, bind, Option.bind_eq_some_iff] at h
  obtain ⟨s1, h1, s2, h2, h3⟩ := h
  have hcells := foldlM_emits (fun s c => opCell e tb.rows c i s)
    (fun c => cellShown e.u (c.2.getD i []) ++
      List.replicate (colWidth tb.rows c - (cellShown e.u (c.2.getD i [])).length) ' ' ++ ['|'])
    (by
      intro s c s' h
      simp only [opCell, bind, Option.bind_eq_some_iff] at h
      obtain ⟨t1, g1, t2, g2, g3⟩ := h
      rw [cellText_eq] at g1 g2
      rw [colPad_eq] at g2
      exact ((feed_emits e g1).trans (feed_emits e g2)).trans (feed_emits e g3)) tb.cols h2
  refine (((feed_emits e h1).trans hcells).trans (tln_emits e h3)).cast ?_
  simp [barRow, Function.comp_def]

/-- The text of every call that does not quote the old value, apart from the header's leading
newline. -/
theorem exec_emits {o : Op} (hq : quotesOld o = false) {s s' : St} (h : o.exec e s = some s') :
    Emits s ((match o with | .header _ => if 0 < s.lineNumber then ['\n'] else [] | _ => []) ++
      printed e.u o) s' := by
  cases o with
  | t x => exact feed_emits e h
  | i x => exact feed_emits e h
  | tln x => exact tln_emits e h
  | iln x => exact iln_emits e h
  | anchor x => exact anchor_emits e h
  | anchorln x => exact anchorln_emits e h
  | header x =>
    simp only [Op.exec, opHeader, bind, Option.bind_eq_some_iff] at h
    obtain ⟨s1, h1, h2⟩ := h
    have h3 := (anchorln_emits e h1).trans (tln_emits e h2)
    by_cases hl : 0 < s.lineNumber
    · simp only [hl, if_true] at h3 ⊢
      have h4 : Emits s ['\n'] _ := feedToken_text e s ['\n'] (s.lastChecked && s.expLine.isSome)
      exact (h4.trans h3).cast (by simp [printed_header])
    · simp only [hl, if_false] at h3 ⊢
      exact h3.cast (by simp [printed_header])
  | diff => simp only [Op.exec, Option.some.injEq] at h; subst h; exact diff_emits s
  | fail => simp only [Op.exec, Option.some.injEq] at h; subst h; exact fail_emits s
  | assertln c m => exact assertln_emits e h
  | must x c m =>
    simp only [Op.exec, opMust, bind, Option.bind_eq_some_iff] at h
    obtain ⟨s1, h1, h2⟩ := h
    refine ((feed_emits e h1).trans (assertln_emits e h2)).cast ?_
    cases c with
    | true => simp [printed_must_true, printed_assert_true]
    | false =>
      cases m with
      | none => simp [printed_must_none, printed_assert_none]
      | some m =>
        cases m with
        | nil => simp [printed_must_nil, printed_assert_nil]
        | cons c cs => simp [printed_must_some, printed_assert_some]
  | tlist is p =>
    exact foldlM_emits _ (fun i => p ++ i ++ ['\n']) (fun s a s' h => tln_emits e h) is h
  | tset is p =>
    simp only [Op.exec, opTset] at h
    split at h
    · simp only [bind, Option.bind_eq_some_iff] at h
      obtain ⟨⟨s2, c2⟩, h1, h2⟩ := h
      simp only [pure, Option.some.injEq] at h2
      subst h2
      have h3 := (emits_of_core (core_tsetScan e p e.fuel s [])).trans
        (tsetItems_emits e _ _ _ _ h1)
      have h4 : Emits s2 [] (jump e (tsetScan e p e.fuel s []).1.expLineNumber
          (if 0 < c2.length then diff s2 else s2)) := by
        have h5 : Emits s2 [] (if 0 < c2.length then diff s2 else s2) := by
          split
          · exact diff_emits s2
          · simp [Emits]
        simpa using h5.trans (emits_of_core (core_jump e _ _))
      exact (h3.trans h4).cast (by simp [printed_tset])
    · exact foldlM_emits _ (fun i => p ++ i ++ ['\n']) (fun s a s' h => iln_emits e h) is h
  | keyvalueln k v =>
    simp only [Op.exec, opKeyvalueln, bind, Option.bind_eq_some_iff] at h
    obtain ⟨s1, h1, h2⟩ := h
    exact ((anchor_emits e h1).trans (tln_emits e h2)).cast (by simp [printed_keyvalueln])
  | ifloatln x un => simp [quotesOld] at hq
  | tmsln over f x =>
    have : over = true := by simpa [quotesOld] using hq
    subst this
    simp only [Op.exec, opTmsln, if_true] at h
    exact ((fail_emits s).trans (tln_emits e h)).cast (by simp [printed_tmsln_over])
  | tdf tb =>
    simp only [Op.exec, opTdf, bind, Option.bind_eq_some_iff] at h
    obtain ⟨s1, h1, s2, h2, h3⟩ := h
    have h4 := foldlM_emits (fun s i => opRow e tb i s) _ (fun s i s' h => row_emits e h)
      (List.range tb.rows) h3
    refine (((iln_emits e h1).trans (tln_emits e h2)).trans h4).cast ?_
    simp [printed_tdf, tableLines, headRow_eq, sepRow_eq, Function.comp_def]

/-! ### Shape of the output -/

/-- The open line has no newline, the written text is empty or ends with one, and the line counter
counts the newlines. -/
structure WF (s : St) : Prop where
  open_ : '\n' ∉ s.outLine
  written : s.out = [] ∨ ∃ a, s.out = a ++ ['\n']
  count : s.lineNumber = s.out.count '\n'

theorem wf_of_core {s s' : St} (h : core s' = core s) (hw : WF s) : WF s' := by
  have h1 := congrArg Core.out h
  have h2 := congrArg Core.outLine h
  have h3 := congrArg Core.lineNumber h
  simp only [core] at h1 h2 h3
  exact ⟨h2 ▸ hw.open_, h1 ▸ hw.written, by rw [h1, h3]; exact hw.count⟩

theorem feedToken_wf {s : St} {t : Str} {c : Bool} (ht : Tok t) (hw : WF s) :
    WF (feedToken e s t c) := by
  rw [feedToken_eq]
  split
  · refine ⟨by simp, Or.inr ⟨s.out ++ s.outLine, by simp⟩, ?_⟩
    simp [hw.count, List.count_eq_zero.mpr hw.open_]
  · rename_i hn
    refine ⟨?_, by simpa using hw.written, by simpa using hw.count⟩
    rcases ht with h | h
    · exact absurd h hn
    · simp [hw.open_, h.2]

theorem exec_wf {o : Op} {s s' : St} (h : o.exec e s = some s') (hw : WF s) : WF s' :=
  exec_rel e (R := fun s s' => WF s → WF s') (fun _ h => h) (fun _ _ _ h1 h2 h => h2 (h1 h))
    (fun s => wf_of_core (core_nextExpLine e s)) (fun s => wf_of_core (core_resetExpReader e s))
    (fun _ _ _ ht => feedToken_wf e ht) o
    (fun _ s h => ⟨by simpa using h.open_, by simpa using h.written, by simpa using h.count⟩)
    (fun _ s h => ⟨by simpa using h.open_, by simpa using h.written, by simpa using h.count⟩) h hw

theorem core_start : core (start e) = core St.init := core_resetExpReader e _

theorem start_wf : WF (start e) :=
  wf_of_core (core_start e) ⟨by simp [St.init], Or.inl rfl, rfl⟩

theorem start_emits : (start e).out ++ (start e).outLine = [] := by
  have := emits_of_core (core_start e)
  simpa [Emits, St.init] using this

theorem wf_lineNumber_pos {s : St} (hw : WF s) :
    0 < s.lineNumber ↔ '\n' ∈ s.out ++ s.outLine := by
  rw [hw.count, List.count_pos_iff]
  simp [hw.open_]

theorem execAll_emits {os : List Op} (hq : ∀ o ∈ os, quotesOld o = false) {s s' : St} (hw : WF s)
    (h : execAll e os s = some s') :
    s'.out ++ s'.outLine = printedAll e.u os (s.out ++ s.outLine) ∧ WF s' := by
  induction os generalizing s with
  | nil => simp [execAll] at h; subst h; exact ⟨rfl, hw⟩
  | cons o os ih =>
    simp only [execAll, List.foldlM_cons, bind, Option.bind_eq_some_iff] at h
    obtain ⟨s1, h1, h2⟩ := h
    have he := exec_emits e (hq o (by simp)) h1
    have hw1 := exec_wf e h1 hw
    have h3 := ih (fun o ho => hq o (by simp [ho])) hw1 h2
    refine ⟨?_, h3.2⟩
    rw [h3.1]
    unfold Emits at he
    rw [he]
    cases o <;> simp only [printedAll, List.nil_append]
    rename_i x
    have := wf_lineNumber_pos hw
    by_cases hl : 0 < s.lineNumber
    · simp [hl, this.mp hl]
    · have hn : ¬ ('\n' ∈ s.out ++ s.outLine) := fun hh => hl (this.mpr hh)
      simp [hl, hn]

theorem upToLastNewline_of_wf {s : St} (hw : WF s) : upToLastNewline (s.out ++ s.outLine) = s.out := by
  unfold upToLastNewline
  have h1 : ∀ (l : Str) (r : Str), '\n' ∉ l → (l ++ r).dropWhile (· ≠ '\n') = r.dropWhile (· ≠ '\n') := by
    intro l r h
    induction l with
    | nil => rfl
    | cons x xs ih =>
      simp only [List.mem_cons, not_or] at h
      simp only [List.cons_append, List.dropWhile_cons]
      have : (decide (x ≠ '\n')) = true := by simp [Ne.symm h.1]
      simp only [this, if_true]
      exact ih h.2
  rw [List.reverse_append, h1 _ _ (by simpa using hw.open_)]
  rcases hw.written with h | ⟨a, h⟩
  · simp [h]
  · rw [h]; simp

end Verif.Lemmas
