import Verif.Lemmas.Aligned
import Verif.Props.CaseRun

/-! # Accept, rerun, pass (C08); an accepted table is stable (C67) -/

namespace Verif.Props
open Verif.Py Verif.Model Verif.Spec Verif.Lemmas

/-! ## C08 -/

/-- C08 fails in general: a token that straddles two calls is one token in the snapshot. -/
theorem C08_rerun_refuted : ∃ (e e' : Env) (os : List Op) (s s' : St), e.u = e'.u ∧
    execAll e os (start e) = some s ∧ e'.expFile = some s.out ∧
    execAll e' os (start e') = some s' ∧ verdict e' s' = .DIFF :=
  ⟨⟨ascii, none, false, some⟩, ⟨ascii, some "foobar\n".toList, false, some⟩,
    [.t "foo".toList, .tln "bar".toList], _, _, rfl, rfl, rfl, rfl, by decide⟩

/-- C08 fails for output with carriage returns, which are read back as newlines. -/
theorem C08_carriage_return_refuted : ∃ (e e' : Env) (os : List Op) (s s' : St), e.u = e'.u ∧
    execAll e os (start e) = some s ∧ e'.expFile = some s.out ∧
    execAll e' os (start e') = some s' ∧ verdict e' s' = .DIFF :=
  ⟨⟨ascii, none, false, some⟩, ⟨ascii, some "a\rb\n".toList, false, some⟩,
    [.tln "a\rb".toList], _, _, rfl, rfl, rfl, rfl, by decide⟩

/-- C08 fails for a set with a repeated item. -/
theorem C08_set_refuted : ∃ (e e' : Env) (os : List Op) (s s' : St), e.u = e'.u ∧
    execAll e os (start e) = some s ∧ e'.expFile = some s.out ∧
    execAll e' os (start e') = some s' ∧ verdict e' s' = .DIFF :=
  ⟨⟨ascii, none, false, some⟩, ⟨ascii, some " * a\n * a\n".toList, false, some⟩,
    [.tset ["a".toList, "a".toList] " * ".toList], _, _, rfl, rfl, rfl, rfl, by decide⟩

/-- C08 fails for an anchor in the middle of a line when an earlier line starts with its text. -/
theorem C08_anchor_refuted : ∃ (e e' : Env) (os : List Op) (s s' : St), e.u = e'.u ∧
    execAll e os (start e) = some s ∧ e'.expFile = some s.out ∧
    execAll e' os (start e') = some s' ∧ verdict e' s' = .DIFF :=
  ⟨⟨ascii, none, false, some⟩, ⟨ascii, some "x\n y x z\n".toList, false, some⟩,
    [.tln "x".toList, .t " y ".toList, .anchor "x".toList, .tln " z".toList],
    _, _, rfl, rfl, rfl, rfl, by decide⟩

/-- C08, the part that holds: if no token straddles two printed pieces, there is no carriage return,
and every call can be repeated (`Repeats`: no failing call, anchors and sets at the beginning of a
line, sets without repetition), then a run whose output is accepted passes when repeated, with the
same output.  The first run may have any snapshot. Missing: the excluded programs, for which the
theorems above show that the claim is false. -/
theorem C08_rerun_partial (e e' : Env) (os : List Op) (hu : e'.u = e.u)
    (hr : AllRepeat e.u os []) (ha : Aligned e.u (allPieces e.u os []))
    (hcr : '\r' ∉ (allPieces e.u os []).flatten) {s : St}
    (h : execAll e os (start e) = some s) (hx : e'.expFile = some s.out) :
    ∃ s', execAll e' os (start e') = some s' ∧ verdict e' s' = .OK ∧ s'.out = s.out := by
  obtain ⟨p1, p2⟩ := printedAll_pieces e.u os [] hr
  rw [List.nil_append] at p1
  have hout := C04_output e os p2 h
  rw [p1] at hout
  obtain ⟨tail, t1, t2, t3⟩ := upToLastNewline_split (allPieces e.u os []).flatten
  rw [← hout] at t1 t3
  have hcr' : '\r' ∉ s.out := by
    intro hm; apply hcr; rw [t1]; exact List.mem_append_left _ hm
  have htext : e'.text = s.out := by
    simp only [Env.text, hx, Option.getD_some]
    exact universalNewlines_of_no_cr _ hcr'
  have hex : e'.exists_ = true := by simp [Env.exists_, hx]
  have hS : Setting e' tail := ⟨hex, t2, by rw [htext]; exact t3⟩
  obtain ⟨ts, a1, a2⟩ := ha
  have hfl := tokenize_flatten e.u a2
  have hl := start_lineStart e' hex
  have hout0 : (start e').out = [] ∧ (start e').outLine = [] :=
    List.append_eq_nil_iff.mp (start_emits e')
  have hsync : Sync e' tail (start e') ts := by
    have base : ∀ hcur, Sync e' tail (start e') ts := fun hcur =>
      ⟨by rw [htext, hout0.1, hout0.2, hfl, ← t1]; rfl, by rw [hfl, hu]; exact a2, start_wf e',
        (by have := (start_marks e').1; unfold diffMarks at this; omega),
        (by have := (start_marks e').2; unfold errMarks at this; omega), hcur⟩
    by_cases hle : ts.flatten.length ≤ tail.length
    · exact base (Or.inl hle)
    · refine base (Or.inr ?_)
      have hln : (start e').lineNumber = 0 := by
        rw [(start_wf e').count, hout0.1]; rfl
      refine ⟨by rw [hln]; exact hl.at_, ?_, hl.lineDiff, hl.lineError⟩
      have hne : s.out ≠ [] := by
        intro hc
        rw [hfl, t1, hc] at hle; simp at hle
      have hnl : '\n' ∈ s.out := by
        rcases t3 with h0 | ⟨c, h0⟩
        · exact absurd h0 hne
        · rw [h0]; simp
      obtain ⟨b, hb, hb'⟩ := firstLine_split hnl
      have hfirst : firstLine ts.flatten = firstLine s.out := by
        rw [hfl, t1, hb, List.append_assoc, firstLine_append hb', List.cons_append,
          firstLine_newline]
        rw [firstLine_append hb', firstLine_newline]
      have hs0 : (snap e')[0]? = some (firstLine s.out) := by
        have hrd : readline s.out = (firstLine s.out ++ ['\n'], b) := by
          conv => lhs; rw [hb]
          rw [readline_of_newline _ _ hb']
        show (readLines e'.text)[0]? = _
        rw [htext, readLines_cons hne, hrd]; simp
      rw [hl.fresh, hl.at_.line, hs0, hfirst]; rfl
  have hb0 : (start e').out ++ (start e').outLine = [] := by rw [hout0.1, hout0.2]; rfl
  obtain ⟨s', g1, g2⟩ := execAll_sync hS os (s := start e') (ts := ts)
    (by rw [hb0, hu]; exact hr) (by rw [hb0, hu]; exact a1) hsync
  refine ⟨s', g1, ?_, C04_snapshot_independent e' e hu os p2 g1 h⟩
  simp [verdict, g2.errors, g2.diffs, hex]

theorem lineCall_pieces (u : Unicode) {o : Op} (h : LineCall o) :
    (∀ ps, Aligned u ps → Aligned u (pieces u o ++ ps)) ∧ '\r' ∉ (pieces u o).flatten ∧
    ((pieces u o).flatten = [] ∨ ∃ b, (pieces u o).flatten = b ++ ['\n']) := by
  cases o with
  | tln x => exact ⟨fun ps hp => aligned_line u h.1 hp, by simp [pieces, h.2], Or.inr ⟨x, by simp [pieces]⟩⟩
  | iln x => exact ⟨fun ps hp => aligned_line u h.1 hp, by simp [pieces, h.2], Or.inr ⟨x, by simp [pieces]⟩⟩
  | anchorln x =>
    exact ⟨fun ps hp => aligned_line u h.1 hp, by simp [pieces, h.2], Or.inr ⟨x, by simp [pieces]⟩⟩
  | header x =>
    exact ⟨fun ps hp => aligned_line u h.1 (aligned_line u (by simp) hp), by simp [pieces, h.2],
      Or.inr ⟨x ++ ['\n'], by simp [pieces]⟩⟩
  | assertln c m =>
    have hc : c = true := h
    subst hc
    exact ⟨fun ps hp => aligned_line u (by decide) hp, by simp [pieces],
      Or.inr ⟨"ok".toList, rfl⟩⟩
  | must x c m =>
    obtain ⟨hc, hx⟩ := h
    subst hc
    refine ⟨fun ps hp => ?_, by simp [pieces, hx.2], Or.inr ⟨" * MUST ".toList ++ x ++ "...".toList ++
      "ok".toList, by simp [pieces]⟩⟩
    exact aligned_cons u (p := " * MUST ".toList ++ x ++ "...".toList) (by simp [hx.1])
      (cut_dots u (" * MUST ".toList ++ x) _) (aligned_line u (x := "ok".toList) (by decide) hp)
  | tlist is p =>
    refine ⟨fun ps hp => ?_, ?_, ?_⟩
    · have hh : ∀ i ∈ is, Clean (p ++ i) := h
      clear h
      show Aligned u (is.flatMap (fun i => [p ++ i, ['\n']]) ++ ps)
      induction is with
      | nil => exact hp
      | cons i is ih =>
        rw [List.flatMap_cons, List.append_assoc]
        exact aligned_line u (hh i (by simp)).1 (ih (fun i hi => hh i (by simp [hi])))
    · have hh : ∀ i ∈ is, Clean (p ++ i) := h
      intro hm
      obtain ⟨l, hl, hm⟩ := List.mem_flatten.mp hm
      obtain ⟨i, hi, hl⟩ := List.mem_flatMap.mp hl
      simp only [List.mem_cons, List.not_mem_nil, or_false] at hl
      rcases hl with rfl | rfl
      · exact (hh i hi).2 hm
      · simp at hm
    · show (is.flatMap (fun i => [p ++ i, ['\n']])).flatten = [] ∨ _
      rcases List.eq_nil_or_concat is with h0 | ⟨is', i, h0⟩
      · left; rw [h0]; rfl
      · right
        refine ⟨(is'.flatMap (fun i => [p ++ i, ['\n']])).flatten ++ (p ++ i), ?_⟩
        simp only [pieces]
        rw [h0]; simp
  | keyvalueln k v =>
    obtain ⟨h1, h2, h3⟩ := h
    refine ⟨fun ps hp => ?_, by simp [pieces, h1.2, h2.2], Or.inr ⟨k ++ ' ' :: v, by simp [pieces]⟩⟩
    refine aligned_cons u h1.1 (cut_blank u k (c := ' ') (by decide) _ ?_)
      (aligned_line u (x := ' ' :: v) (by simp [h2.1]) hp)
    rcases h3 with h3 | ⟨y, h3, h4, h5⟩
    · exact Or.inl h3
    · exact Or.inr ⟨y, h3, by simp [isBlank, h4, h5]⟩
  | tdf tb =>
    refine ⟨fun ps hp => aligned_table u tb h hp, ?_, Or.inr ?_⟩
    · have hp := (printed_pieces u (o := .tdf tb) (before := []) (after := []) trivial).1
      rw [← hp, printed_tdf]
      intro hm
      obtain ⟨l, hl, hm⟩ := List.mem_flatten.mp hm
      obtain ⟨l', hl', rfl⟩ := List.mem_map.mp hl
      have hm' : '\r' ∈ l' := by simpa using hm
      revert hm'
      simp only [tableLines, List.mem_cons, List.mem_map] at hl'
      rcases hl' with rfl | rfl | ⟨i, -, rfl⟩
      · refine barRow_free (by decide) (by decide) _ ?_
        intro c hc
        obtain ⟨c', hc', rfl⟩ := List.mem_map.mp hc
        exact (h c' hc').1.2
      · refine barRow_free (by decide) (by decide) _ ?_
        intro c hc
        obtain ⟨c', hc', rfl⟩ := List.mem_map.mp hc
        intro hm; exact absurd (List.eq_of_mem_replicate hm) (by decide)
      · refine barRow_free (by decide) (by decide) _ ?_
        intro c hc
        obtain ⟨c', hc', rfl⟩ := List.mem_map.mp hc
        intro hm; exact (cellShown_mem u hm).1 rfl
    · have hp := (printed_pieces u (o := .tdf tb) (before := []) (after := []) trivial).1
      rw [← hp, printed_tdf]
      have hne : (tableLines u tb).map (· ++ ['\n']) ≠ [] := by simp [tableLines]
      have h1 := List.dropLast_concat_getLast hne
      rw [← h1, List.flatten_append]
      have h2 := List.getLast_mem hne
      obtain ⟨l, -, hl⟩ := List.mem_map.mp h2
      rw [← hl]
      exact ⟨(((tableLines u tb).map (· ++ ['\n'])).dropLast).flatten ++ l, by simp⟩
  | _ => exact absurd h (by simp [LineCall])

theorem lineCall_all (u : Unicode) (os : List Op) (h : ∀ o ∈ os, LineCall o) :
    ∀ before, AtLineStart before → AllRepeat u os before ∧ Aligned u (allPieces u os before) ∧
      '\r' ∉ (allPieces u os before).flatten := by
  induction os with
  | nil => intro b _; exact ⟨trivial, aligned_nil u, by simp [allPieces]⟩
  | cons o os ih =>
    intro b hb
    have ho := h o (by simp)
    obtain ⟨p1, p2, p3⟩ := lineCall_pieces u ho
    have hlead : (lead b o).flatten = [] ∨ lead b o = [['\n']] := by
      cases o <;> simp only [lead, List.flatten_nil, true_or]
      split <;> simp
    have hb' : AtLineStart (b ++ (lead b o ++ pieces u o).flatten) := by
      rw [List.flatten_append]
      rcases p3 with h0 | ⟨c, h0⟩
      · rw [h0, List.append_nil]
        rcases hlead with h1 | h1
        · rw [h1, List.append_nil]; exact hb
        · rw [h1]; exact Or.inr ⟨b, by simp⟩
      · rw [h0]; exact Or.inr ⟨b ++ (lead b o).flatten ++ c, by simp⟩
    obtain ⟨i1, i2, i3⟩ := ih (fun o ho => h o (by simp [ho])) _ hb'
    refine ⟨⟨?_, i1⟩, ?_, ?_⟩
    · cases o with
      | anchorln x => exact hb
      | keyvalueln k v => exact hb
      | header x =>
        rcases hb with h0 | ⟨c, h0⟩
        · exact Or.inr h0
        · left; rw [h0]; simp
      | assertln c m => exact ho
      | must x c m => exact ho.1
      | tln x => trivial
      | iln x => trivial
      | tlist is p => trivial
      | tdf tb => trivial
      | _ => exact absurd ho (by simp [LineCall])
    · simp only [allPieces]
      rw [List.append_assoc]
      have := p1 _ i2
      rcases hlead with h1 | h1
      · have h2 : lead b o = [] := by
          cases o <;> simp only [lead] at h1 ⊢
          split at h1
          · simp at h1
          · rename_i hn; simp [hn]
        rw [h2] at this ⊢; exact this
      · rw [h1] at this ⊢
        exact aligned_cons u (by decide) (cut_newline u _) this
    · simp only [allPieces]
      rw [List.flatten_append, List.flatten_append]
      intro hm
      simp only [List.mem_append] at hm
      rcases hm with (hm | hm) | hm
      · rcases hlead with h1 | h1
        · rw [h1] at hm; simp at hm
        · rw [h1] at hm; simp at hm
      · exact p2 hm
      · rw [← List.flatten_append] at hm; exact i3 hm

/-- C08 without further hypotheses for tests made of calls that print whole lines (lines, headers,
anchors, lists, key-value lines, tables, assertions that hold). -/
theorem C08_lines_partial (e e' : Env) (os : List Op) (hu : e'.u = e.u) (hl : ∀ o ∈ os, LineCall o)
    {s : St} (h : execAll e os (start e) = some s) (hx : e'.expFile = some s.out) :
    ∃ s', execAll e' os (start e') = some s' ∧ verdict e' s' = .OK ∧ s'.out = s.out := by
  obtain ⟨h1, h2, h3⟩ := lineCall_all e.u os hl [] (Or.inl rfl)
  exact C08_rerun_partial e e' os hu h1 h2 h3 h hx

/-- A program with inline text, a set and an unfinished last line meets the hypotheses of
`C08_rerun_partial`. -/
example : let os : List Op := [.header "# a".toList, .t "foo ".toList, .i "12.5".toList,
      .tln " s".toList, .tset ["x".toList, "y".toList] " * ".toList, .t "rest".toList]
    AllRepeat ascii os [] ∧ Aligned ascii (allPieces ascii os []) ∧
      '\r' ∉ (allPieces ascii os []).flatten := by
  refine ⟨⟨Or.inr rfl, trivial, trivial, trivial, ⟨Or.inr ⟨"# a\n\nfoo 12.5 s".toList, by decide⟩,
    by decide, by decide, Or.inl (by decide)⟩, trivial, trivial⟩, ⟨_, rfl, by decide⟩, by decide⟩

example : ∀ o ∈ [Op.header "# a".toList, .keyvalueln "key:".toList "1".toList,
    .tdf ⟨[("k".toList, ["a".toList])], 1⟩, .must "be 1".toList true "".toList], LineCall o := by
  intro o ho
  simp only [List.mem_cons, List.not_mem_nil, or_false] at ho
  rcases ho with rfl | rfl | rfl | rfl
  · exact ⟨by decide, by decide⟩
  · exact ⟨⟨by decide, by decide⟩, ⟨by decide, by decide⟩, Or.inr ⟨':', by decide⟩⟩
  · intro c hc
    simp only [List.mem_cons, List.not_mem_nil, or_false] at hc
    subst hc
    exact ⟨⟨by decide, by decide⟩, by decide⟩
  · exact ⟨rfl, by decide, by decide⟩

/-! ## C67 -/

/-- C67: an accepted table passes when printed again, whatever is printed before and after it in
whole lines. -/
theorem C67_stable (e e' : Env) (tb : Table) (htb : PlainTable tb) (pre post : List Op)
    (hpre : ∀ o ∈ pre, LineCall o) (hpost : ∀ o ∈ post, LineCall o) (hu : e'.u = e.u) {s : St}
    (h : execAll e (pre ++ [.tdf tb] ++ post) (start e) = some s) (hx : e'.expFile = some s.out) :
    ∃ s', execAll e' (pre ++ [.tdf tb] ++ post) (start e') = some s' ∧ verdict e' s' = .OK ∧
      s'.out = s.out := by
  refine C08_lines_partial e e' _ hu ?_ h hx
  intro o ho
  simp only [List.mem_append, List.mem_singleton] at ho
  rcases ho with (ho | ho) | ho
  · exact hpre o ho
  · subst ho; exact htb
  · exact hpost o ho

example : PlainTable ⟨[("k".toList, ["a\r\nb".toList, " c".toList])], 2⟩ := by
  intro c hc
  simp only [List.mem_cons, List.not_mem_nil, or_false] at hc
  subst hc
  exact ⟨⟨by decide, by decide⟩, by decide⟩

end Verif.Props
