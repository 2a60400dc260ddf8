import Verif.Lemmas.Runs
import Verif.Spec.Lines

/-! # Properties of a test case run (C04–C07, C09–C13, C16, C67) -/

namespace Verif.Props
open Verif.Py Verif.Model Verif.Spec Verif.Lemmas

variable (e : Env)

/-! ## C04 -/

/-- C04: what a run leaves in the output file is the printed text up to its last newline. -/
theorem C04_output (os : List Op) (hq : ∀ o ∈ os, quotesOld o = false) {s : St}
    (h : execAll e os (start e) = some s) : s.out = upToLastNewline (printedAll e.u os []) := by
  obtain ⟨h1, h2⟩ := execAll_emits e hq (start_wf e) h
  rw [← upToLastNewline_of_wf h2, h1, start_emits]

/-- C04: the output does not depend on the content or the existence of the snapshot. -/
theorem C04_snapshot_independent (e' : Env) (hu : e.u = e'.u) (os : List Op)
    (hq : ∀ o ∈ os, quotesOld o = false) {s s' : St} (h : execAll e os (start e) = some s)
    (h' : execAll e' os (start e') = some s') : s.out = s'.out := by
  rw [C04_output e os hq h, C04_output e' os hq h', hu]

/-- The calls excluded in C04 print the value found in the snapshot. -/
theorem C04_quoting_refuted : ∃ (e e' : Env) (o : Op) (s s' : St), e.u = e'.u ∧
    e.pointErrorPos = e'.pointErrorPos ∧ execAll e [o] (start e) = some s ∧
    execAll e' [o] (start e') = some s' ∧ s.out ≠ s'.out := by
  refine ⟨⟨ascii, none, false, some⟩, ⟨ascii, some "2\n".toList, false, some⟩,
    .ifloatln "1".toList none, _, _, rfl, rfl, rfl, rfl, ?_⟩
  decide

def exampleEnv : Env := ⟨ascii, some "# a\n\nfoo 1\n".toList, false, fun _ => none⟩

example : ∃ s, execAll exampleEnv [.header "# a".toList, .t "foo ".toList, .tln "2".toList,
    .tlist ["x".toList] " * ".toList, .i "rest".toList] (start exampleEnv) = some s ∧
    s.out = "# a\n\nfoo 2\n * x\n".toList := ⟨_, rfl, by decide⟩

/-! ## C05 -/

/-- C05: an ignored call changes neither the number of lines marked as different nor the number of
lines marked as errors, in any state and for any snapshot. -/
theorem C05_no_mark {o : Op} (ho : ignored o = true) {s s' : St} (h : o.exec e s = some s') :
    diffMarks s' = diffMarks s ∧ errMarks s' = errMarks s := ignored_marks e ho h

/-- C05: a test that makes only ignored calls passes with every snapshot. -/
theorem C05_ok (os : List Op) (ho : ∀ o ∈ os, ignored o = true) (hx : e.expFile ≠ none) {s : St}
    (h : execAll e os (start e) = some s) : verdict e s = .OK := by
  have key : ∀ (os : List Op) (s s' : St), (∀ o ∈ os, ignored o = true) →
      execAll e os s = some s' → diffMarks s' = diffMarks s ∧ errMarks s' = errMarks s :=
    fun os s s' ho h => foldlM_rel
      (R := fun s s' => diffMarks s' = diffMarks s ∧ errMarks s' = errMarks s)
      (fun _ => ⟨rfl, rfl⟩) (fun _ _ _ h1 h2 => ⟨h2.1.trans h1.1, h2.2.trans h1.2⟩) _ _
      (fun s o s' hm h => ignored_marks e (ho o hm) h) h
  obtain ⟨h1, h2⟩ := key os _ _ ho h
  rw [(start_marks e).1] at h1
  rw [(start_marks e).2] at h2
  have hd : s.diffs = 0 := by unfold diffMarks at h1; omega
  have he : s.errors = 0 := by unfold errMarks at h2; omega
  have hx' : e.exists_ = true := by
    unfold Env.exists_; cases hc : e.expFile with
    | none => exact absurd hc hx
    | some _ => rfl
  simp [verdict, hd, he, hx']

example : ∃ s, execAll exampleEnv [.iln "something else".toList, .ifloatln "1.000".toList none,
    .assertln true none] (start exampleEnv) = some s ∧ verdict exampleEnv s = .OK :=
  ⟨_, rfl, by decide⟩

/-! ## C06 and C07 -/

theorem lines_run (ps : List (Bool × Str)) (hp : ∀ p ∈ ps, PlainLine p.2) :
    ∀ (k : Nat) (s : St), LineStart e s (min k (snap e).length) →
    ∃ s', execAll e (lineOps ps) s = some s' ∧
      s'.out = s.out ++ unlines (ps.map (·.2)) ∧ s'.errors = s.errors ∧
      s'.diffs = s.diffs +
        ((ps.zipIdx k).map (fun p => p.1.1 && decide ((snap e)[p.2]? ≠ some p.1.2))).count true ∧
      (e.pointErrorPos = false → s'.rep = s.rep ++ (ps.zipIdx k).map (reportLine (snap e))) := by
  induction ps with
  | nil => intro k s h; exact ⟨s, rfl, by simp [unlines], rfl, by simp, by simp⟩
  | cons p ps ih =>
    intro k s h
    obtain ⟨c, l⟩ := p
    obtain ⟨hn, hz⟩ := hp (c, l) (by simp)
    obtain ⟨s1, e1, a1, o1, -, r1, d1, p1, -⟩ := line_step e c hn hz h
    have hmin : min (min k (snap e).length + 1) (snap e).length = min (k + 1) (snap e).length := by
      omega
    rw [hmin] at a1
    have hget : (snap e)[min k (snap e).length]? = (snap e)[k]? := by
      by_cases hk : k ≤ (snap e).length
      · rw [Nat.min_eq_left hk]
      · rw [Nat.min_eq_right (by omega)]
        rw [List.getElem?_eq_none (by omega), List.getElem?_eq_none (by omega)]
    rw [hget] at d1 p1
    obtain ⟨s2, e2, o2, r2, d2, p2⟩ := ih (fun p hq => hp p (by simp [hq])) (k + 1) s1 a1
    refine ⟨s2, ?_, ?_, r2.trans r1, ?_, ?_⟩
    · have h1 : (if c = true then Op.tln l else Op.iln l).exec e s = some s1 := by
        cases c <;> simpa [Op.exec] using e1
      simp only [execAll, lineOps, List.map_cons, List.foldlM_cons, h1]
      exact e2
    · rw [o2, o1]; simp [unlines]
    · rw [d2, d1]
      simp only [List.zipIdx_cons, List.map_cons, List.count_cons, beq_iff_eq]
      have hc : decide (some l ≠ (snap e)[k]?) = decide ((snap e)[k]? ≠ some l) := by
        simp [eq_comm]
      rw [hc]; omega
    · intro hp'
      rw [p2 hp', p1 hp']
      simp only [List.zipIdx_cons, List.map_cons, List.append_assoc, List.singleton_append]
      congr 2
      simp only [lineReport, reportLine]
      have hc : decide (some l ≠ (snap e)[k]?) = decide ((snap e)[k]? ≠ some l) := by
        simp [eq_comm]
      rw [hc]; rfl

/-- C06: the k-th line is marked exactly if it is checked and differs from the k-th line of the
snapshot; the report shows exactly these lines as differences and the difference count is their
number. -/
theorem C06_exact (raw : Str) (hx : e.expFile = some raw) (ps : List (Bool × Str))
    (hp : ∀ p ∈ ps, PlainLine p.2) :
    ∃ s, execAll e (lineOps ps) (start e) = some s ∧ s.out = unlines (ps.map (·.2)) ∧
      s.errors = 0 ∧ s.diffs = (differs (fileLines raw) ps).count true ∧
      (e.pointErrorPos = false → s.rep = ps.zipIdx.map (reportLine (fileLines raw))) ∧
      verdict e s = if true ∈ differs (fileLines raw) ps then .DIFF else .OK := by
  have he : e.exists_ = true := by simp [Env.exists_, hx]
  have hs : snap e = fileLines raw := by rw [snap_eq_fileLines, hx]; rfl
  have h0 := start_lineStart e he
  obtain ⟨s, h1, h2, h3, h4, h5⟩ := lines_run e ps hp 0 (start e) (by simpa using h0)
  have hc := core_start e
  have c1 : (start e).out = [] := congrArg Core.out hc
  have c2 : (start e).errors = 0 := congrArg Core.errors hc
  have c3 : (start e).diffs = 0 := congrArg Core.diffs hc
  have c4 : (start e).rep = [] := congrArg Core.rep hc
  rw [hs, c3, Nat.zero_add] at h4
  rw [hs, c4, List.nil_append] at h5
  refine ⟨s, h1, by simp [h2, c1], by rw [h3, c2], h4, h5, ?_⟩
  have h4' : s.diffs = (differs (fileLines raw) ps).count true := h4
  have hiff : true ∈ differs (fileLines raw) ps ↔ s.diffs ≠ 0 := by
    rw [h4', ← List.count_pos_iff]; omega
  simp only [verdict, h3, c2, he]
  by_cases hd : s.diffs = 0
  · simp [hd, hiff]
  · simp [hd, hiff]

example : differs (fileLines "a\nb\n".toList)
    [(true, "a".toList), (true, "x".toList), (true, "c".toList), (false, "d".toList)] =
    [false, true, true, false] := by decide

/-- C07: the reading "OK implies the complete snapshot" is refuted: a test that prints a strict
prefix of its snapshot (here: nothing at all) is OK. -/
theorem C07_whole_refuted : ∃ (e : Env) (ls : List Str) (s : St), (∀ l ∈ ls, PlainLine l) ∧
    execAll e (lineOps (ls.map (fun l => (true, l)))) (start e) = some s ∧ verdict e s = .OK ∧
    some s.out ≠ e.expFile := by
  refine ⟨⟨ascii, some "a\nb\n".toList, false, some⟩, ["a".toList], _, ?_, rfl, rfl, ?_⟩
  · intro l hl; simp at hl; subst hl; simp [PlainLine]
  · decide

/-- C07, the part that holds: a test that prints checked lines is OK exactly if its lines are the
first lines of the snapshot.  What is missing from the full claim is that nothing compares the
end of the output with the end of the snapshot. -/
theorem C07_prefix_partial (raw : Str) (hx : e.expFile = some raw) (ls : List Str)
    (hp : ∀ l ∈ ls, PlainLine l) :
    ∃ s, execAll e (lineOps (ls.map (fun l => (true, l)))) (start e) = some s ∧
      (verdict e s = .OK ↔ ls <+: fileLines raw) := by
  obtain ⟨s, h1, -, -, -, -, h6⟩ := C06_exact e raw hx (ls.map (fun l => (true, l)))
    (by intro p hp'; simp at hp'; obtain ⟨l, hl, rfl⟩ := hp'; exact hp l hl)
  refine ⟨s, h1, ?_⟩
  have hok : verdict e s = .OK ↔ ¬ true ∈ differs (fileLines raw) (ls.map (fun l => (true, l))) := by
    rw [h6]; split <;> simp_all
  rw [hok]
  constructor
  · intro h
    rw [List.prefix_iff_getElem?]
    intro i hi
    apply Classical.byContradiction
    intro hne
    apply h
    unfold differs
    rw [List.mem_map]
    refine ⟨((true, ls[i]), i), ?_, by simpa using hne⟩
    rw [List.mem_zipIdx_iff_getElem?]
    simp [hi]
  · intro h hc
    unfold differs at hc
    rw [List.mem_map] at hc
    obtain ⟨⟨⟨c, l⟩, i⟩, hm, hd⟩ := hc
    rw [List.mem_zipIdx_iff_getElem?] at hm
    simp at hm hd
    obtain ⟨hm, -⟩ := hm
    apply hd.2
    obtain ⟨t, ht⟩ := h
    rw [← ht, List.getElem?_append_left]
    · exact hm
    · rcases Nat.lt_or_ge i ls.length with h | h
      · exact h
      · simp [h] at hm

/-- C07: with as many lines as the snapshot, an OK output is the snapshot. -/
theorem C07_same_length_partial (raw : Str) (hx : e.expFile = some raw) (ls : List Str)
    (hp : ∀ l ∈ ls, PlainLine l) (hlen : (fileLines raw).length ≤ ls.length) {s : St}
    (h : execAll e (lineOps (ls.map (fun l => (true, l)))) (start e) = some s)
    (hok : verdict e s = .OK) : s.out = unlines (fileLines raw) := by
  obtain ⟨s', h1, h2⟩ := C07_prefix_partial e raw hx ls hp
  rw [h] at h1; cases h1
  have hpre := h2.mp hok
  have : ls = fileLines raw := hpre.eq_of_length (by have := hpre.length_le; omega)
  rw [← this]
  obtain ⟨s', h1, h3, -⟩ := C06_exact e raw hx (ls.map (fun l => (true, l)))
    (by intro p hp'; simp at hp'; obtain ⟨l, hl, rfl⟩ := hp'; exact hp l hl)
  rw [h] at h1; cases h1
  rw [h3]; simp [Function.comp_def]

example : ["a".toList, "b".toList] <+: fileLines "a\nb\nc\n".toList := by decide

/-! ## C09 -/

/-- C09 is refuted as stated: the mark of a line that is never finished is lost. -/
theorem C09_fail_refuted : ∃ (e : Env) (os : List Op) (s : St), Op.fail ∈ os ∧
    execAll e os (start e) = some s ∧ verdict e s = .OK := by
  refine ⟨⟨ascii, some "x\n".toList, false, some⟩, [.t "x".toList, .fail], _, by simp, rfl, rfl⟩

/-- C09 for `fail()` (partial): the result is FAIL if any line is finished after the call. What is
missing is the case where the test ends on the line on which `fail()` was called. -/
theorem C09_fail_partial (a b : List Op) {s1 s2 : St} (h1 : execAll e a (start e) = some s1)
    (h2 : execAll e (a ++ .fail :: b) (start e) = some s2) (hout : s2.out ≠ s1.out) :
    verdict e s2 = .FAIL := by
  simp only [execAll, List.foldlM_append, List.foldlM_cons, bind, Option.bind_eq_some_iff] at h2
  obtain ⟨s1', h1', sf, hf, h2⟩ := h2
  have hs : s1' = s1 := Option.some.inj (h1'.symm.trans h1)
  subst hs
  simp only [Op.exec, Option.some.injEq] at hf
  subst hf
  have hk := keepsErrors_execAll e (os := b) h2
  rcases hk.2 (by simp [fail_lineError]) with h | ⟨-, h⟩
  · have : s2.errors ≠ 0 := by omega
    simp [verdict, this]
  · exact absurd (h.trans (by simp)) hout

/-- C09: a false assertion or an exceeded time limit always makes the test fail. -/
theorem C09_assert (a b : List Op) (o : Op) (ho : marksError o = true) (hf : o ≠ .fail) {s : St}
    (h : execAll e (a ++ o :: b) (start e) = some s) : verdict e s = .FAIL := by
  simp only [execAll, List.foldlM_append, List.foldlM_cons, bind, Option.bind_eq_some_iff] at h
  obtain ⟨s1, h1, s2, h2, h3⟩ := h
  have := marksError_errors e ho hf h2
  have h4 := (keepsErrors_execAll e (os := b) h3).1
  have : s.errors ≠ 0 := by omega
  simp [verdict, this]

example : ∃ s1 s2, execAll exampleEnv [.t "x".toList] (start exampleEnv) = some s1 ∧
    execAll exampleEnv ([.t "x".toList] ++ .fail :: [.tln "y".toList]) (start exampleEnv) = some s2 ∧
    s2.out ≠ s1.out :=
  ⟨_, _, rfl, rfl, by decide⟩
example : marksError (.assertln false none) = true ∧ Op.assertln false none ≠ .fail := by
  constructor
  · rfl
  · intro h; cases h

/-! ## C10 -/

/-- C10 is refuted for messages with a NUL character: the handler hangs printing the message. -/
theorem C10_nul_refuted : ∃ (e : Env) (x : Test), x.raises.isSome ∧
    execAll e x.ops (start e) ≠ none ∧ runTest e x = none := by
  refine ⟨⟨ascii, none, false, some⟩, ⟨[], some (['\x00'], [])⟩, rfl, by simp [execAll], rfl⟩

/-- C10 (partial: messages and tracebacks without NUL): a test that raises ends as FAIL, the partial
line it printed before is written, and the message and the traceback follow. -/
theorem C10_raise_partial (ops : List Op) (msg tb : Str) (hm : '\x00' ∉ msg) (ht : '\x00' ∉ tb)
    {s0 : St} (h : execAll e ops (start e) = some s0) :
    ∃ s, runTest e ⟨ops, some (msg, tb)⟩ = some s ∧ verdict e s = .FAIL ∧
      s.out = s0.out ++ s0.outLine ++ "\ntest raised exception ".toList ++ msg ++ ":\n".toList ++
        tb ++ ['\n'] := by
  obtain ⟨s1, h1⟩ := iln_total e (x := []) (by simp) s0
  have hmsg : '\x00' ∉ "test raised exception ".toList ++ msg ++ [':'] := by
    simp only [List.mem_append, not_or]
    exact ⟨⟨by decide, hm⟩, by decide⟩
  obtain ⟨s2, h2⟩ := iln_total e hmsg (Model.fail s1)
  obtain ⟨s3, h3⟩ := iln_total e ht s2
  refine ⟨s3, ?_, ?_, ?_⟩
  · simp only [runTest, h, handler, h1, h2, h3, bind, Option.bind_some]
  · have e2 := fail_then_iln e h2
    have e3 := (keepsErrors_iln e h3).1
    have : s3.errors ≠ 0 := by omega
    simp [verdict, this]
  · have m1 := iln_emits e h1
    have m2 := iln_emits e h2
    have m3 := iln_emits e h3
    unfold Emits at m1 m2 m3
    rw [iln_ends e h3, m2] at m3
    have hf : (Model.fail s1).out ++ (Model.fail s1).outLine = s1.out ++ s1.outLine := by simp
    rw [hf, m1] at m3
    rw [← List.append_nil s3.out, m3]
    simp

example : ∃ s, runTest exampleEnv ⟨[.t "foo".toList], some ("boom".toList, "trace".toList)⟩ = some s ∧
    s.out = "foo\ntest raised exception boom:\ntrace\n".toList := ⟨_, rfl, by decide⟩

/-! ## C11 -/

/-- C11: without a marking call and without an exception the result is not FAIL. -/
theorem C11_no_cause (ops : List Op) (ho : ∀ o ∈ ops, marksError o = false) {s : St}
    (h : runTest e ⟨ops, none⟩ = some s) : verdict e s ≠ .FAIL := by
  simp only [runTest, bind, Option.bind_eq_some_iff] at h
  obtain ⟨s0, h0, h1⟩ := h
  simp only [Option.some.injEq] at h1
  subst h1
  have := execAll_errMarks e ho h0
  rw [(start_marks e).2] at this
  have he : s0.errors = 0 := by unfold errMarks at this; omega
  unfold verdict
  simp only [he, ne_eq, not_true_eq_false, if_false]
  split <;> simp

example : ∃ s, runTest exampleEnv ⟨[.tln "zzz".toList, .tset ["q".toList] [], .diff, .tln []],
    none⟩ = some s ∧ verdict exampleEnv s = .DIFF := ⟨_, rfl, by decide⟩

/-! ## C12 -/

/-- C12: without a snapshot file no test, raising or not, is OK. -/
theorem C12_never_ok (x : Test) (hx : e.expFile = none) {s : St} (_h : runTest e x = some s) :
    verdict e s ≠ .OK := by
  have he : e.exists_ = false := by simp [Env.exists_, hx]
  unfold verdict
  split
  · simp
  · simp [he]

/-- C12: without a snapshot file no line is marked as a difference, unless the test calls `diff()`
itself. -/
theorem C12_no_diff (ops : List Op) (hx : e.expFile = none) (hd : Op.diff ∉ ops) {s : St}
    (h : execAll e ops (start e) = some s) : s.diffs = 0 := by
  have he : e.exists_ = false := by simp [Env.exists_, hx]
  have key := foldlM_rel
    (R := fun s s' => s.expLine = none → s'.expLine = none ∧ diffMarks s' = diffMarks s)
    (fun _ h => ⟨h, rfl⟩) (fun _ _ _ h1 h2 h =>
      ⟨(h2 (h1 h).1).1, (h2 (h1 h).1).2.trans (h1 h).2⟩) _ ops
    (fun s o s' hm h => no_file_exec e he (fun hc => hd (hc ▸ hm)) h) h
  have hl : (start e).expLine = none := by
    simp [start, resetExpReader, nextExpLine, he]
  have := (key hl).2
  rw [(start_marks e).1] at this
  unfold diffMarks at this; omega

example : ∃ s, execAll ⟨ascii, none, false, some⟩ [.tln "a".toList, .tset ["b".toList] []]
    (start ⟨ascii, none, false, some⟩) = some s ∧
    verdict ⟨ascii, none, false, some⟩ s = .DIFF := ⟨_, rfl, by decide⟩

/-! ## C13 -/

/-- C13: in every reachable state the cursor is on a line (or at the end of the file), and a
search takes it to the right line. -/
theorem C13_seek (raw : Str) (hx : e.expFile = some raw) (ops : List Op) {s : St}
    (h : execAll e ops (start e) = some s) (p : Str → Bool) :
    ∃ k j, k ≤ (fileLines raw).length ∧ s.expLineNumber = k + 1 ∧ s.expLine = (fileLines raw)[k]? ∧
      AnchorTarget p (fileLines raw) k j ∧
      (seek e p 0 none s).expLineNumber = j + 1 ∧
      (seek e p 0 none s).expLine = (fileLines raw)[j]? := by
  have he : e.exists_ = true := by simp [Env.exists_, hx]
  have hs : snap e = fileLines raw := by rw [snap_eq_fileLines, hx]; rfl
  obtain ⟨k, hk⟩ := execAll_at e h ⟨0, (start_at e he).1⟩
  obtain ⟨h1, -⟩ := seek_at e hk p
  have h2 := seekPos_spec p (snap e) k hk.le
  rw [← hs]
  exact ⟨k, _, hk.le, hk.num, hk.line, h2, h1.num, h1.line⟩

/-- C13: `anchorln` searches the line, `anchor` the prefix, and then print. -/
theorem C13_anchors (a : Str) (s : St) :
    (Op.anchorln a).exec e s = (Op.tln a).exec e (seek e (fun l => decide (l = a)) 0 none s) ∧
    (Op.anchor a).exec e s = (Op.t a).exec e (seek e (fun l => a.isPrefixOf l) 0 none s) :=
  ⟨rfl, rfl⟩

/-- C13: consequence: printing an anchor line that occurs in the snapshot marks no difference. -/
theorem C13_anchorln_found (raw : Str) (hx : e.expFile = some raw) (ops : List Op) {s s' : St}
    (h : execAll e ops (start e) = some s) (a : Str) (ha : PlainLine a)
    (hmem : a ∈ fileLines raw) (hfresh : s.expLine ≠ some a)
    (h' : (Op.anchorln a).exec e s = some s') : diffMarks s' = diffMarks s := by
  have he : e.exists_ = true := by simp [Env.exists_, hx]
  have hs : snap e = fileLines raw := by rw [snap_eq_fileLines, hx]; rfl
  obtain ⟨k, hk⟩ := execAll_at e h ⟨0, (start_at e he).1⟩
  obtain ⟨h1, -, -, h4⟩ := seek_at e hk (fun l => decide (l = a))
  have h2 := seekPos_spec (fun l => decide (l = a)) (snap e) k hk.le
  have hf : Fresh e (seek e (fun l => decide (l = a)) 0 none s) := by
    apply h4
    intro l hl
    simp only [decide_eq_false_iff_not]
    rintro rfl
    exact hfresh (hk.line.trans hl)
  have hat : (snap e)[seekPos (fun l => decide (l = a)) (snap e) k]? = some a := by
    rcases h2 with ⟨l, -, g1, g2, -⟩ | ⟨-, l, g1, g2, -⟩ | ⟨g, -⟩
    · simp at g2; rw [g1, g2]
    · simp at g2; rw [g1, g2]
    · have := g a (hs ▸ hmem); simp at this
  obtain ⟨ts, hts⟩ := tokenize_nul_free e.u ha.2
  have hcore := core_seek e (fun l => decide (l = a)) 0 none s
  simp only [Op.exec, opAnchorln, seekLine] at h'
  rw [opTln_eq e hts] at h'
  have htoks : Toks e (seek e (fun l => decide (l = a)) 0 none s) (some a) := by
    unfold Toks; rw [hf, h1.line, hat]; rfl
  obtain ⟨x, x1, x2, x3, -, -⟩ := feedLine e he true ts a hts ha.1 (some a) _
    (by intro y hy; cases hy; exact ha.1) htoks
  rw [x1] at h'
  cases h'
  rw [← diffMarks_of_core hcore]
  simp only [diffMarks, commitLine_diffs, commitLine_lineDiff, x2.diffs]
  rw [x3]
  simp

example : AnchorTarget (fun l => decide (l = ['b'])) [['a'], ['b'], ['a'], ['b']] 2 3 ∧
    AnchorTarget (fun l => decide (l = ['a'])) [['a'], ['b'], ['c']] 1 0 ∧
    AnchorTarget (fun l => decide (l = ['z'])) [['a'], ['b'], ['c']] 1 1 := by
  refine ⟨Or.inl ⟨_, by omega, rfl, rfl, ?_⟩, Or.inr (Or.inl ⟨?_, _, rfl, rfl, ?_⟩),
    Or.inr (Or.inr ⟨by decide, rfl⟩)⟩
  · intro i x h1 h2 h3
    have : i = 2 := by omega
    subst this; simp at h3; subst h3; decide
  · intro i x h1 h2
    match i, h1, h2 with
    | 1, _, h2 => simp at h2; subst h2; decide
    | 2, _, h2 => simp at h2; subst h2; decide
    | i + 3, _, h2 => simp at h2
  · intro i x h1; omega

/-! ## C16 -/

/-- C16: the committed lines of a run: each of them is in the output once and in the report once
(plus the caret line if that is switched on), and the counters count the marked ones. -/
theorem C16_report (ops : List Op) {s : St} (h : execAll e ops (start e) = some s) :
    ∃ ls : List LogLine, s.out = unlines (ls.map (·.text)) ∧
      s.rep = (ls.map (LogLine.shown e.pointErrorPos)).flatten ∧
      s.errors = ls.countP (·.err) ∧ s.diffs = ls.countP (·.diff) ∧ s.lineNumber = ls.length := by
  obtain ⟨ls, hl⟩ := execAll_commits e h
  have hc := core_start e
  have c1 : (start e).out = [] := congrArg Core.out hc
  have c2 : (start e).errors = 0 := congrArg Core.errors hc
  have c3 : (start e).diffs = 0 := congrArg Core.diffs hc
  have c4 : (start e).rep = [] := congrArg Core.rep hc
  have c5 : (start e).lineNumber = 0 := congrArg Core.lineNumber hc
  refine ⟨ls, ?_, ?_, ?_, ?_, ?_⟩
  · rw [hl.out, c1]; simp [unlines, Function.comp_def]
  · rw [hl.rep, c4]; simp
  · rw [hl.errors, c2]; simp
  · rw [hl.diffs, c3]; simp
  · rw [hl.lineNumber, c5]; simp

/-- C16: in every state, a call that marks no error commits lines of which at most the first is
marked '!', and that one exactly if an error was pending on the open line. -/
theorem C16_error_lines {o : Op} (ho : marksError o = false) {s s' : St}
    (h : o.exec e s = some s') :
    ∃ ls : List LogLine, s'.out = s.out ++ unlines (ls.map (·.text)) ∧
      s'.rep = s.rep ++ (ls.map (LogLine.shown e.pointErrorPos)).flatten ∧
      match ls with
      | [] => s'.lineError = s.lineError
      | l :: rest => l.err = s.lineError.isSome ∧ (∀ x ∈ rest, x.err = false) ∧
          s'.lineError = none := by
  obtain ⟨ls, hl, hq⟩ := exec_commits e h
  refine ⟨ls, ?_, hl.rep, ?_⟩
  · rw [hl.out]; simp [unlines, Function.comp_def]
  · have := hq ho
    cases ls with
    | nil => exact this
    | cons l rest => exact this

/-- C16: a call that marks an error leaves the open line marked or has reported a line as error. -/
theorem C16_error_marked {o : Op} (ho : marksError o = true) {s s' : St}
    (h : o.exec e s = some s') : s.errors < s'.errors ∨ s'.lineError.isSome = true := by
  by_cases hf : o = .fail
  · subst hf
    simp only [Op.exec, Option.some.injEq] at h
    subst h
    right; simp [fail_lineError]
  · exact Or.inl (marksError_errors e ho hf h)

example : ∃ s, execAll exampleEnv [.tln "# a".toList, .fail, .tln [], .tln "x".toList, .iln "y".toList]
    (start exampleEnv) = some s ∧ s.rep =
      ["  # a".toList, "! ".toList ++ List.replicate 60 ' ' ++ " | ".toList,
       "? x".toList ++ List.replicate 59 ' ' ++ " | foo 1".toList, "  y".toList] :=
  ⟨_, rfl, by decide⟩

end Verif.Props
