import Verif.Lemmas.Sections

/-! # Sections in any order (C14), sets (C15), tables (C67) -/

namespace Verif.Props
open Verif.Py Verif.Model Verif.Spec Verif.Lemmas

variable (e : Env)

/-! ## C14 -/

/-- C14, general form: every list of sections that each stand in the snapshot is printed without a
difference, in whatever order, however often. -/
theorem C14_standing (raw : Str) (hx : e.expFile = some raw) (ss : List Section)
    (hpl : ∀ x ∈ ss, x.Plain) (hst : ∀ x ∈ ss, StandsIn (fileLines raw) x) :
    ∃ s, execAll e (sectionOps ss) (start e) = some s ∧ s.diffs = 0 ∧ verdict e s = .OK ∧
      s.out = unlines (documentLines ss) := by
  have he : e.exists_ = true := by simp [Env.exists_, hx]
  have hs : snap e = fileLines raw := by rw [snap_eq_fileLines, hx]; rfl
  obtain ⟨s, h1, h2, h3, h4⟩ := sections_run_start e he ss hpl (by rw [hs]; exact hst)
  exact ⟨s, h1, h2, by simp [verdict, h2, h3, he], h4⟩

/-- C14: the snapshot was made by printing the sections `ss`; printing them in any other order
`ss'` is OK.  The headers are distinct, not blank, and do not occur as lines of the sections. -/
theorem C14_any_order (ss ss' : List Section) (hperm : ss'.Perm ss)
    (hx : e.expFile = some (unlines (documentLines ss)))
    (hpl : ∀ x ∈ ss, x.Plain) (hcr : ∀ x ∈ ss, '\r' ∉ x.head ∧ ∀ l ∈ x.body, '\r' ∉ l)
    (hd : (ss.map (·.head)).Nodup) (hne : ∀ x ∈ ss, x.head ≠ [])
    (hb : ∀ x ∈ ss, ∀ y ∈ ss, x.head ∉ y.body) :
    ∃ s, execAll e (sectionOps ss') (start e) = some s ∧ s.diffs = 0 ∧ verdict e s = .OK := by
  have hlines : ∀ l ∈ documentLines ss, '\n' ∉ l ∧ '\r' ∉ l := by
    intro l hl
    have hmem : l = [] ∨ ∃ x ∈ ss, l ∈ x.lines := by
      cases ss with
      | nil => simp [documentLines] at hl
      | cons x xs =>
        rw [documentLines_cons] at hl
        simp only [List.mem_append, List.mem_flatMap, List.mem_cons] at hl
        rcases hl with h | ⟨y, hy, h | h⟩
        · exact Or.inr ⟨x, by simp, h⟩
        · exact Or.inl h
        · exact Or.inr ⟨y, by simp [hy], h⟩
    rcases hmem with h | ⟨x, hx', h⟩
    · subst h; simp
    · simp only [Section.lines, List.mem_cons] at h
      rcases h with h | h | h
      · subst h; exact ⟨(hpl x hx').1.1, (hcr x hx').1⟩
      · subst h; simp
      · exact ⟨((hpl x hx').2 l h).1, (hcr x hx').2 l h⟩
  obtain ⟨s, h1, h2, h3, -⟩ := C14_standing e _ hx ss'
    (fun x h => hpl x (hperm.mem_iff.mp h)) (fun x h => by
      rw [fileLines_unlines _ hlines]
      exact standsIn_document ss hd hne hb x (hperm.mem_iff.mp h))
  exact ⟨s, h1, h2, h3⟩

/-- The printed document is the snapshot used in `C14_any_order`. -/
theorem C14_document (ss : List Section) (hx : e.expFile = some (unlines (documentLines ss)))
    (hpl : ∀ x ∈ ss, x.Plain) (hcr : ∀ x ∈ ss, '\r' ∉ x.head ∧ ∀ l ∈ x.body, '\r' ∉ l)
    (hd : (ss.map (·.head)).Nodup) (hne : ∀ x ∈ ss, x.head ≠ [])
    (hb : ∀ x ∈ ss, ∀ y ∈ ss, x.head ∉ y.body) {s : St}
    (h : execAll e (sectionOps ss) (start e) = some s) :
    some s.out = e.expFile ∧ verdict e s = .OK := by
  obtain ⟨s', h1, -, h3⟩ := C14_any_order e ss ss (List.Perm.refl _) hx hpl hcr hd hne hb
  rw [h] at h1; cases h1
  refine ⟨?_, h3⟩
  have hq : ∀ o ∈ sectionOps ss, quotesOld o = false := by
    intro o ho
    simp only [sectionOps, List.mem_flatMap, List.mem_cons, List.mem_map] at ho
    obtain ⟨x, -, h | ⟨b, -, h⟩⟩ := ho
    · subst h; rfl
    · subst h; rfl
  -- the output of a run does not depend on the snapshot, so any run shows the text
  rw [hx]
  congr 1
  have hlines : ∀ l ∈ documentLines ss, '\n' ∉ l ∧ '\r' ∉ l := by
    intro l hl
    have hmem : l = [] ∨ ∃ x ∈ ss, l ∈ x.lines := by
      cases ss with
      | nil => simp [documentLines] at hl
      | cons x xs =>
        rw [documentLines_cons] at hl
        simp only [List.mem_append, List.mem_flatMap, List.mem_cons] at hl
        rcases hl with h | ⟨y, hy, h | h⟩
        · exact Or.inr ⟨x, by simp, h⟩
        · exact Or.inl h
        · exact Or.inr ⟨y, by simp [hy], h⟩
    rcases hmem with h | ⟨x, hx', h⟩
    · subst h; simp
    · simp only [Section.lines, List.mem_cons] at h
      rcases h with h | h | h
      · subst h; exact ⟨(hpl x hx').1.1, (hcr x hx').1⟩
      · subst h; simp
      · exact ⟨((hpl x hx').2 l h).1, (hcr x hx').2 l h⟩
  obtain ⟨s', g1, -, -, g4⟩ := C14_standing e _ hx ss hpl (fun x hx' => by
      rw [fileLines_unlines _ hlines]
      exact standsIn_document ss hd hne hb x hx')
  rw [h] at g1; cases g1
  exact g4

/-- Without the last hypothesis the claim fails: a body line that looks like the header of another
section attracts the cursor. -/
theorem C14_header_in_body_refuted : ∃ (e : Env) (ss ss' : List Section) (s : St), ss'.Perm ss ∧
    e.expFile = some (unlines (documentLines ss)) ∧ (ss.map (·.head)).Nodup ∧
    execAll e (sectionOps ss') (start e) = some s ∧ verdict e s = .DIFF := by
  refine ⟨⟨ascii, some (unlines (documentLines [⟨"# a".toList, ["# b".toList]⟩,
    ⟨"# b".toList, ["x".toList]⟩])), false, some⟩, [⟨"# a".toList, ["# b".toList]⟩,
    ⟨"# b".toList, ["x".toList]⟩], [⟨"# b".toList, ["x".toList]⟩,
    ⟨"# a".toList, ["# b".toList]⟩], _, List.Perm.swap _ _ _, rfl, by decide, rfl, by decide⟩

example : ∃ s, execAll ⟨ascii, some (unlines (documentLines [⟨"# a".toList, ["1".toList]⟩,
    ⟨"# b".toList, ["x".toList, "y".toList]⟩])), false, some⟩
    (sectionOps [⟨"# b".toList, ["x".toList, "y".toList]⟩, ⟨"# a".toList, ["1".toList]⟩])
    (start ⟨ascii, some (unlines (documentLines [⟨"# a".toList, ["1".toList]⟩,
    ⟨"# b".toList, ["x".toList, "y".toList]⟩])), false, some⟩) = some s ∧ s.diffs = 0 :=
  ⟨_, rfl, by decide⟩

/-! ## C15 -/

/-- C15: `tset`, called at the beginning of a line with line `k` of the snapshot at the cursor: no
difference is marked exactly if the items are the set listed at the cursor; the cursor ends right
behind that list, wherever the items were found; all items are in the output. -/
theorem C15_tset (raw : Str) (hx : e.expFile = some raw) (pre : Str) (items : List Str)
    (hp : ∀ i ∈ items, PlainLine (pre ++ i)) {s : St} {k : Nat} (h : LineStart e s k)
    (hk : k < (fileLines raw).length) :
    ∃ s', (Op.tset items pre).exec e s = some s' ∧
      (diffMarks s' = diffMarks s ↔ SameSet pre items (listedFrom pre (fileLines raw) k)) ∧
      s'.expLineNumber = k + (listedFrom pre (fileLines raw) k).length + 1 ∧
      s'.expLine = (fileLines raw)[k + (listedFrom pre (fileLines raw) k).length]? ∧
      s'.out = s.out ++ unlines (items.map (pre ++ ·)) ∧ errMarks s' = errMarks s ∧
      (diffMarks s' = diffMarks s → LineStart e s' (k + (listedFrom pre (fileLines raw) k).length)) := by
  have hs : snap e = fileLines raw := by rw [snap_eq_fileLines, hx]; rfl
  obtain ⟨s', c, h1, h2, h3, h4, h5, h6, h7, h8, h9, h10, h11⟩ :=
    tset_run e pre items hp h (by rw [hs]; exact hk)
  rw [hs] at h2 h9
  have hsame : diffMarks s' = diffMarks s ↔ extraItems items c = 0 ∧ restItems items c = [] := by
    unfold diffMarks
    rw [h10, h11, h.lineDiff]
    cases restItems items c
    · simp
    · simp; omega
  refine ⟨s', h1, ?_, h2.num, ?_, h7, ?_, ?_⟩
  · rw [hsame, items_same items c h8]
    unfold SameSet
    simp only [h9]
  · rw [h2.line, hs]
  · simp [errMarks, h6, h5, h.lineError]
  · intro hd
    obtain ⟨-, hr⟩ := hsame.mp hd
    refine ⟨h2, h3, h4, ?_, h5⟩
    rw [hr] at h11
    simpa using h11

/-- C15: a test whose first call is `tset` starts at the beginning of line 0. -/
theorem C15_start (raw : Str) (hx : e.expFile = some raw) : LineStart e (start e) 0 :=
  start_lineStart e (by simp [Env.exists_, hx])

example : SameSet " * ".toList ["b".toList, "a".toList]
    (listedFrom " * ".toList (fileLines "x\n * a\n * b\n * a\n# next\n".toList) 1) := by
  constructor
  · decide
  · intro x
    have : listedFrom " * ".toList (fileLines "x\n * a\n * b\n * a\n# next\n".toList) 1 =
      [" * a".toList, " * b".toList, " * a".toList] := by decide
    rw [this]
    simp
    intro h; simp [h]

/-! ## C67 -/

theorem strip_length_le (u : Unicode) (x : Str) : (strip u x).length ≤ x.length := by
  unfold strip
  have h1 := (List.dropWhile_sublist u.isSpace (l := (x.dropWhile u.isSpace).reverse)).length_le
  have h2 := (List.dropWhile_sublist u.isSpace (l := x)).length_le
  simp only [List.length_reverse] at h1 ⊢
  omega

theorem le_foldr_max (l : List Nat) : ∀ n ∈ l, n ≤ l.foldr max 0 := by
  induction l with
  | nil => intro n hn; simp at hn
  | cons a l ih =>
    intro n hn
    simp only [List.foldr_cons]
    rcases List.mem_cons.mp hn with h | h
    · omega
    · have := ih n h; omega

theorem barRow_length (cells : List (Nat × Str)) (h : ∀ c ∈ cells, c.2.length ≤ c.1) :
    (barRow cells).length = 1 + (cells.map (fun c => c.1 + 1)).sum := by
  unfold barRow
  induction cells with
  | nil => rfl
  | cons c cs ih =>
    have h1 := h c (by simp)
    have h2 := ih (fun c hc => h c (by simp [hc]))
    simp only [List.length_cons, List.map_cons, List.flatten_cons, List.length_append,
      List.length_replicate, List.sum_cons, List.length_nil] at h2 ⊢
    omega

/-- C67: the text a table prints is its lines, all of the same length; every cell is the cell's text
on one line, padded with spaces to the width of its column. -/
theorem C67_aligned (u : Unicode) (tb : Table) :
    printed u (.tdf tb) = unlines (tableLines u tb) ∧
    (∀ l ∈ tableLines u tb, l.length = 1 + (tb.cols.map (fun c => colWidth tb.rows c + 1)).sum) ∧
    (∀ c ∈ tb.cols, c.1.length ≤ colWidth tb.rows c ∧
      ∀ i < tb.rows, (cellShown u (c.2.getD i [])).length ≤ colWidth tb.rows c) := by
  have hname : ∀ c : Str × List Str, c.1.length ≤ colWidth tb.rows c := fun c =>
    le_foldr_max _ _ (by simp)
  have hcell : ∀ c : Str × List Str, ∀ i < tb.rows,
      (cellShown u (c.2.getD i [])).length ≤ colWidth tb.rows c := by
    intro c i hi
    have h1 : (cellShown u (c.2.getD i [])).length ≤ (c.2.getD i []).length := by
      unfold cellShown
      refine Nat.le_trans (strip_length_le u _) ?_
      simp
    refine Nat.le_trans h1 (le_foldr_max _ _ ?_)
    simp only [List.map_cons, List.mem_cons, List.mem_map, List.mem_range]
    exact Or.inr ⟨_, ⟨i, hi, rfl⟩, rfl⟩
  refine ⟨rfl, ?_, fun c _ => ⟨hname c, hcell c⟩⟩
  intro l hl
  simp only [tableLines, List.mem_cons, List.mem_map, List.mem_range] at hl
  rcases hl with h | h | ⟨i, hi, h⟩
  · subst h
    rw [barRow_length _ (by
      intro c hc; simp only [List.mem_map] at hc
      obtain ⟨c', -, rfl⟩ := hc; exact hname c')]
    simp [Function.comp_def]
  · subst h
    rw [barRow_length _ (by
      intro c hc; simp only [List.mem_map] at hc
      obtain ⟨c', -, rfl⟩ := hc; simp)]
    simp [Function.comp_def]
  · subst h
    rw [barRow_length _ (by
      intro c hc; simp only [List.mem_map] at hc
      obtain ⟨c', -, rfl⟩ := hc; exact hcell c' i hi)]
    simp [Function.comp_def]

example : tableLines ascii ⟨[("k".toList, ["a".toList, " bcd\n".toList]),
      ("long".toList, ["1".toList, "22".toList])], 2⟩ =
    ["|k    |long|".toList, "|-----|----|".toList, "|a    |1   |".toList,
     "|bcd  |22  |".toList] := by decide

end Verif.Props
