import Verif.Lemmas.Review

/-! # Properties of reviewing and accepting (C17–C22, C72)

`exp` and `out` are the snapshot directory and the output directory. -/

namespace Verif.Props
open Verif.Py Verif.Model Verif.Spec Verif.Lemmas

/-! ### A small project -/

private def exp0 : Path := ["books".toList]
private def out0 : Path := ["books".toList, ".out".toList]
private def nm : Str := "t/a".toList

/-- A project with a snapshot and a resource of the test `t/a`, a fresh output with another resource,
and an unrelated test `t/b`. -/
private def project : FS := [
  (["books".toList], .dir),
  (["books".toList, "t".toList], .dir),
  (["books".toList, "t".toList, "a.md".toList], .file "old".toList),
  (["books".toList, "t".toList, "a".toList], .dir),
  (["books".toList, "t".toList, "a".toList, "x.png".toList], .file "oldpic".toList),
  (["books".toList, "t".toList, "b.md".toList], .file "bsnap".toList),
  (["books".toList, ".out".toList], .dir),
  (["books".toList, ".out".toList, "t".toList], .dir),
  (["books".toList, ".out".toList, "t".toList, "a.md".toList], .file "new".toList),
  (["books".toList, ".out".toList, "t".toList, "a".toList], .dir),
  (["books".toList, ".out".toList, "t".toList, "a".toList, "x.png".toList], .file "newpic".toList),
  (["books".toList, ".out".toList, "t".toList, "b.md".toList], .file "bout".toList)]

/-- Well-formedness of a listed file system can be checked entry by entry. -/
private theorem wf_of_all {fs : FS}
    (h : ∀ e ∈ fs, e.1.dropLast = [] ∨ fs.get e.1.dropLast = some .dir)
    (hroot : fs.get [] = some .dir) : fs.WellFormed := by
  intro p c hs
  obtain ⟨n, hn⟩ : ∃ n, (p ++ [c], n) ∈ fs := by
    clear h hroot
    induction fs with
    | nil => cases hs
    | cons e es ih =>
      obtain ⟨k, m⟩ := e
      rw [get_cons] at hs
      split at hs
      · rename_i he; exact ⟨m, by rw [he]; exact List.mem_cons_self⟩
      · obtain ⟨n, hn⟩ := ih hs
        exact ⟨n, List.mem_cons_of_mem _ hn⟩
  have := h _ hn
  simp only [List.dropLast_concat] at this
  rcases this with rfl | h
  · exact hroot
  · exact h

private def project' : FS := ([], .dir) :: project

private theorem ready0 : Ready project' exp0 out0 nm where
  wf := wf_of_all (by decide) (by decide)
  output := ⟨"new".toList, by decide⟩
  place := by decide
  md := by decide
  dir := by
    intro text
    rw [show project'.get (resourceDir exp0 nm) = some .dir by decide]
    simp
  odir := by
    intro text
    rw [show project'.get (resourceDir out0 nm) = some .dir by decide]
    simp

private theorem apart0 : Apart exp0 out0 nm := Or.inl ⟨by decide, by decide⟩

/-! ### C17: a failed test is never accepted -/

/-- Whatever the configuration and whatever the user enters, reviewing a failed test changes nothing
on disk, and the result stays FAIL (unless the input ends). -/
theorem C17_fail_not_accepted (cfg : Config) (exp out : Path) (name : Str) (answers : List Str)
    (fs fs' : FS) (e : ReviewEnd) (rest : List Str)
    (h : caseReview cfg exp out name (.res .FAIL) answers fs = (fs', e, rest)) :
    fs' = fs ∧ (e = .eof ∨ ∃ q, q ≠ .FREEZE ∧ e = .done (.res .FAIL) q) := by
  have hi : ∀ as q r, interact (.res .FAIL) as = some (q, r) → q ≠ .FREEZE := by
    intro as
    induction as with
    | nil => intro q r h; cases h
    | cons a as ih =>
      intro q r h
      simp only [interact, ne_eq, not_true_eq_false, and_false, if_false] at h
      split at h
      · cases h; simp
      · split at h
        · cases h; simp
        · exact ih q r h
  unfold caseReview at h
  dsimp only at h
  split at h
  · cases h; exact ⟨rfl, Or.inl rfl⟩
  · rename_i q r hq
    have hne : q ≠ .FREEZE := by
      split at hq
      · exact hi _ _ _ hq
      · cases hq; simp
    rw [if_neg (by simp [hne])] at h
    cases h
    exact ⟨rfl, Or.inr ⟨q, hne, rfl⟩⟩

/-- The user types `a`, and every flag is set: nothing is accepted. -/
example : (caseReview ⟨true, true, true, true, false, false⟩ exp0 out0 nm (.res .FAIL)
    ["a".toList, "c".toList] project').2.1 = .done (.res .FAIL) .NONE := by decide

/-! ### C18: snapshots change on acceptance only -/

private theorem asked_iff (cfg : Config) (r : Result) :
    (cfg.alwaysInteractive || (decide (Raw.res r ≠ .res .OK) && cfg.interactive)) = true ↔
      Asked cfg r := by
  simp [Asked]

/-- Nothing on disk changes if the result is not accepted, and the result is reported as it was. -/
theorem C18_not_accepted (cfg : Config) (exp out : Path) (name : Str) (r : Result)
    (answers : List Str) (fs : FS) (hn : ¬ Accepts cfg r answers) (hi : ¬ InputEnds cfg r answers) :
    ∃ q rest, caseReview cfg exp out name (.res r) answers fs = (fs, .done (.res r) q, rest) := by
  have he := interact_eq r answers
  simp only [Accepts, not_or] at hn
  obtain ⟨n1, n2, n3⟩ := hn
  unfold caseReview
  dsimp only
  by_cases hq : Asked cfg r
  · rw [if_pos ((asked_iff cfg r).mpr hq)]
    rcases hd : decision r answers with _ | a
    · exact absurd ⟨hq, hd⟩ hi
    · rw [hd] at he
      have ha : a ≠ "a".toList := fun h => n1 ⟨hq, by rw [hd, h]⟩
      simp only [Option.map_some, if_neg ha, Option.map_eq_some_iff] at he
      obtain ⟨⟨q, rest⟩, h1, h2⟩ := he
      rw [h1]
      have hqf : q ≠ .FREEZE := by
        dsimp only at h2
        rw [h2]
        split <;> simp
      dsimp only
      rw [if_neg (by simp only [Raw.res.injEq, not_or]; exact ⟨hqf, n2, n3⟩)]
      exact ⟨q, rest, rfl⟩
  · rw [if_neg (by rw [asked_iff]; exact hq)]
    dsimp only
    rw [if_neg (by simp only [Raw.res.injEq, not_or]; exact ⟨by simp, n2, n3⟩)]
    exact ⟨_, _, rfl⟩

/-- Nothing changes if the input ends while the user is being asked. -/
theorem C18_input_ends (cfg : Config) (exp out : Path) (name : Str) (r : Result)
    (answers : List Str) (fs : FS) (hi : InputEnds cfg r answers) :
    caseReview cfg exp out name (.res r) answers fs = (fs, .eof, []) := by
  have he := interact_eq r answers
  obtain ⟨hq, hd⟩ := hi
  rw [hd] at he
  simp only [Option.map_none, Option.map_eq_none_iff] at he
  unfold caseReview
  dsimp only
  rw [if_pos ((asked_iff cfg r).mpr hq), he]

/-- If the result is accepted, the snapshot is replaced by the output and the result becomes OK. -/
theorem C18_accepted (cfg : Config) (exp out : Path) (name : Str) (r : Result)
    (answers : List Str) (fs : FS) (ha : Accepts cfg r answers) (hi : ¬ InputEnds cfg r answers)
    (hap : Apart exp out name) (hr : Ready fs exp out name) :
    ∃ fs' q rest, caseReview cfg exp out name (.res r) answers fs = (fs', .done (.res .OK) q, rest) ∧
      fs'.get (mdFile exp name) = fs.get (mdFile out name) := by
  have he := interact_eq r answers
  obtain ⟨fs', f1, f2⟩ := freeze_ok hap hr
  have hmd := f2 (mdFile exp name)
  rw [if_pos rfl] at hmd
  unfold caseReview
  dsimp only
  by_cases hq : Asked cfg r
  · rw [if_pos ((asked_iff cfg r).mpr hq)]
    rcases hd : decision r answers with _ | a
    · exact absurd ⟨hq, hd⟩ hi
    · rw [hd] at he
      simp only [Option.map_some, Option.map_eq_some_iff] at he
      obtain ⟨⟨q, rest⟩, h1, h2⟩ := he
      rw [h1]
      dsimp only at h2 ⊢
      rw [if_pos, f1]
      · exact ⟨fs', q, rest, rfl, hmd⟩
      · rcases ha with ⟨-, ha⟩ | ⟨h, h'⟩ | ⟨h, h'⟩
        · left
          rw [hd] at ha
          cases ha
          rw [h2, if_pos rfl]
        · exact Or.inr (Or.inl ⟨by rw [h], h'⟩)
        · exact Or.inr (Or.inr ⟨by rw [h], h'⟩)
  · rw [if_neg (by rw [asked_iff]; exact hq)]
    dsimp only
    rw [if_pos, f1]
    · exact ⟨fs', _, _, rfl, hmd⟩
    · rcases ha with ⟨h, -⟩ | ⟨h, h'⟩ | ⟨h, h'⟩
      · exact absurd h hq
      · exact Or.inr (Or.inl ⟨by rw [h], h'⟩)
      · exact Or.inr (Or.inr ⟨by rw [h], h'⟩)

/-- Asked about a difference, the user views it, then accepts. -/
example : Accepts { interactive := true } .DIFF ["v".toList, "a".toList] ∧
    ¬ InputEnds { interactive := true } .DIFF ["v".toList, "a".toList] ∧
    (caseReview { interactive := true } exp0 out0 nm (.res .DIFF) ["v".toList, "a".toList]
      project').2.1 = .done (.res .OK) .FREEZE := by
  refine ⟨Or.inl ⟨Or.inr ⟨by decide, rfl⟩, by decide⟩, ?_, by decide⟩
  rintro ⟨-, h⟩
  exact absurd h (by decide)

/-- The user continues without accepting. -/
example : ¬ Accepts { interactive := true, update := true } .DIFF ["c".toList] ∧
    ¬ InputEnds { interactive := true } .DIFF ["c".toList] := by
  constructor
  · rintro (⟨-, h⟩ | ⟨h, -⟩ | ⟨-, h⟩)
    · exact absurd h (by decide)
    · cases h
    · cases h
  · rintro ⟨-, h⟩
    exact absurd h (by decide)

/-- The input ends. -/
example : InputEnds { interactive := true } .DIFF ["v".toList] :=
  ⟨Or.inr ⟨by decide, rfl⟩, by decide⟩

/-! ### C19: the exact effect of accepting -/

private theorem sep_ext {x y q : Path} (h : ¬ x <+: y ∧ ¬ y <+: x) : ¬ x <+: y ++ q := by
  intro hc
  rcases List.prefix_or_prefix_of_prefix hc (List.prefix_append y q) with h' | h'
  · exact h.1 h'
  · exact h.2 h'

private theorem dir_not_md (d : Path) (name : Str) : ¬ resourceDir d name <+: mdFile d name := by
  obtain ⟨cs, l, s1, s2, -⟩ := paths_shape name
  rw [s1, s2]
  intro hc
  exact md_ne l (prefix_concat_ne hc).symm

/-- Accepting succeeds; afterwards the snapshot is the output, the snapshot's directory is exactly
the output's directory, the outputs are gone, and every other path is as before. -/
theorem C19_exact (exp out : Path) (name : Str) (fs : FS) (ha : Apart exp out name)
    (h : Ready fs exp out name) : ∃ fs', freezeCase exp out name fs = (fs', none) ∧
      fs'.get (mdFile exp name) = fs.get (mdFile out name) ∧
      (∀ q, fs'.get (resourceDir exp name ++ q) = fs.get (resourceDir out name ++ q)) ∧
      (∀ p, Belongs out name p → fs'.get p = none) ∧
      (∀ p, ¬ Belongs exp name p → ¬ Belongs out name p → fs'.get p = fs.get p) := by
  obtain ⟨fs', f1, f2⟩ := freeze_ok ha h
  have sDD := apart_paths ha _ _ (Or.inl rfl) (Or.inl rfl)
  have sDM := apart_paths ha _ _ (Or.inl rfl) (Or.inr rfl)
  have sMD := apart_paths ha _ _ (Or.inr rfl) (Or.inl rfl)
  have sMM := apart_paths ha _ _ (Or.inr rfl) (Or.inr rfl)
  refine ⟨fs', f1, ?_, ?_, ?_, ?_⟩
  · rw [f2, if_pos rfl]
  · intro q
    rw [f2, if_neg, if_neg, if_pos (List.prefix_append _ _)]
    · rw [List.drop_left]
    · intro hc; exact sDM.1 (hc ▸ List.prefix_append _ _)
    · intro hc; exact dir_not_md exp name (hc ▸ List.prefix_append _ _)
  · rintro p (rfl | ⟨q, rfl⟩)
    · rw [f2, if_neg, if_pos rfl]
      intro hc; exact sMM.2 (by rw [hc]; exact List.prefix_rfl)
    · rw [f2]
      rw [if_neg (fun (hc : resourceDir out name ++ q = mdFile exp name) =>
        sMD.2 (hc ▸ List.prefix_append _ _))]
      split
      · rfl
      · rw [if_neg (sep_ext sDD), if_pos (List.prefix_append _ _)]
  · intro p h1 h2
    simp only [Belongs, not_or] at h1 h2
    rw [f2, if_neg h1.1, if_neg h2.1, if_neg h1.2, if_neg h2.2]

example : Apart exp0 out0 nm ∧ Ready project' exp0 out0 nm := ⟨apart0, ready0⟩

/-! ### C20: accepting one test leaves the others alone -/

/-- A test `a/b` beside a test `a`: accepting `a` deletes the snapshot of `a/b`. -/
theorem C20_nested_refuted : ∃ (fs : FS) (a b : Str), a ≠ b ∧ Apart exp0 out0 a ∧ Apart exp0 out0 b ∧
    Ready fs exp0 out0 a ∧ fs.get (mdFile exp0 b) = some (.file "bsnap".toList) ∧
    (freezeCase exp0 out0 a fs).2 = none ∧ (freezeCase exp0 out0 a fs).1.get (mdFile exp0 b) = none := by
  refine ⟨[([], .dir), (["books".toList], .dir),
    (["books".toList, "a.md".toList], .file "old".toList),
    (["books".toList, "a".toList], .dir),
    (["books".toList, "a".toList, "b.md".toList], .file "bsnap".toList),
    (["books".toList, ".out".toList], .dir),
    (["books".toList, ".out".toList, "a.md".toList], .file "new".toList)],
    "a".toList, "a/b".toList, by decide, Or.inl ⟨by decide, by decide⟩,
    Or.inl ⟨by decide, by decide⟩, ?_, by decide, by decide, by decide⟩
  exact {
    wf := wf_of_all (by decide) (by decide)
    output := ⟨"new".toList, by decide⟩
    place := by decide
    md := by decide
    dir := by
      intro text h
      rw [show FS.get _ (resourceDir exp0 "a".toList) = some .dir by decide] at h
      simp at h
    odir := by
      intro text h
      rw [show FS.get _ (resourceDir out0 "a".toList) = none by decide] at h
      simp at h }

/-- For tests that are not in directories named after each other (and whose names have no part ending
with `.md`), accepting one leaves all snapshots and outputs of the other exactly as they were, from
every state and even if accepting fails half-way.  Missing for the full claim: nested names, for
which it is false (`C20_nested_refuted`). -/
theorem C20_isolation_partial (exp out : Path) (a b : Str) (fs : FS) (ha : Apart exp out a)
    (hb : Apart exp out b) (hn : NotNested a b) (hma : NoMd a) (hmb : NoMd b) (p : Path)
    (hp : Belongs exp b p ∨ Belongs out b p) :
    (freezeCase exp out a fs).1.get p = fs.get p := by
  rcases hp with hp | hp
  · obtain ⟨h1, h2, h3, h4⟩ := belongs_sep ha hb hn hma hmb (Or.inl rfl) hp
    exact freeze_frame exp out a fs p h1 h2 h3 h4
  · obtain ⟨h1, h2, h3, h4⟩ := belongs_sep ha hb hn hma hmb (Or.inr rfl) hp
    exact freeze_frame exp out a fs p h1 h2 h3 h4

example : Apart exp0 out0 "t/a".toList ∧ Apart exp0 out0 "t/b".toList ∧
    NotNested "t/a".toList "t/b".toList ∧ NoMd "t/a".toList ∧ NoMd "t/b".toList :=
  ⟨Or.inl ⟨by decide, by decide⟩, Or.inl ⟨by decide, by decide⟩, ⟨by decide, by decide⟩,
    by unfold NoMd; decide, by unfold NoMd; decide⟩

/-! ### C72: starting one test leaves the outputs of the others alone -/

/-- A test `a/b` beside a test `a`: starting `a` deletes the output of `a/b`. -/
theorem C72_purge_refuted : ∃ (fs fs' : FS) (a b : Str), a ≠ b ∧ fs.WellFormed ∧
    fs.get (mdFile out0 b) = some (.file "bout".toList) ∧ purge out0 a fs = .ok fs' ∧
    fs'.get (mdFile out0 b) = none := by
  refine ⟨[([], .dir), (["books".toList], .dir), (["books".toList, ".out".toList], .dir),
    (["books".toList, ".out".toList, "a".toList], .dir),
    (["books".toList, ".out".toList, "a".toList, "b.md".toList], .file "bout".toList)],
    [([], .dir), (["books".toList], .dir), (["books".toList, ".out".toList], .dir)],
    "a".toList, "a/b".toList, by decide, wf_of_all (by decide) (by decide), by decide, by rfl,
    by decide⟩

/-- Starting a test removes its output directory and its directory of temporary files, and nothing
else.  Missing for the full claim: outputs of tests whose names lie below these directories, for
which it is false (`C72_purge_refuted`). -/
theorem C72_purge_partial (out : Path) (name : Str) (fs fs' : FS) (h : purge out name fs = .ok fs')
    (p : Path) : (¬ resourceDir out name <+: p → ¬ resourceDir out (name ++ ".tmp".toList) <+: p →
      fs'.get p = fs.get p) ∧
    (fs.WellFormed → resourceDir out name <+: p ∨ resourceDir out (name ++ ".tmp".toList) <+: p →
      fs'.get p = none) := by
  have frame : ∀ {p d : Path} {g g' : FS}, removeIfThere d g = .ok g' → ¬ d <+: p →
      g'.get p = g.get p := by
    intro p d g g' h hp
    unfold removeIfThere at h
    split at h
    · exact rmtree_frame h hp
    · cases h; rfl
  have keep : ∀ {d : Path} {g g' : FS}, removeIfThere d g = .ok g' → g.get p = none →
      g'.get p = none := by
    intro d g g' h hp
    unfold removeIfThere FS.rmtree at h
    split at h
    · split at h
      · cases h
      · cases h
      · cases h
        rw [get_filter (fun k => !d.isPrefixOf k), hp]
        simp
    · cases h; exact hp
  have gone : ∀ {d : Path} {g g' : FS}, removeIfThere d g = .ok g' → g.WellFormed → d <+: p →
      g'.get p = none := by
    rintro d g g' h wf ⟨q, rfl⟩
    unfold removeIfThere FS.rmtree at h
    split at h
    · split at h
      · cases h
      · cases h
      · cases h
        rw [get_filter (fun k => !d.isPrefixOf k), isPrefixOf_eq]
        simp
    · rename_i hx
      cases h
      exact get_below_none wf (by simpa [FS.exists_] using hx) q
  unfold purge at h
  simp only [dirPath_eq] at h
  split at h
  · cases h
  · rename_i fs1 h1
    refine ⟨fun h2 h3 => (frame h h3).trans (frame h1 h2), fun wf h2 => ?_⟩
    by_cases hd : resourceDir out name <+: p
    · exact keep h (gone h1 wf hd)
    · have ht := h2.resolve_left hd
      obtain ⟨q, hq⟩ := ht
      have hnt : ¬ resourceDir out name <+: resourceDir out (name ++ ".tmp".toList) :=
        fun hx => hd (hx.trans ⟨q, hq⟩)
      unfold removeIfThere FS.rmtree at h
      split at h
      · split at h
        · cases h
        · cases h
        · cases h
          rw [get_filter (fun k => !(resourceDir out (name ++ ".tmp".toList)).isPrefixOf k),
            isPrefixOf_eq, if_neg]
          simp [← hq]
      · rename_i hx
        cases h
        rw [frame h1 hd, ← hq]
        refine get_below_none wf ?_ q
        rw [← frame h1 hnt]
        simpa [FS.exists_] using hx

example : ∃ fs', purge out0 nm project' = .ok fs' ∧ fs' ≠ project' := ⟨_, rfl, by decide⟩

/-! ### C21: a crash while accepting -/

/-- The old snapshot's resources are lost while its text stays: the process died right after the
removal of the directory. -/
theorem C21_atomic_refuted : ∃ g, CrashState exp0 out0 nm project' g ∧
    g.get (mdFile exp0 nm) = project'.get (mdFile exp0 nm) ∧
    g.get (mdFile exp0 nm) ≠ project'.get (mdFile out0 nm) ∧
    project'.get (resourceDir exp0 nm ++ ["x.png".toList]) = some (.file "oldpic".toList) ∧
    g.get (resourceDir exp0 nm ++ ["x.png".toList]) = none := by
  refine ⟨_, Or.inr (Or.inr ⟨_, rfl, Or.inl rfl⟩), ?_, ?_, ?_, ?_⟩ <;> decide

/-- After a crash between the two renamings, repeating the acceptance raises an exception and the new
snapshot never gets its resources. -/
theorem C21_retry_refuted : ∃ g, CrashState exp0 out0 nm project' g ∧
    g.get (mdFile exp0 nm) = project'.get (mdFile out0 nm) ∧
    g.get (resourceDir exp0 nm) = none ∧ (freezeCase exp0 out0 nm g).2 = some .notFound ∧
    (freezeCase exp0 out0 nm g).1.get (resourceDir exp0 nm) = none := by
  refine ⟨_, Or.inr (Or.inr ⟨_, rfl, Or.inr ⟨_, rfl, Or.inl rfl⟩⟩), ?_, ?_, ?_, ?_⟩ <;> decide

/-- Wherever the process dies while accepting: the snapshot text is the complete old one or the
complete new one (and while the new text is not there, its output is still in place), the new
resources are all where the run wrote them or all in the snapshot's directory, and nothing else is
touched.  Missing for the full claim: that the pair of text and resources is the old one or the new
one, which is false (`C21_atomic_refuted`). -/
theorem C21_crash_partial (exp out : Path) (name : Str) (fs g : FS) (ha : Apart exp out name)
    (h : Ready fs exp out name) (hg : CrashState exp out name fs g) :
    ((g.get (mdFile exp name) = fs.get (mdFile exp name) ∧
        g.get (mdFile out name) = fs.get (mdFile out name)) ∨
      g.get (mdFile exp name) = fs.get (mdFile out name)) ∧
    ((∀ q, g.get (resourceDir out name ++ q) = fs.get (resourceDir out name ++ q)) ∨
      (∀ q, g.get (resourceDir exp name ++ q) = fs.get (resourceDir out name ++ q))) ∧
    (∀ p, ¬ Belongs exp name p → ¬ Belongs out name p → g.get p = fs.get p) := by
  have sDD := apart_paths ha _ _ (Or.inl rfl) (Or.inl rfl)
  have sDM := apart_paths ha _ _ (Or.inl rfl) (Or.inr rfl)
  have sMD := apart_paths ha _ _ (Or.inr rfl) (Or.inl rfl)
  have hmd := dir_not_md exp name
  have hmo := dir_not_md out name
  have part : PartlyRemoved (resourceDir exp name) fs g →
      ((g.get (mdFile exp name) = fs.get (mdFile exp name) ∧
        g.get (mdFile out name) = fs.get (mdFile out name)) ∨
      g.get (mdFile exp name) = fs.get (mdFile out name)) ∧
    ((∀ q, g.get (resourceDir out name ++ q) = fs.get (resourceDir out name ++ q)) ∨
      (∀ q, g.get (resourceDir exp name ++ q) = fs.get (resourceDir out name ++ q))) ∧
    (∀ p, ¬ Belongs exp name p → ¬ Belongs out name p → g.get p = fs.get p) := by
    rintro ⟨p1, -⟩
    refine ⟨Or.inl ⟨p1 _ hmd, p1 _ sDM.1⟩, Or.inl (fun q => p1 _ (sep_ext sDD)), ?_⟩
    intro p h1 h2
    simp only [Belongs, not_or] at h1 h2
    exact p1 p h1.2
  rcases hg with rfl | ⟨-, hp⟩ | ⟨fs1, e1, hg⟩
  · exact ⟨Or.inl ⟨rfl, rfl⟩, Or.inl (fun _ => rfl), fun _ _ _ => rfl⟩
  · exact part hp
  · obtain ⟨fs1', a1, a2, a3⟩ := freezeRemove_ok h
    rw [a1] at e1; cases e1
    rcases hg with rfl | ⟨fs2, e2, hg⟩
    · apply part
      refine ⟨fun p hp => by rw [a2, if_neg hp], fun p hp => Or.inr (by rw [a2, if_pos hp])⟩
    · obtain ⟨fs2', b1, b2, b3⟩ := freezeFile_ok ha h a2
      rw [b1] at e2; cases e2
      rcases hg with rfl | hg
      · refine ⟨Or.inr (by rw [b2, if_pos rfl]), Or.inl ?_, ?_⟩
        · intro q
          rw [b2, if_neg (fun (hc : resourceDir out name ++ q = mdFile exp name) =>
              sMD.2 (hc ▸ List.prefix_append _ _)),
            if_neg (fun (hc : resourceDir out name ++ q = mdFile out name) =>
              hmo (hc ▸ List.prefix_append _ _)), if_neg (sep_ext sDD)]
        · intro p h1 h2
          simp only [Belongs, not_or] at h1 h2
          rw [b2, if_neg h1.1, if_neg h2.1, if_neg h1.2]
      · obtain ⟨fs3, c1, c2, c3, c4, c5⟩ := C19_exact exp out name fs ha h
        have : g = fs3 := by
          simp only [freezeCase, a1, b1, hg] at c1
          cases c1; rfl
        subst this
        exact ⟨Or.inr c2, Or.inr c3, c5⟩

/-- There are crash states of every kind. -/
example : CrashState exp0 out0 nm project' project' ∧
    (∃ g, CrashState exp0 out0 nm project' g ∧ g ≠ project' ∧
      (freezeCase exp0 out0 nm project').1 ≠ g) ∧
    CrashState exp0 out0 nm project' (freezeCase exp0 out0 nm project').1 := by
  refine ⟨Or.inl rfl, ⟨_, Or.inr (Or.inr ⟨_, rfl, Or.inl rfl⟩), by decide, by decide⟩, ?_⟩
  exact Or.inr (Or.inr ⟨_, rfl, Or.inr ⟨_, rfl, Or.inr rfl⟩⟩)

/-! ### C22: reviewing an accepted result again -/

/-- A second acceptance of the same output raises `FileNotFoundError` and deletes the resources that
were just accepted. -/
theorem C22_second_accept (exp out : Path) (name : Str) (fs fs' : FS) (ha : Apart exp out name)
    (h : Ready fs exp out name) (h1 : freezeCase exp out name fs = (fs', none)) :
    ∃ fs'', freezeCase exp out name fs' = (fs'', some .notFound) ∧
      fs''.get (mdFile exp name) = fs.get (mdFile out name) ∧
      ∀ q, fs''.get (resourceDir exp name ++ q) = none := by
  obtain ⟨fs1, c1, c2, c3, c4, c5⟩ := C19_exact exp out name fs ha h
  rw [c1] at h1
  obtain rfl : fs1 = fs' := by cases h1; rfl
  have hOM : fs1.get (mdFile out name) = none := c4 _ (Or.inl rfl)
  have sDM := apart_paths ha _ _ (Or.inl rfl) (Or.inr rfl)
  have key : ∀ fs2, freezeRemove exp name fs1 = .ok fs2 →
      fs2.get (mdFile out name) = none → freezeCase exp out name fs1 = (fs2, some .notFound) := by
    intro fs2 e1 e2
    have : freezeFile exp out name fs2 = .error .notFound := by
      unfold freezeFile FS.rename
      rw [mdPath_eq, mdPath_eq, e2]
    simp [freezeCase, e1, this]
  rcases Option.eq_none_or_eq_some (fs1.get (resourceDir exp name)) with hg | ⟨n, hg⟩
  · refine ⟨fs1, key fs1 (by simp [freezeRemove, dirPath_eq, FS.exists_, hg]) hOM, c2, ?_⟩
    intro q
    have := c3 []
    rw [List.append_nil, List.append_nil, hg] at this
    rw [c3, get_below_none h.wf this.symm]
  · have hn : n = .dir := by
      have := c3 []
      rw [List.append_nil, List.append_nil, hg] at this
      cases n with
      | dir => rfl
      | file t => exact absurd this.symm (h.odir t)
    subst hn
    refine ⟨fs1.filter (fun e => !(resourceDir exp name).isPrefixOf e.1), key _ ?_ ?_, ?_, ?_⟩
    · simp [freezeRemove, dirPath_eq, FS.exists_, hg, FS.rmtree]
    · rw [get_filter (fun k => !(resourceDir exp name).isPrefixOf k), hOM]; simp
    · rw [get_filter (fun k => !(resourceDir exp name).isPrefixOf k), isPrefixOf_eq, c2]
      simp [dir_not_md]
    · intro q
      rw [get_filter (fun k => !(resourceDir exp name).isPrefixOf k), isPrefixOf_eq]
      simp

/-- With `-p -u`, the worker accepts the OK result and the main process accepts it again: the review
ends with an exception and the resources are lost. -/
theorem C22_update_refuted : ∃ (fs1 : FS), Ready project' exp0 out0 nm ∧
    caseReview { update := true } exp0 out0 nm (.res .OK) [] project' = (fs1, .done (.res .OK) .NONE, []) ∧
    (caseReview { update := true } exp0 out0 nm (.res .OK) [] fs1).2.1 = .error .notFound ∧
    fs1.get (resourceDir exp0 nm ++ ["x.png".toList]) = some (.file "newpic".toList) ∧
    (caseReview { update := true } exp0 out0 nm (.res .OK) [] fs1).1.get
      (resourceDir exp0 nm ++ ["x.png".toList]) = none := by
  refine ⟨_, ready0, rfl, ?_, ?_, ?_⟩ <;> decide

/-- If the second review (the main process after a worker, or a later `--review`) is without `-u` and
`-I`, at most one of two successive reviews changes anything: either the first one left everything
as it was, or the second one leaves the accepted snapshot exactly as it is and reports OK.  Missing
for the full claim: `-u`, for which it is false (`C22_update_refuted`), and `-I`, where the user can
accept again. -/
theorem C22_repeat_partial (cfg cfg' : Config) (exp out : Path) (name : Str) (r : Result) (rv : Raw)
    (answers answers' : List Str) (fs fs1 : FS) (q : Request) (rest : List Str)
    (hu : cfg'.update = false) (hI : cfg'.alwaysInteractive = false)
    (h1 : caseReview cfg exp out name (.res r) answers fs = (fs1, .done rv q, rest)) :
    fs1 = fs ∨
    caseReview cfg' exp out name rv answers' fs1 = (fs1, .done (.res .OK) .NONE, answers') := by
  unfold caseReview at h1
  dsimp only at h1
  split at h1
  · cases h1
  · split at h1
    · split at h1
      · cases h1
      · cases h1
        right
        simp [caseReview, hu, hI]
    · cases h1
      exact Or.inl rfl

example : ∃ fs1, caseReview { accept := true } exp0 out0 nm (.res .DIFF) [] project' =
    (fs1, .done (.res .OK) .NONE, []) ∧ fs1 ≠ project' := ⟨_, rfl, by decide⟩

end Verif.Props
