import Verif.Spec.Commands
import Verif.Props.Run
import Verif.Lemmas.Selection

/-! # The commands of the command line (C60, C65, C80) -/

namespace Verif.Props
open Verif.Py Verif.Model Verif.Spec Verif.Lemmas

/-! ### C65: forgetting -/

private theorem forget_truncate {fl : Durations} (rs : List (Rec fl)) :
    Ev.truncate ∉ rs.map (Ev.write (fl := fl)) := by
  intro hc
  obtain ⟨q, -, hq⟩ := List.mem_map.mp hc
  cases hq

/-- **C65**: after `--forget` the report has exactly the records of the other tests. -/
theorem C65_forget (u : Unicode) (fl : Durations) (cases : List Str) (file : Option Bytes) (old : List (Rec fl))
    (ho : ofFile u fl file = some old) : ∃ evs, forget u fl cases file = some evs ∧
      ofFile u fl (applyEvs file evs) = some (old.filter (fun r => decide (r.1 ∉ cases))) := by
  refine ⟨.truncate :: (forgetRecords old cases).map .write, by unfold forget; rw [ho]; rfl, ?_⟩
  have : applyEvs file (Ev.truncate :: (forgetRecords old cases).map (Ev.write (fl := fl))) =
    applyEvs (some []) ((forgetRecords old cases).map (Ev.write (fl := fl))) := rfl
  rw [this, applyEvs_some _ _ (forget_truncate _), List.nil_append, writes_map, C23_round_trip]
  · unfold forgetRecords
    congr 1
    apply List.filter_congr
    intro r _
    simp
  · intro q hq
    exact ofFile_clean u fl ho q (List.mem_filter.mp hq).1

/-- **C65**: with `-c` a forgotten test runs again, and the others do exactly if they did before. -/
theorem C65_runs_again (u : Unicode) (fl : Durations) (cases : List Str) (file : Option Bytes)
    (old rs : List (Rec fl)) (evs : List (Ev fl)) (ho : ofFile u fl file = some old)
    (hf : forget u fl cases file = some evs) (hr : ofFile u fl (applyEvs file evs) = some rs) (cfg : Config)
    (selected : List Str) (n : Str) (hn : n ∈ selected) :
    n ∈ toRun cfg rs selected ↔ n ∈ cases ∨ n ∈ toRun cfg old selected := by
  obtain ⟨evs', h1, h2⟩ := C65_forget u fl cases file old ho
  rw [hf, Option.some.injEq] at h1
  subst h1
  rw [hr, Option.some.injEq] at h2
  subst h2
  have hfr : firstRecord (old.filter (fun r => decide (r.1 ∉ cases))) n =
      if n ∈ cases then none else firstRecord old n := by
    unfold firstRecord
    rw [List.find?_filter]
    split
    · rename_i hc
      rw [List.find?_eq_none]
      intro r _
      simp only [Bool.decide_and, Bool.and_eq_true, decide_eq_true_eq, not_and]
      rintro h1 rfl
      exact h1 hc
    · rename_i hc
      congr 1
      funext r
      by_cases e : r.1 = n
      · subst e; simp [hc]
      · simp [e]
  unfold toRun
  rw [List.mem_filter, List.mem_filter, hfr]
  by_cases hc : n ∈ cases
  · simp [hc, hn]
  · simp [hc, hn]

/-- **C65**: also if the command is killed, once it has begun no forgotten test has a record; and every
record is an old one, up to a duration cut in the middle. -/
theorem C65_killed (u : Unicode) (fl : Durations) (cases : List Str) (file file' : Option Bytes)
    (old rs : List (Rec fl)) (trace evs : List (Ev fl)) (ho : ofFile u fl file = some old)
    (hf : forget u fl cases file = some trace) (hst : Stops file trace evs file') (hbegun : evs ≠ [])
    (hr : ofFile u fl file' = some rs) :
    rs.map key <+: (old.filter (fun r => decide (r.1 ∉ cases))).map key := by
  unfold forget at hf
  rw [ho, Option.map_some, Option.some.injEq] at hf
  subst hf
  rcases stops_file (forget_truncate _) hst with ⟨h, -⟩ | ⟨evs', p, b, rfl, hp, rfl, hb, -, -, -, -⟩
  · exact absurd h hbegun
  · obtain ⟨q, hq⟩ := hp
    have hw := congrArg writes hq
    rw [writes_append, writes_map] at hw
    have hcl : ∀ w ∈ writes p, CleanName w.1 := by
      intro w hw'
      have hm : w ∈ forgetRecords old cases := by rw [← hw]; exact List.mem_append_left _ hw'
      exact ofFile_clean u fl ho w (List.mem_filter.mp hm).1
    obtain ⟨hkeys, -⟩ := C24_torn u fl (writes p) hcl b hb rs hr
    refine hkeys.trans ?_
    have : old.filter (fun r => decide (r.1 ∉ cases)) = forgetRecords old cases := by
      unfold forgetRecords
      apply List.filter_congr
      intro r _
      simp
    rw [this, ← hw, List.map_append]
    exact List.prefix_append _ _

/-- **C65, refuted** in the sense of the tests named on the command line: a test is forgotten with the
dependencies whose results are not stored (or with all of them, with `-r`). -/
theorem C65_dependency_refuted : ∃ (s : Suite) (cases : List Str) (old : List (Rec strokes)),
    selectedNames s ["b".toList] none 10 = some cases ∧ isSelected "a".toList ["b".toList] = false ∧
    ("a".toList, .OK, (0 : Nat)) ∈ old ∧ ("a".toList, .OK, (0 : Nat)) ∉ forgetRecords old cases := by
  refine ⟨{ cases := [("a".toList, ⟨none, 0⟩), ("b".toList, ⟨none, 1⟩)]
            info := fun n => if n = 1 then { deps := some [⟨none, 0⟩] } else {}
            isInstance := fun _ _ => false }, ["a".toList, "b".toList], [("a".toList, .OK, (0 : Nat))],
    by decide, by decide, List.mem_singleton_self _, ?_⟩
  intro h
  have := (List.mem_filter.mp h).2
  revert this
  decide

/-! ### C80: listing -/

/-- **C80**: `-l` lists exactly the tests, in order, that the same command without it executes if it is
not stopped. -/
theorem C80_list (u : Unicode) (fl : Durations) (cfg : Config) (outcome : List Str → Str → Outcome fl)
    (selected : List Str) (file : Option Bytes) (old : List (Rec fl)) (ho : ofFile u fl file = some old)
    (hs : ∀ n ∈ selected, CleanName n) :
    executed (runAsync u fl cfg outcome selected file).1 <+: listed cfg old selected ∧
    ((∀ e n, ∃ o, outcome e n = some o ∧ o.2.1 ≠ .ABORT) → cfg.failFast = false →
      executed (runAsync u fl cfg outcome selected file).1 = listed cfg old selected) := by
  have hl : listed cfg old selected = toRun cfg old selected := (doneAndTodo_eq cfg old selected).1
  obtain ⟨h1, -, h3⟩ := C29_each_once u fl cfg outcome selected file old ho hs
  rw [hl]
  exact ⟨h1, fun h hf => h3 h (fun hc => by rw [hf] at hc; cases hc)⟩

/-! ### C60: garbage -/

theorem walkPath_eq : ∀ (f : List Str) (root : Str), OnDisk f → root ≠ [] →
    walkPath root f = (if root.getLast? = some '/' then root else root ++ ['/']) ++ join ['/'] f
  | [], _, h, _ => absurd rfl h.1
  | [c], root, h, hr => by
    have hc := h.2 c List.mem_cons_self
    have habs : ¬ Absolute c := fun ha => hc.2 (List.mem_of_mem_head? ha)
    change pathJoin root c = _
    by_cases hl : root.getLast? = some '/'
    · rw [pathJoin_slash habs hl, if_pos hl]; rfl
    · rw [pathJoin_plain habs hr hl, if_neg hl]; rfl
  | c :: d :: f, root, h, hr => by
    have hc := h.2 c List.mem_cons_self
    have habs : ¬ Absolute c := fun ha => hc.2 (List.mem_of_mem_head? ha)
    have h' : OnDisk (d :: f) := ⟨by simp, fun x hx => h.2 x (List.mem_cons_of_mem _ hx)⟩
    have step : pathJoin root c = (if root.getLast? = some '/' then root else root ++ ['/']) ++ c := by
      by_cases hl : root.getLast? = some '/'
      · rw [pathJoin_slash habs hl, if_pos hl]
      · rw [pathJoin_plain habs hr hl, if_neg hl]; rfl
    have hne : pathJoin root c ≠ [] := by
      rw [step]; simp [hc.1]
    have hlast : (pathJoin root c).getLast? ≠ some '/' := by
      rw [step, List.getLast?_append]
      obtain ⟨q, x, rfl⟩ : ∃ q x, c = q ++ [x] := ⟨_, _, (List.dropLast_concat_getLast hc.1).symm⟩
      intro e
      simp at e
      exact hc.2 (by simp [e])
    change walkPath (pathJoin root c) (d :: f) = _
    rw [walkPath_eq (d :: f) _ h' hne, if_neg hlast, step, join_cons ['/'] c (by simp : d :: f ≠ [])]
    simp only [List.append_assoc]

private theorem join_ne_nil {f : List Str} (h : OnDisk f) : join ['/'] f ≠ [] := by
  cases f with
  | nil => exact absurd rfl h.1
  | cons c f =>
    have := (h.2 c List.mem_cons_self).1
    cases f with
    | nil => simpa [join] using this
    | cons d f =>
      rw [join_cons _ _ (by simp)]
      simp [this]

private theorem split_onDisk {name : Str} (hn : Normal name) : OnDisk (split '/' name) :=
  ⟨split_ne_nil _ _, fun c hc => ⟨hn c hc, (split_mem '/' name c hc).1⟩⟩

theorem normal_not_absolute {name : Str} (hn : Normal name) (r : Str) : ¬ Absolute (name ++ r) := by
  intro ha
  cases name with
  | nil => exact hn [] (by simp [split]) rfl
  | cons c cs =>
    unfold Absolute at ha
    simp only [List.cons_append, List.head?_cons, Option.some.injEq] at ha
    subst ha
    exact hn [] (by simp [split]) rfl

theorem pathJoin_root {root name : Str} (hr : root ≠ []) (hn : ¬ Absolute name) :
    pathJoin root name = (if root.getLast? = some '/' then root else root ++ ['/']) ++ name := by
  by_cases hl : root.getLast? = some '/'
  · rw [pathJoin_slash hn hl, if_pos hl]
  · rw [pathJoin_plain hn hr hl, if_neg hl]; rfl

theorem isGarbage_iff {root : Str} {names : List Str} (hr : root ≠ []) (hn : ∀ n ∈ names, Normal n)
    {f : List Str} (hf : OnDisk f) :
    isGarbage (liveNames root names) (walkPath root f) = false ↔ OfTest names f := by
  have hjs : split '/' (join ['/'] f) = f := split_join_sep '/' hf.1 (fun p hp => (hf.2 p hp).2)
  have hsplit : ∀ s : Str, s = join ['/'] f ↔ f = split '/' s := by
    intro s
    constructor
    · rintro rfl; exact hjs.symm
    · intro h; rw [h, join_split]
  rw [walkPath_eq f root hf hr]
  generalize hR : (if root.getLast? = some '/' then root else root ++ ['/']) = R
  have hpj : ∀ name, ¬ Absolute name → pathJoin root name = R ++ name := by
    intro name hna
    rw [pathJoin_root hr hna, hR]
  have hnoslash : ∀ s : Str, endsWith (R ++ (s ++ ".md".toList)) "/".toList = false := by
    intro s
    rcases h : endsWith (R ++ (s ++ ".md".toList)) "/".toList with _ | _
    · rfl
    · rw [endsWith_slash, List.getLast?_append, List.getLast?_append] at h
      simp at h
  unfold isGarbage liveNames
  rw [Bool.not_eq_false', List.any_append, Bool.or_eq_true, List.any_flatMap]
  unfold OfTest
  rw [or_comm]
  refine or_congr ?_ ?_
  · have hi : ¬ Absolute "index.md".toList := by simp [Absolute]
    have he : endsWith (R ++ "index.md".toList) "/".toList = false := hnoslash "index".toList
    rw [List.any_cons, List.any_nil, Bool.or_false, hpj _ hi, he, Bool.false_and, Bool.or_false, beq_iff_eq,
      List.append_cancel_left_eq, hsplit]
    rfl
  · rw [List.any_eq_true]
    refine exists_congr fun name => and_congr_right fun hm => ?_
    have hna := hn name hm
    rw [List.any_cons, List.any_cons, List.any_nil, Bool.or_false, hpj _ (normal_not_absolute hna _),
      hpj _ (normal_not_absolute hna _), hnoslash, Bool.false_and, Bool.or_false, Bool.or_eq_true, beq_iff_eq,
      List.append_cancel_left_eq, hsplit]
    refine or_congr Iff.rfl ?_
    have he : endsWith (R ++ (name ++ "/".toList)) "/".toList = true := by
      rw [endsWith_slash, ← List.append_assoc, List.getLast?_append]; rfl
    rw [he, Bool.true_and, Bool.or_eq_true, beq_iff_eq, List.append_cancel_left_eq]
    unfold startsWith
    rw [List.isPrefixOf_iff_prefix, List.prefix_append_right_inj]
    have hone : ∀ r : Str, join ['/'] f = name ++ '/' :: r ↔ f = split '/' name ++ split '/' r := by
      intro r
      rw [eq_comm, hsplit, split_concat_sep]
    constructor
    · rintro (h | ⟨r, h⟩)
      · have h1 := (hone []).mp (by rw [← h]; rfl)
        exfalso
        have : [] ∈ f := by rw [h1]; simp [split]
        exact (hf.2 [] this).1 rfl
      · have h1 := (hone r).mp (by rw [← h]; simp)
        rcases hs : split '/' r with _ | ⟨x, rest⟩
        · exact absurd hs (split_ne_nil _ _)
        · exact ⟨x, rest, by rw [h1, hs]⟩
    · rintro ⟨x, rest, h⟩
      right
      refine ⟨join ['/'] (x :: rest), ?_⟩
      have : join ['/'] f = name ++ '/' :: join ['/'] (x :: rest) := by
        rw [h, join_append _ (split_ne_nil _ _) (by simp), join_split]
        simp
      rw [this]; simp

/-- **C60, partial**: after `--clean` exactly the files that belong to an existing test are left, and the
index. The names of the tests have no empty parts. -/
theorem C60_clean_partial (root : Str) (hr : root ≠ []) (names : List Str) (hn : ∀ n ∈ names, Normal n)
    (files : List (List Str)) (hf : ∀ f ∈ files, OnDisk f) (f : List Str) :
    f ∈ cleanFiles root names files ↔ f ∈ files ∧ OfTest names f := by
  unfold cleanFiles
  rw [List.mem_filter]
  refine and_congr_right fun hm => ?_
  rw [← isGarbage_iff hr hn (hf f hm), Bool.not_eq_true', ← Bool.not_eq_true, List.contains_iff_mem]
  unfold garbage
  rw [List.mem_filter, ← Bool.not_eq_true]
  have : walkPath root f ∈ files.map (walkPath root) := List.mem_map_of_mem hm
  simp [this]

/-- **C60**: `--garbage` lists exactly the files that `--clean` removes. -/
theorem C60_garbage (root : Str) (names : List Str) (files : List (List Str)) (f : List Str) (hm : f ∈ files) :
    walkPath root f ∈ garbage root names files ↔ f ∉ cleanFiles root names files := by
  unfold cleanFiles
  rw [List.mem_filter]
  simp [hm]

/-- **C60, refuted** for a test name with an empty part: its snapshot is removed. On the disk the snapshot
of `a//b` is the file `b.md` in the directory `a`. -/
theorem C60_empty_part_refuted : cleanFiles "books".toList ["a//b".toList] [["a".toList, "b.md".toList]] = [] := by
  decide

/-- **C60**: the case report and the other files of `.out` belong to no test: `--clean` removes them. -/
theorem C60_report (root : Str) (hr : root ≠ []) (names : List Str) (hn : ∀ n ∈ names, Normal n)
    (ho : ∀ n ∈ names, (split '/' n).head? ≠ some ".out".toList) (files : List (List Str))
    (hf : ∀ f ∈ files, OnDisk f) (rest : List Str) (hne : rest ≠ []) :
    ".out".toList :: rest ∉ cleanFiles root names files := by
  rw [C60_clean_partial root hr names hn files hf]
  rintro ⟨-, h | ⟨name, hm, h | ⟨x, r, h⟩⟩⟩
  · injection h with h1 h2
    exact hne h2
  · obtain ⟨cs, l, h1, h2⟩ := split_append_no_sep '/' name ".md".toList (by decide)
    rw [h2] at h
    cases cs with
    | nil =>
      injection h with _ h3
      exact hne h3
    | cons p cs =>
      injection h with h3 _
      exact ho name hm (by rw [h1, ← h3]; rfl)
  · rcases hs : split '/' name with _ | ⟨p, ps⟩
    · exact absurd hs (split_ne_nil _ _)
    · rw [hs, List.cons_append] at h
      injection h with h1 h2
      exact ho name hm (by rw [hs, ← h1]; rfl)

example : cleanFiles "books".toList ["a/b".toList, "c".toList]
    [["index.md".toList], ["a".toList, "b.md".toList], ["a".toList, "b".toList, "x.png".toList],
      ["a".toList, "old.md".toList], ["c.md".toList], ["c".toList, "d.md".toList], ["cc.md".toList],
      [".out".toList, "cases.txt".toList]] =
    [["index.md".toList], ["a".toList, "b.md".toList], ["a".toList, "b".toList, "x.png".toList], ["c.md".toList],
      ["c".toList, "d.md".toList]] := by decide

example : (∀ n ∈ ["a/b".toList, "c".toList], Normal n) ∧ OnDisk ["a".toList, "b.md".toList] := by
  unfold Normal OnDisk
  decide

end Verif.Props
