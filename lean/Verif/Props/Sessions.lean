import Verif.Lemmas.Sessions
import Verif.Props.Story
import Verif.Props.ParallelRun
import Verif.Props.Exec
import Verif.Props.Provenance

/-! # Sessions of commands (C117) -/

namespace Verif.Props
open Verif.Py Verif.Model Verif.Spec Verif.Lemmas

variable {fl : Durations} {u : Unicode} {root : Path} {ns : List Str} {start : FS}

/-- An execution of which it is not said whether it came to its end. -/
private def untold (e : Execution) : Execution := { e with finished := false }

/-! ### Runs -/

private theorem exec_some {ds : List (Rec fl × Request)} {kept : List (Rec fl)} {m : Str} {o : Outcome fl}
    (h : Ev.exec m o ∈ Ev.truncate :: kept.map .write ++ ds.flatMap pair) : o.isSome := by
  simp only [List.cons_append, List.mem_cons, reduceCtorEq, List.mem_append, List.mem_map, and_false, exists_false,
    List.mem_flatMap, false_or] at h
  obtain ⟨x, -, hx⟩ := h
  simp only [pair, List.mem_cons, List.not_mem_nil, or_false, reduceCtorEq, Ev.exec.injEq] at hx
  rw [hx.2]; rfl

private theorem index_elsewhere {P : Project} (hp : PlainNames ns) {fs g : FS} (h : SoundTree P.root ns fs) (text : Str)
    (e : openW (P.root ++ ["index.md".toList]) text fs = .ok g) : SoundTree P.root ns g ∧
    ∀ n ∈ ns, snapshot P.root g n = snapshot P.root fs n ∧ outputFile P.root g n = outputFile P.root fs n := by
  have hroot : fs.get P.root = some .dir := by
    unfold openW at e
    split at e
    · cases e
    · split at e
      · rename_i hd
        rw [List.dropLast_concat] at hd
        unfold FS.isDir at hd
        simpa using hd
      · cases e
  obtain ⟨g', e', h1, h2⟩ := index_ok hp h hroot text
  rw [e] at e'
  cases e'
  refine ⟨h1, fun n hn => ⟨h2 n hn, ?_⟩⟩
  have eg : g = fs.write (P.root ++ ["index.md".toList]) text := by
    unfold openW at e
    split at e
    · cases e
    · split at e
      · cases e; rfl
      · cases e
  rw [eg]
  unfold outputFile FS.write
  rw [get_cons, if_neg]
  intro hc
  exact slot_not_index (hp.1 n hn) (Or.inr mem_md) (o := true) (root := P.root) (by rw [hc]; exact List.prefix_rfl)

/-- A run that is not killed. -/
private theorem run_story (hp : PlainNames ns) {n0 : Str} (h0 : n0 ∈ ns) (hS : SoundTree root ns start) {fs : FS}
    {file : Option Bytes} {h : List Execution} (hs : Story root ns u fl start fs file h) {P : Project} (cfg : Config)
    (dur : Str → fl.D) (all ans : List Str) {selected : List Str} (hroot : P.root = root) (hu : P.u = u)
    (hnd : selected.Nodup) (hsel : ∀ n ∈ selected, n ∈ ns ∧ CleanName n) {old : List (Rec fl)}
    (ho : ofFile u fl file = some old) :
    ∃ h', Story root ns u fl start (runProject P cfg dur all selected fs ans file).fs
        (runProject P cfg dur all selected fs ans file).report (h ++ h') ∧
      h'.map untold = executionsOf root P fs (ranNames (runEvents P cfg dur selected fs ans file)) := by
  subst hroot hu
  unfold runProject runEvents
  dsimp only
  generalize hA : runAsync P.u fl cfg (projectOutcome P cfg dur (mkdirs fs P.out, ans)) selected file = A
  have hA' := hA
  unfold runAsync at hA'
  rw [ho] at hA'
  dsimp only at hA'
  obtain ⟨ds, tail, e1, e2⟩ := runLoop_shape fl cfg (projectOutcome P cfg dur (mkdirs fs P.out, ans)) [] .OK 0
    (doneAndTodo cfg old selected).2
  have eA1 : A.1 = (Ev.truncate :: (keptRecords old (doneAndTodo cfg old selected).2).map .write ++ ds.flatMap pair) ++
      tail := by
    rw [← hA', e1]
    simp only [List.cons_append, List.append_assoc]
  have eA2 : A.2 = (runLoop fl cfg (projectOutcome P cfg dur (mkdirs fs P.out, ans)) [] .OK 0
    (doneAndTodo cfg old selected).2).2 := by rw [← hA']
  generalize hpre : (Ev.truncate :: (keptRecords old (doneAndTodo cfg old selected).2).map .write ++ ds.flatMap pair) =
    pre at eA1
  have hsome : ∀ m o, Ev.exec m o ∈ pre → o.isSome := by
    intro m o hm
    rw [← hpre] at hm
    exact exec_some hm
  have hstory := Story.run (evs := pre) P cfg dur selected ans hs rfl hnd hsel
    (by rw [hA]; exact .clean pre tail eA1) hsome
  rcases e2 with ⟨⟨r, e2⟩, rfl, -⟩ | ⟨e2, n, rfl, e3⟩
  · rw [List.append_nil] at eA1
    rw [← eA2] at e2
    rw [e2]
    dsimp only
    rw [← eA1] at hstory
    refine ⟨(ranNames A.1).map (fun n => ⟨n, P, snapshot P.root fs n, true⟩), ?_, by rw [List.map_map]; rfl⟩
    have hsound := (story_inv hp h0 hS hstory).sound
    cases hi : openW (P.root ++ ["index.md".toList]) (indexText all)
        (runCases P cfg (ranNames A.1) (mkdirs fs P.out, ans)).1 with
    | error x => exact hstory
    | ok g =>
      obtain ⟨i1, i2⟩ := index_elsewhere hp hsound _ hi
      exact hstory.elsewhere i1 i2
  · rw [← eA2] at e2
    rw [e2]
    dsimp only
    have hn : n ∈ ns := by
      have : n ∈ (doneAndTodo cfg old selected).2 := e3.subset (by simp)
      rw [(doneAndTodo_eq _ _ _).1] at this
      exact (hsel n (List.mem_filter.mp this).1).1
    obtain ⟨k, t, hk⟩ := case_steps (P := P) hp hn cfg (story_inv hp h0 hS hstory).sound
    have hd := Story.runDuring (g := _) P cfg dur selected ans pre [] n none k t hs rfl hnd hsel
      (by rw [hA]; exact eA1) hk
    have er : ranNames A.1 = ranNames pre ++ [n] := by
      rw [eA1, ranNames_append]; rfl
    have ec : runCases P cfg (ranNames A.1) (mkdirs fs P.out, ans) =
        (runCase P cfg n (runCases P cfg (ranNames pre) (mkdirs fs P.out, ans))).1 := by
      rw [er]; unfold runCases; rw [List.foldl_append]; rfl
    have ef : applyEvs file A.1 = applyEvs file pre := by
      rw [eA1]; unfold applyEvs; rw [List.foldl_append]; rfl
    rw [ec, ef, er]
    rw [List.append_assoc] at hd
    refine ⟨_, hd, ?_⟩
    unfold executionsOf
    rw [List.map_append, List.map_append, List.map_map]
    rfl

/-! ### `--clean` -/

private theorem not_report (hp : PlainNames ns) : ¬ OfTest ns [".out".toList, "cases.txt".toList] := by
  rintro (h | ⟨n, hn, h | ⟨x, rest, h⟩⟩)
  · cases h
  · have hpl := hp.1 n hn
    obtain ⟨cs, l, e1, e2⟩ := slot_shape n
    rw [e2 _ (Or.inr mem_md)] at h
    cases cs with
    | nil =>
      have := congrArg List.length h
      simp at this
    | cons c cs =>
      rw [List.cons_append, List.cons.injEq] at h
      apply hpl.top
      rw [e1, List.cons_append, List.head?_cons, ← h.1]
  · have hpl := hp.1 n hn
    apply hpl.top
    cases hs : split '/' n with
    | nil => exact absurd hs (split_ne_nil _ _)
    | cons c cs =>
      rw [hs, List.cons_append, List.cons.injEq] at h
      rw [List.head?_cons, ← h.1]

/-- `--clean`, complete or not. -/
private theorem clean_part (hp : PlainNames ns) {S : Site} (hH : Hosts root ns u S) (hroot : root ≠ [])
    (hparts : ∀ c ∈ root, c ≠ []) (hnames : ∀ n ∈ ns, Normal n) {w : World} (h : SoundTree root ns w.fs)
    (gone : Path → Bool) (hgone : ∀ p, gone p = true → isGarbageFile S.P S.names w.fs p = true) :
    SoundTree root ns (w.fs.filter (fun e => !gone e.1)) ∧ (cleanWorld S.P S.names w).report = none ∧
    ∀ n ∈ ns, snapshot root (w.fs.filter (fun e => !gone e.1)) n = snapshot root w.fs n := by
  obtain ⟨rfl, rfl, hn⟩ := hH
  have hget : ∀ p, FS.get (w.fs.filter (fun e => !gone e.1)) p = if gone p = false then w.fs.get p else none := by
    intro p
    rw [get_filter (fun q => !gone q)]
    cases gone p <;> rfl
  have hdir : ∀ p, w.fs.get p = some .dir → FS.get (w.fs.filter (fun e => !gone e.1)) p = some .dir := by
    intro p hd
    rw [hget, if_pos, hd]
    rw [← Bool.not_eq_true]
    intro hc
    have := hgone p hc
    unfold isGarbageFile at this
    rw [hd, Bool.and_false, Bool.false_and] at this
    cases this
  have hback : ∀ p m, FS.get (w.fs.filter (fun e => !gone e.1)) p = some m → w.fs.get p = some m := by
    intro p m hm
    rw [hget] at hm
    split at hm
    · exact hm
    · cases hm
  have hiff : ∀ f, OfTest S.names f ↔ OfTest ns f := by
    intro f
    unfold OfTest
    simp only [hn]
  have hgarb : ∀ f, OnDisk f → (isGarbage (liveNames (rootName S.P) S.names) (walkPath (rootName S.P) f) = false ↔
      OfTest ns f) := fun f hf => (isGarbage_iff (root_named hroot hparts)
        (fun n h => hnames n ((hn n).mp h)) hf).trans (hiff f)
  refine ⟨⟨?_, hdir _ h.cwd, ?_, ?_, ?_, ?_, ?_⟩, ?_, ?_⟩
  · intro p c hs
    obtain ⟨m, hm⟩ := Option.isSome_iff_exists.mp hs
    exact hdir _ (h.wf p c (by rw [hback _ _ hm]; rfl))
  · intro n hn o q hq t hx
    exact h.ways n hn o q hq t (hback _ _ hx)
  · intro n hn o x hx hx' hc
    exact h.files n hn o x hx hx' (hback _ _ hc)
  · intro n hn o x hx t hc
    exact h.dirs n hn o x hx t (hback _ _ hc)
  · exact fun hc => h.index (hback _ _ hc)
  · exact fun q hq t hc => h.base q hq t (hback _ _ hc)
  · show (if isGarbageOut S.P S.names "cases.txt".toList then none else w.report) = _
    unfold isGarbageOut
    rw [if_pos]
    rw [← Bool.not_eq_false, hgarb _ (by unfold OnDisk; decide)]
    exact not_report hp
  · intro n hn
    have e : FS.get (w.fs.filter (fun e => !gone e.1)) (slot S.P.root false n ".md".toList) =
        w.fs.get (slot S.P.root false n ".md".toList) := by
      rw [hget, if_pos]
      rw [← Bool.not_eq_true]
      intro hc
      have hx := hgone _ hc
      unfold isGarbageFile slot booksDir at hx
      rw [if_neg (by simp), List.drop_left] at hx
      rw [(hgarb _ ?_).mpr (.inr ⟨n, hn, .inl rfl⟩), Bool.and_false] at hx
      · cases hx
      obtain ⟨cs, l, e1, e2⟩ := slot_shape n
      have hno := hnames n hn
      unfold Normal at hno
      rw [e1] at hno
      have hsep : ∀ c ∈ split '/' (n ++ ".md".toList), '/' ∉ c := fun c hc => (split_mem '/' _ c hc).1
      rw [e2 _ (Or.inr mem_md)] at hsep ⊢
      refine ⟨by simp, fun c hc => ⟨?_, hsep c hc⟩⟩
      rcases List.mem_append.mp hc with hc | hc
      · exact hno c (List.mem_append_left _ hc)
      · rw [List.mem_singleton] at hc
        rw [hc]
        intro he
        have := congrArg List.length he
        simp at this
    unfold snapshot
    rw [e]

private theorem clean_story (hp : PlainNames ns) {S : Site} (hH : Hosts root ns u S) (hroot : root ≠ [])
    (hparts : ∀ c ∈ root, c ≠ []) (hnames : ∀ n ∈ ns, Normal n) {w : World} (h : SoundTree root ns w.fs) :
    SoundTree root ns (cleanWorld S.P S.names w).fs ∧ (cleanWorld S.P S.names w).report = none ∧
    ∀ n ∈ ns, snapshot root (cleanWorld S.P S.names w).fs n = snapshot root w.fs n :=
  clean_part hp hH hroot hparts hnames h (isGarbageFile S.P S.names w.fs) (fun _ h => h)

/-- The output of a test that is in a directory is not directly in the output directory. -/
private theorem output_deep {n : Str} (h : '/' ∈ n) (root : Path) :
    booksDir root true <+: (slot root true n ".md".toList).dropLast ∧
      (slot root true n ".md".toList).dropLast ≠ booksDir root true := by
  obtain ⟨cs, l, e1, e2⟩ := slot_shape n
  have hcs : cs ≠ [] := by
    rintro rfl
    have h1 := join_split '/' n
    rw [e1] at h1
    have h2 := (split_mem '/' n l (by rw [e1]; simp)).1
    apply h2
    have : join ['/'] [l] = l := by simp [join]
    rw [List.nil_append] at h1
    rw [this] at h1
    rw [h1]
    exact h
  unfold slot
  rw [e2 _ (Or.inr mem_md), ← List.append_assoc, List.dropLast_concat]
  refine ⟨List.prefix_append _ _, ?_⟩
  intro he
  apply hcs
  have := congrArg List.length he
  rw [List.length_append] at this
  exact List.eq_nil_of_length_eq_zero (by omega)

/-! ### Runs with or without coverage -/

private theorem coverage_length {p : Path} (h : isCoverageFile p = true) : p.length = 1 := by
  unfold isCoverageFile at h
  split at h
  · rfl
  · cases h

/-- The books directory is there after a run. -/
private theorem run_root (hp : PlainNames ns) {P : Project} {fs : FS} (h : SoundTree P.root ns fs)
    (file : Option Bytes) (cfg : Config) (dur : Str → fl.D) (all ans : List Str) {selected : List Str}
    (hsel : ∀ n ∈ selected, n ∈ ns) : SoundTree P.root ns (runProject P cfg dur all selected fs ans file).fs ∧
      (runProject P cfg dur all selected fs ans file).fs.get P.root = some .dir := by
  obtain ⟨h0, -, d0⟩ := mkOut_ok hp h
  have hrd := d0 _ (List.prefix_append _ _)
  obtain ⟨i1, i2⟩ := runCases_inv (P := P) hp cfg
    (ranNames (runAsync P.u fl cfg (projectOutcome P cfg dur (mkdirs fs P.out, ans)) selected file).1) (mkdirs fs P.out, ans)
    (fun m hm => hsel m ((trace_names _ _ _ _ _).subset hm)) ⟨h0, hrd⟩
  obtain ⟨f2, e2, h2, -⟩ := index_ok hp i1 i2 (indexText all)
  unfold runProject
  dsimp only
  split
  · exact ⟨i1, i2⟩
  · rw [e2]
    refine ⟨h2, ?_⟩
    have eg : f2 = FS.write (runCases P cfg (ranNames (runAsync P.u fl cfg (projectOutcome P cfg dur
        (mkdirs fs P.out, ans)) selected file).1) (mkdirs fs P.out, ans)).1 (P.root ++ ["index.md".toList])
        (indexText all) := by
      unfold openW at e2
      split at e2
      · cases e2
      · split at e2
        · cases e2; rfl
        · cases e2
    rw [eg]
    unfold FS.write
    rw [get_cons, if_neg (by simp)]
    exact i2

private theorem covered_shape (hroot : root ≠ []) {S : Site} (config : Dict CVal) (dur : Str → fl.D)
    (cases ans : List Str) {w : World} (h : SoundTree root ns w.fs) :
    ∃ fs', SoundTree root ns fs' ∧ (∀ p, p.length ≠ 1 → fs'.get p = w.fs.get p) ∧
      (((runCovered S config dur cases ans w).world.fs = fs' ∧
        (runCovered S config dur cases ans w).world.report = w.report ∧ (runCovered S config dur cases ans w).ran = []) ∨
      ((runCovered S config dur cases ans w).world.report =
          (runProject S.P (configOf config) dur S.names cases fs' ans w.report).report ∧
        (runCovered S config dur cases ans w).ran =
          ranNames (runEvents S.P (configOf config) dur cases fs' ans w.report) ∧
        (SoundTree root ns (runProject S.P (configOf config) dur S.names cases fs' ans w.report).fs →
          (runProject S.P (configOf config) dur S.names cases fs' ans w.report).fs.get root = some .dir →
          SoundTree root ns (runCovered S config dur cases ans w).world.fs ∧ ∀ p, p.length ≠ 1 →
            (runCovered S config dur cases ans w).world.fs.get p =
              (runProject S.P (configOf config) dur S.names cases fs' ans w.report).fs.get p))) := by
  unfold runCovered
  by_cases hcov : isOn config "coverage".toList = true
  · rw [if_pos hcov]
    by_cases hany : w.fs.any (fun e => isCoverageFile e.1 && w.fs.isDir e.1) = true
    · rw [if_pos hany]
      exact ⟨w.fs, h, fun _ _ => rfl, Or.inl ⟨rfl, rfl, rfl⟩⟩
    · rw [if_neg hany]
      obtain ⟨a1, a2⟩ := top_removed (fs := w.fs) h isCoverageFile (fun p hp => coverage_length hp) (by
        intro p hp hd
        apply hany
        rw [List.any_eq_true]
        have hm : (p, Node.dir) ∈ w.fs := there_mem hd
        exact ⟨_, hm, by rw [hp, Bool.true_and, isDir_iff]; exact hd⟩)
      refine ⟨_, a1, a2, ?_⟩
      unfold runCommand
      by_cases hpar : isOn config "parallel".toList = true
      · rw [if_pos hpar]
        exact Or.inl ⟨rfl, rfl, rfl⟩
      · rw [if_neg hpar]
        right
        have hst : ∀ n, (runHere S config dur cases ans { w with fs := w.fs.filter (fun e => !isCoverageFile e.1) }).status ≠
            .workers n := by
          intro n
          unfold runHere
          dsimp only
          split <;> simp
        dsimp only
        split
        · rename_i n hn
          exact absurd hn (hst n)
        · refine ⟨rfl, rfl, fun hs hd => ?_⟩
          exact coverage_written hroot hs hd S.coverage
  · rw [if_neg hcov]
    refine ⟨w.fs, h, fun _ _ => rfl, ?_⟩
    unfold runCommand
    by_cases hpar : isOn config "parallel".toList = true
    · rw [if_pos hpar]
      exact Or.inl ⟨rfl, rfl, rfl⟩
    · rw [if_neg hpar]
      exact Or.inr ⟨rfl, rfl, fun hs _ => ⟨hs, fun _ _ => rfl⟩⟩

private theorem long_same (hroot : root ≠ []) {fs g : FS} (h : ∀ p : Path, p.length ≠ 1 → g.get p = fs.get p) (n : Str) :
    snapshot root g n = snapshot root fs n ∧ outputFile root g n = outputFile root fs n := by
  unfold snapshot outputFile
  rw [h _ (slot_long hroot _ _ _), h _ (slot_long hroot _ _ _)]
  exact ⟨rfl, rfl⟩

private theorem executions_same {fs g : FS} (h : ∀ n, snapshot root g n = snapshot root fs n) (P : Project)
    (ran : List Str) : executionsOf root P g ran = executionsOf root P fs ran := by
  unfold executionsOf
  simp only [h]

/-! ### Commands -/

private theorem review_story {w : World} {h : List Execution} (hs : Story root ns u fl start w.fs w.report h)
    {P : Project} (hroot : P.root = root) (cfg : Config) (cases : Option (List Str)) {records : List (Rec fl)}
    (ho : ofFile u fl w.report = some records) (ans : List Str) :
    ((review fl cfg P.root P.out none cases records ans w.fs).2.1 = none →
      Story root ns u fl start (review fl cfg P.root P.out none cases records ans w.fs).1 w.report h) ∧
    ∀ rs code, (review fl cfg P.root P.out none cases records ans w.fs).2.1 = some (rs, code) →
      Story root ns u fl start (review fl cfg P.root P.out none cases records ans w.fs).1
        (applyEvs w.report (.truncate :: rs.map (Ev.write (fl := fl)))) h := by
  constructor
  · intro _
    have e : (review fl cfg P.root P.out none cases records ans w.fs).1 =
        (runAll w.fs (reviewsTask P cfg (passed records) cases records false ans)).1 := by
      rw [runAll_reviews]
      unfold review
      dsimp only [Option.getD_none]
      split <;> rfl
    rw [e]
    obtain ⟨k, hk⟩ := runAll_steps (reviewsTask P cfg (passed records) cases records false ans) w.fs
    exact hs.reviewing P cfg _ cases records ans k _ hroot ho hk
  · intro rs code e
    have ef : applyEvs w.report (.truncate :: rs.map (Ev.write (fl := fl))) = some (encode (toText fl rs)) := by
      have : applyEvs w.report (Ev.truncate :: rs.map (Ev.write (fl := fl))) = applyEvs (some []) (rs.map .write) := rfl
      rw [this, applyEvs_some _ _ (by simp), List.nil_append]
      have hw : writes (rs.map (Ev.write (fl := fl))) = rs := by
        induction rs with
        | nil => rfl
        | cons r rs ih => simp [writes]
      rw [hw]
    rw [ef]
    exact hs.reviewed P cfg none cases records rs ans code _ hroot ho e List.prefix_rfl

/-- A run whose tests change a snapshot. -/
private theorem run_change (hp : PlainNames ns) {P : Project} {fs : FS} (h : SoundTree P.root ns fs) {n : Str}
    (hn : n ∈ ns) {file : Option Bytes} (cfg : Config) (dur : Str → fl.D) (all ans : List Str) {selected : List Str}
    (hnd : selected.Nodup) (hsel : ∀ n ∈ selected, n ∈ ns) {old : List (Rec fl)} (ho : ofFile P.u fl file = some old)
    (hne : snapshot P.root (runProject P cfg dur all selected fs ans file).fs n ≠ snapshot P.root fs n) :
    n ∈ ranNames (runEvents P cfg dur selected fs ans file) ∧ ∃ text,
      Accepted P cfg n (snapshot P.root fs n) ans text ∧
      snapshot P.root (runProject P cfg dur all selected fs ans file).fs n = some text := by
  obtain ⟨h0, -, d0⟩ := mkOut_ok hp h
  have hrd := d0 _ (List.prefix_append _ _)
  have hsub : ∀ m ∈ (doneAndTodo cfg old selected).2, m ∈ ns := by
    intro m hm
    rw [(doneAndTodo_eq _ _ _).1] at hm
    exact hsel m (List.mem_filter.mp hm).1
  have hdup : (doneAndTodo cfg old selected).2.Nodup := by
    rw [(doneAndTodo_eq _ _ _).1]
    exact hnd.filter _
  have hran : ranNames (runEvents P cfg dur selected fs ans file) = ranNames (runLoop fl cfg
      (projectOutcome P cfg dur (mkdirs fs P.out, ans)) [] .OK 0 (doneAndTodo cfg old selected).2).1 := by
    unfold runEvents runAsync
    rw [ho]
    exact ranNames_writes _ _
  have hsubr : ∀ m ∈ ranNames (runEvents P cfg dur selected fs ans file), m ∈ ns := by
    intro m hm
    rw [hran] at hm
    exact hsub m ((runLoop_ran cfg _ _ [] .OK 0).1.subset hm)
  obtain ⟨i1, i2⟩ := runCases_inv (P := P) hp cfg _ (mkdirs fs P.out, ans) hsubr ⟨h0, hrd⟩
  obtain ⟨f2, e2, h2, s2⟩ := index_ok hp i1 i2 (indexText all)
  have hfs : ∃ k t, stepsOf k (fs, sequentialTask P cfg all (doneAndTodo cfg old selected).2 ans) =
      some ((runProject P cfg dur all selected fs ans file).fs, t) := by
    have e0 : ∀ x, runTask (mkdirs fs P.out) (loopTask P cfg all .OK 0 (doneAndTodo cfg old selected).2 ans) = x →
        runTask fs (sequentialTask P cfg all (doneAndTodo cfg old selected).2 ans) = x := by
      intro x hx
      rw [sequentialTask, run_mkdirs _ _ _ _ h.cwd]
      exact hx
    have ea : (runAsync P.u fl cfg (projectOutcome P cfg dur (mkdirs fs P.out, ans)) selected file).2 =
        (runLoop fl cfg (projectOutcome P cfg dur (mkdirs fs P.out, ans)) [] .OK 0
          (doneAndTodo cfg old selected).2).2 := by
      unfold runAsync; rw [ho]
    unfold runProject
    unfold runEvents at hran e2
    dsimp only
    rw [ea]
    cases hl : (runLoop fl cfg (projectOutcome P cfg dur (mkdirs fs P.out, ans)) [] .OK 0
        (doneAndTodo cfg old selected).2).2 with
    | none =>
      obtain ⟨e, he⟩ := run_loop_stop (P := P) hp cfg dur all (mkdirs fs P.out, ans) _ [] .OK 0 hsub h0 hl
      rw [List.nil_append, ← hran] at he
      obtain ⟨k, hk⟩ := run_steps _ (e0 _ he)
      exact ⟨k, _, hk⟩
    | some res =>
      obtain ⟨q, hq⟩ := run_loop (P := P) hp cfg dur all (mkdirs fs P.out, ans) _ [] .OK 0 hsub h0 res hl
      rw [List.nil_append, ← hran, e2] at hq
      dsimp only
      rw [e2]
      obtain ⟨k, hk⟩ := run_steps _ (e0 _ hq)
      exact ⟨k, _, hk⟩
  obtain ⟨k, t, hk⟩ := hfs
  obtain ⟨-, hc⟩ := C104_sequential hp h hsub hdup hk hn
  refine ⟨?_, ?_⟩
  · apply Decidable.byContradiction
    intro hnot
    apply hne
    have e := runCases_other (P := P) hp cfg hn _ (mkdirs fs P.out, ans) hsubr ⟨h0, hrd⟩ hnot
    have e' : snapshot P.root (runCases P cfg (ranNames (runEvents P cfg dur selected fs ans file))
        (mkdirs fs P.out, ans)).1 n = snapshot P.root fs n := by
      rw [← (mkOut_ok hp h).2.1 n hn]
      unfold snapshot
      rw [e]
    unfold runProject
    unfold runEvents at e2 e' s2
    dsimp only
    split
    · exact e'
    · rw [e2]
      exact (s2 n hn).trans e'
  · rcases hc with hc | ⟨text, -, ha, hs⟩
    · exact absurd hc hne
    · exact ⟨text, ha, hs⟩

private theorem latest_new {log : List Execution} {P : Project} {fs : FS} {ran : List Str} {n : Str} (h : n ∈ ran) :
    latestRun (log ++ executionsOf root P fs ran) n = some ⟨n, P, snapshot root fs n, false⟩ := by
  unfold latestRun
  rw [List.filter_append]
  have : ∀ e ∈ (executionsOf root P fs ran).filter (fun e => decide (e.name = n)),
      e = ⟨n, P, snapshot root fs n, false⟩ := by
    intro e he
    obtain ⟨h1, h2⟩ := List.mem_filter.mp he
    obtain ⟨m, -, rfl⟩ := List.mem_map.mp h1
    have : m = n := of_decide_eq_true h2
    rw [this]
  have hne : (executionsOf root P fs ran).filter (fun e => decide (e.name = n)) ≠ [] := by
    apply List.ne_nil_of_mem (a := (⟨n, P, snapshot root fs n, false⟩ : Execution))
    exact List.mem_filter.mpr ⟨List.mem_map.mpr ⟨n, h, rfl⟩, decide_eq_true rfl⟩
  rw [List.getLast?_append, List.getLast?_eq_some_getLast hne, this _ (List.getLast_mem hne)]
  rfl

private theorem accepted_taken {P : Project} {cfg : Config} {n : Str} {fs : FS} {ans : List Str} {text : Str}
    {log : List Execution} {ran : List Str} (hr : n ∈ ran) (h : Accepted P cfg n (snapshot root fs n) ans text) :
    TakenOver cfg ans (log ++ executionsOf root P fs ran) n (some text) := by
  obtain ⟨s, l, hl, hs, ha, e⟩ := h
  exact ⟨_, text, _, l, latest_new hr, ⟨s, hs, e, rfl⟩, accepts_not_fail ha, hl, ha, rfl⟩

private theorem latest_untold (h : List Execution) (n : Str) :
    latestRun (h.map untold) n = (latestRun h n).map untold := by
  unfold latestRun
  rw [List.filter_map, List.getLast?_map]
  rfl

private theorem command_story (hp : PlainNames ns) (hclean : ∀ n ∈ ns, CleanName n) (hroot : root ≠ [])
    (hparts : ∀ c ∈ root, c ≠ []) (hnames : ∀ n ∈ ns, Normal n) {n0 : Str} (h0 : n0 ∈ ns)
    (hS : SoundTree root ns start) {w : World} {h : List Execution}
    (hs : Story root ns u fl start w.fs w.report h) {S : Site} (hH : Hosts root ns u S) (args ans : List Str)
    (dur : Str → fl.D) :
    ∃ h', Story root ns u fl start (booktest S args ans dur w).world.fs (booktest S args ans dur w).world.report
        (h ++ h') ∧ h'.map untold = executionsOf root S.P w.fs (booktest S args ans dur w).ran := by
  have same : ∀ e : CommandEnd, e.world.fs = w.fs → e.world.report = w.report → e.ran = [] →
      ∃ h', Story root ns u fl start e.world.fs e.world.report (h ++ h') ∧
        h'.map untold = executionsOf root S.P w.fs e.ran := by
    intro e e1 e2 e3
    rw [e1, e2, e3]
    exact ⟨[], by rw [List.append_nil]; exact hs, rfl⟩
  by_cases hr : ∃ uses cases, Reads S.N (testChoices S.names) args uses cases
  · obtain ⟨uses, cases, hr⟩ := hr
    rcases booktest_reads (w := w) hr ans dur with ⟨e, he⟩ | ⟨config, sel, selected, records, cmd, hprep, -, hcmd, e⟩
    · rw [e]; exact same _ rfl rfl rfl
    · have ho : ofFile u fl w.report = some records := by rw [← hH.unicode]; exact hprep.records
      rw [e]
      unfold dispatch
      dsimp only
      by_cases hcm : cmd = some "--setup".toList
      · rw [if_pos hcm]
        cases setupBooktest config ans <;> exact same _ rfl rfl rfl
      rw [if_neg hcm]
      clear hcm
      by_cases hcm : cmd = some "--config".toList
      · rw [if_pos hcm]
        exact same _ rfl rfl rfl
      rw [if_neg hcm]
      clear hcm
      by_cases hcm : cmd = some "--garbage".toList
      · rw [if_pos hcm]
        exact same _ rfl rfl rfl
      rw [if_neg hcm]
      clear hcm
      by_cases hcm : cmd = some "--print".toList
      · rw [if_pos hcm]
        exact same _ rfl rfl rfl
      rw [if_neg hcm]
      clear hcm
      by_cases hcm : cmd = some "--path".toList
      · rw [if_pos hcm]
        exact same _ rfl rfl rfl
      rw [if_neg hcm]
      clear hcm
      by_cases hcm : cmd = some "--view".toList
      · rw [if_pos hcm]
        exact same _ rfl rfl rfl
      rw [if_neg hcm]
      clear hcm
      by_cases hcm : cmd = some "--clean".toList
      · rw [if_pos hcm]
        obtain ⟨c1, c2, c3⟩ := clean_story hp hH hroot hparts hnames (story_inv hp h0 hS hs).sound
        refine ⟨[], ?_, rfl⟩
        show Story root ns u fl start (cleanWorld S.P S.names w).fs (cleanWorld S.P S.names w).report (h ++ [])
        rw [c2, List.append_nil]
        exact hs.clean c1 c3
      rw [if_neg hcm]
      clear hcm
      by_cases hcm : cmd = some "-l".toList
      · rw [if_pos hcm]
        exact same _ rfl rfl rfl
      rw [if_neg hcm]
      clear hcm
      by_cases hcm : cmd = some "--review".toList
      · rw [if_pos hcm]
        by_cases hm : w.metrics = true
        · rw [if_pos hm]
          obtain ⟨r1, r2⟩ := review_story hs hH.root (configOf config) (some selected) ho ans
          generalize review fl (configOf config) S.P.root S.P.out none (some selected) records ans w.fs = x at r1 r2 ⊢
          obtain ⟨fs, _ | ⟨rs, rv⟩, log⟩ := x
          · exact ⟨[], by rw [List.append_nil]; exact r1 rfl, rfl⟩
          · exact ⟨[], by rw [List.append_nil]; exact r2 _ _ rfl, rfl⟩
        · rw [if_neg hm]; exact same _ rfl rfl rfl
      rw [if_neg hcm]
      clear hcm
      by_cases hcm : cmd = some "--forget".toList
      · rw [if_pos hcm]
        by_cases hm : w.fs.isDir S.P.out = true
        · rw [if_pos hm]
          refine ⟨[], ?_, rfl⟩
          rw [List.append_nil]
          refine hs.forget selected (.truncate :: (forgetRecords records selected).map .write) _ ?_
            (.clean _ [] (by rw [List.append_nil]))
          unfold forget
          rw [ho]
          rfl
        · rw [if_neg hm]; exact same _ rfl rfl rfl
      rw [if_neg hcm]
      clear hcm
      have hsound := (story_inv hp h0 hS hs).sound
      obtain ⟨fs', a1, a2, a3⟩ := covered_shape (S := S) hroot config dur selected ans hsound
      have hs' : Story root ns u fl start fs' w.report h := hs.elsewhere a1 (fun n _ => long_same hroot a2 n)
      rw [← executions_same (fun n => (long_same hroot a2 n).1)]
      rcases a3 with ⟨b1, b2, b3⟩ | ⟨b1, b2, b3⟩
      · rw [b1, b2, b3]
        exact ⟨[], by rw [List.append_nil]; exact hs', rfl⟩
      · obtain ⟨n1, n2⟩ := selected_names hprep.names
        have hsel : ∀ n ∈ selected, n ∈ ns ∧ CleanName n := fun n hn =>
          have := (hH.names n).mp (n2 n hn)
          ⟨this, hclean n this⟩
        obtain ⟨h', c1, c2⟩ := run_story hp h0 hS hs' (configOf config) dur S.names ans hH.root hH.unicode n1 hsel ho
        have a1' := a1
        rw [← hH.root] at a1'
        obtain ⟨r1, r2⟩ := run_root hp a1' w.report (configOf config) dur S.names ans (fun n hn => (hsel n hn).1)
        rw [hH.root] at r1 r2
        obtain ⟨d1, d2⟩ := b3 r1 r2
        rw [b1, b2]
        exact ⟨h', c1.elsewhere d1 (fun n _ => long_same hroot d2 n), c2⟩
  · rcases booktest_rejected (w := w) (fun uses cases hx => hr ⟨uses, cases, hx⟩) ans dur with e | e
    · rw [e]; exact same _ rfl rfl rfl
    · rw [e]; exact same _ rfl rfl rfl

private theorem about_names {S : Site} {w : World} {uses : List (Str × CVal)} {cases : Option (List Str)}
    {selected : List Str} (h : AboutTests S w uses cases (some selected)) :
    selected.Nodup ∧ ∀ n ∈ selected, n ∈ S.names := by
  obtain ⟨sel, stored, -, -, e⟩ := h
  exact selected_names e

private theorem runs_tidy {S : Site} {selected : List Str} {old : List (Rec fl)} {c : RConf fl}
    (h : RunsTests S selected old c) (hnd : selected.Nodup) (hsel : ∀ n ∈ selected, n ∈ ns ∧ CleanName n) : Tidy c := by
  have e := h.todo
  rw [(doneAndTodo_eq _ _ _).1] at e
  refine ⟨by rw [e]; exact hnd.filter _, h.batches, fun n hn => ?_⟩
  rw [e] at hn
  exact (hsel n (List.mem_filter.mp hn).1).2

private theorem killed_story (hp : PlainNames ns) (hclean : ∀ n ∈ ns, CleanName n) (hroot : root ≠ [])
    (hparts : ∀ c ∈ root, c ≠ []) (hnames : ∀ n ∈ ns, Normal n) {n0 : Str} (h0 : n0 ∈ ns)
    (hS : SoundTree root ns start) {w w' : World} {h : List Execution}
    (hs : Story root ns u fl start w.fs w.report h) {S : Site} (hH : Hosts root ns u S) {uses : List (Str × CVal)}
    {cases : Option (List Str)} {selected : List Str} (ha : AboutTests S w uses cases (some selected)) {cfg : Config}
    {ans ran : List Str} (hK : Killed fl S w uses selected cfg ans w' ran) :
    ∃ h', Story root ns u fl start w'.fs w'.report (h ++ h') ∧ h'.map untold = executionsOf root S.P w.fs ran := by
  obtain ⟨n1, n2⟩ := about_names ha
  have hsel : ∀ n ∈ selected, n ∈ ns ∧ CleanName n := fun n hn =>
    have := (hH.names n).mp (n2 n hn)
    ⟨this, hclean n this⟩
  have hsound := (story_inv hp h0 hS hs).sound
  have hu := hH.unicode
  subst hu
  cases hK with
  | between dur evs report metrics _ _ hst hsome =>
    exact ⟨_, hs.run S.P cfg dur selected ans evs hH.root n1 hsel hst hsome, by rw [List.map_map]; rfl⟩
  | during dur evs rest n o k g t _ _ he hk =>
    have := hs.runDuring S.P cfg dur selected ans evs rest n o k t hH.root n1 hsel he hk
    rw [List.append_assoc] at this
    refine ⟨_, this, ?_⟩
    unfold executionsOf
    rw [List.map_append, List.map_append, List.map_map]
    rfl
  | reviewing records k g t _ ho hk =>
    exact ⟨[], by rw [List.append_nil]; exact hs.reviewing S.P cfg _ _ records ans k t hH.root ho hk, rfl⟩
  | reviewed records rs code b _ ho he hb =>
    exact ⟨[], by rw [List.append_nil]; exact hs.reviewed S.P cfg none _ records rs ans code b hH.root ho he hb, rfl⟩
  | forgetting trace evs report _ he hst =>
    exact ⟨[], by rw [List.append_nil]; exact hs.forget selected trace evs he hst, rfl⟩
  | cleaning gone reported metrics _ hdeep hgone hord =>
    obtain ⟨c1, -, c3⟩ := clean_part hp hH hroot hparts hnames hsound gone hgone
    refine ⟨[], ?_, rfl⟩
    rw [List.append_nil]
    cases reported with
    | false => exact hs.clean c1 c3
    | true =>
      refine hs.elsewhere c1 (fun n hn => ⟨c3 n hn, ?_⟩)
      unfold outputFile
      show FS.get (w.fs.filter (fun e => !gone e.1)) _ = _
      rw [get_filter (fun q => !gone q), if_pos]
      rw [Bool.not_eq_true', ← Bool.not_eq_true]
      intro hc
      obtain ⟨d1, d2⟩ := output_deep (hdeep n ((hH.names n).mpr hn)) root
      have ho : S.P.out = booksDir root true := by rw [← hH.root]; exact out_eq _
      exact d2 ((hord rfl _ hc (by rw [ho]; exact d1)).trans ho)

/-- Sessions are stories. -/
private theorem session_story (hp : PlainNames ns) (hclean : ∀ n ∈ ns, CleanName n) (hroot : root ≠ [])
    (hparts : ∀ c ∈ root, c ≠ []) (hnames : ∀ n ∈ ns, Normal n) {n0 : Str} (h0 : n0 ∈ ns) {start w : World}
    (hS : SoundTree root ns start.fs) (hnew : start.report = none) {log : List Execution}
    {ok : Site → World → List Str → Prop}
    (hs : Session root ns u fl ok start w log) :
    ∃ h, Story root ns u fl start.fs w.fs w.report h ∧ h.map untold = log := by
  induction hs with
  | start => exact ⟨[], by rw [hnew]; exact .start, rfl⟩
  | @command w log S args ans dur _ hH hc ih =>
    obtain ⟨h, i1, i2⟩ := ih
    obtain ⟨h', j1, j2⟩ := command_story hp hclean hroot hparts hnames h0 hS i1 hH args ans dur
    exact ⟨h ++ h', j1, by rw [List.map_append, i2, j2]⟩
  | @workers w log S args uses cases selected old c ans s b metrics _ hH _ hr _ _ ha _ ho hR hreach hb ih =>
    obtain ⟨h, i1, i2⟩ := ih
    obtain ⟨n1, n2⟩ := about_names ha
    have hsel : ∀ n ∈ selected, n ∈ ns ∧ CleanName n := fun n hn =>
      have := (hH.names n).mp (n2 n hn)
      ⟨this, hclean n this⟩
    obtain ⟨index, rv, trace, t, j1, -, j3, j4, j5⟩ := C118_refines (runs_tidy hR n1 hsel) hR.unasked hreach
    rw [hR.project] at j1
    unfold parallelReport at hb
    have hb : b <+: encode (toText fl (keptRecords old c.todo ++ s.run.recorded)) := hb
    have hfilter : (c.todo.filter (fun n => decide (n ∈ s.ran))) = c.todo.filter (fun n => decide (n ∈ trace)) :=
      List.filter_congr (fun n _ => by simp only [j3 n])
    rw [hfilter]
    rw [hR.todo] at j1 j5 hb ⊢
    refine ⟨_, i1.parallel S.P c.cfg c.all selected trace index rv old s.run.recorded t b hH.root n1 hsel ho j1 j4
      (fun x hx => ⟨(j5 x hx).1, Or.inr (j5 x hx).2⟩) hb, ?_⟩
    rw [List.map_append, i2, List.map_map]
    rfl
  | @killed w log S args uses cases selected cfg ans w' ran _ hH _ _ ha _ hK ih =>
    obtain ⟨h, i1, i2⟩ := ih
    obtain ⟨h', j1, j2⟩ := killed_story hp hclean hroot hparts hnames h0 hS i1 hH ha hK
    exact ⟨h ++ h', j1, by rw [List.map_append, i2, j2]⟩
  | @edit w log settings g _ hg hsame ih =>
    obtain ⟨h, i1, i2⟩ := ih
    exact ⟨h, i1.elsewhere hg hsame, i2⟩

/-! ### What sessions leave -/

private theorem only_run {S : Site} {args : List Str} {uses : List (Str × CVal)} {cases : Option (List Str)}
    (hr : Reads S.N (testChoices S.names) args uses cases) {cmd : Option Str} (hcmd : ∀ c, cmd = some c ↔ AsksFor uses c)
    (h1 : cmd ≠ some "--setup".toList) (h2 : cmd ≠ some "--config".toList) (h3 : cmd ≠ some "--garbage".toList)
    (h4 : cmd ≠ some "--print".toList) (h5 : cmd ≠ some "--path".toList) (h6 : cmd ≠ some "--view".toList)
    (h7 : cmd ≠ some "--clean".toList) (h8 : cmd ≠ some "-l".toList) (h9 : cmd ≠ some "--review".toList)
    (h10 : cmd ≠ some "--forget".toList) : AsksRun uses := by
  intro c hx
  have hm := asked_command hr hx
  rw [← hcmd] at hx
  subst hx
  have key : ∀ d ∈ commands.map (·.2), d = "--setup".toList ∨ d = "--config".toList ∨ d = "--garbage".toList ∨
      d = "--print".toList ∨ d = "--path".toList ∨ d = "--view".toList ∨ d = "--clean".toList ∨ d = "-l".toList ∨
      d = "--review".toList ∨ d = "--forget".toList := by decide
  rcases key c hm with e | e | e | e | e | e | e | e | e | e
  · exact h1 (by rw [e])
  · exact h2 (by rw [e])
  · exact h3 (by rw [e])
  · exact h4 (by rw [e])
  · exact h5 (by rw [e])
  · exact h6 (by rw [e])
  · exact h7 (by rw [e])
  · exact h8 (by rw [e])
  · exact h9 (by rw [e])
  · exact h10 (by rw [e])

/-- A command that changes a snapshot. -/
private theorem command_change (hp : PlainNames ns) (hclean : ∀ n ∈ ns, CleanName n) (hroot : root ≠ [])
    (hparts : ∀ c ∈ root, c ≠ []) (hnames : ∀ n ∈ ns, Normal n) (hS : SoundTree root ns start) {w : World}
    {h : List Execution} (hs : Story root ns u fl start w.fs w.report h) {S : Site} (hH : Hosts root ns u S)
    (args ans : List Str) (dur : Str → fl.D) {n : Str} (hn : n ∈ ns)
    (hne : snapshot root (booktest S args ans dur w).world.fs n ≠ snapshot root w.fs n) :
    ∃ uses cases cfg, Reads S.N (testChoices S.names) args uses cases ∧ ConfigSaid u w.settings uses cfg ∧
      (AsksRun uses ∨ AsksFor uses "--review".toList) ∧
      TakenOver cfg ans (h.map untold ++ executionsOf root S.P w.fs (booktest S args ans dur w).ran) n
        (snapshot root (booktest S args ans dur w).world.fs n) := by
  by_cases hr : ∃ uses cases, Reads S.N (testChoices S.names) args uses cases
  · obtain ⟨uses, cases, hr⟩ := hr
    rcases booktest_reads (w := w) hr ans dur with ⟨e, he⟩ | ⟨config, sel, selected, records, cmd, hprep, -, hcmd, e⟩
    · rw [e] at hne; exact absurd rfl hne
    · have ho : ofFile u fl w.report = some records := by rw [← hH.unicode]; exact hprep.records
      have hsaid := config_on hprep
      rw [hH.unicode] at hsaid
      have hsound := (story_inv hp hn hS hs).sound
      rw [e] at hne ⊢
      unfold dispatch at hne ⊢
      dsimp only at hne ⊢
      by_cases h_setup : cmd = some "--setup".toList
      · rw [if_pos h_setup] at hne
        exfalso
        revert hne
        cases setupBooktest config ans <;> exact fun hne => hne rfl
      rw [if_neg h_setup] at hne ⊢
      by_cases h_config : cmd = some "--config".toList
      · rw [if_pos h_config] at hne
        exact absurd rfl hne
      rw [if_neg h_config] at hne ⊢
      by_cases h_garbage : cmd = some "--garbage".toList
      · rw [if_pos h_garbage] at hne
        exact absurd rfl hne
      rw [if_neg h_garbage] at hne ⊢
      by_cases h_print : cmd = some "--print".toList
      · rw [if_pos h_print] at hne
        exact absurd rfl hne
      rw [if_neg h_print] at hne ⊢
      by_cases h_path : cmd = some "--path".toList
      · rw [if_pos h_path] at hne
        exact absurd rfl hne
      rw [if_neg h_path] at hne ⊢
      by_cases h_view : cmd = some "--view".toList
      · rw [if_pos h_view] at hne
        exact absurd rfl hne
      rw [if_neg h_view] at hne ⊢
      by_cases h_clean : cmd = some "--clean".toList
      · rw [if_pos h_clean] at hne
        exact absurd ((clean_story hp hH hroot hparts hnames hsound).2.2 n hn) hne
      rw [if_neg h_clean] at hne ⊢
      by_cases h_l : cmd = some "-l".toList
      · rw [if_pos h_l] at hne
        exact absurd rfl hne
      rw [if_neg h_l] at hne ⊢
      by_cases h_review : cmd = some "--review".toList
      · rw [if_pos h_review] at hne ⊢
        by_cases hm : w.metrics = true
        · rw [if_pos hm] at hne ⊢
          refine ⟨uses, cases, configOf config, hr, hsaid, Or.inr ((hcmd _).mp h_review), ?_⟩
          have key : snapshot root (review fl (configOf config) S.P.root S.P.out none (some selected) records ans
              w.fs).1 n ≠ snapshot root w.fs n →
              TakenOver (configOf config) ans (h.map untold) n (snapshot root (review fl (configOf config) S.P.root
                S.P.out none (some selected) records ans w.fs).1 n) := by
            have er : (review fl (configOf config) S.P.root S.P.out none (some selected) records ans w.fs).1 =
                (runAll w.fs (reviewsTask S.P (configOf config) (passed records) (some selected) records false
                  ans)).1 := by
              rw [runAll_reviews]
              unfold review
              dsimp only [Option.getD_none]
              split <;> rfl
            rw [er]
            obtain ⟨k, hk⟩ := runAll_steps (reviewsTask S.P (configOf config) (passed records) (some selected) records
              false ans) w.fs
            intro hne
            have hS' := hS
            have hs' := hs
            rw [← hH.root] at hS' hs' hne ⊢
            obtain ⟨e, text, v, d, l, q1, -, q3, q4, -, q6, q7, q8⟩ := C105_review_partial hp hS' hs' ho
              (configOf config) _ _ _ hk hn hne
            exact ⟨untold e, text, v, l, by rw [latest_untold, q1]; rfl, q3, q4, q6, q7, q8⟩
          revert hne key
          generalize review fl (configOf config) S.P.root S.P.out none (some selected) records ans w.fs = x
          intro hne key
          obtain ⟨fs, _ | ⟨rs, rv⟩, log⟩ := x
          · rw [show executionsOf root S.P w.fs _ = [] from rfl, List.append_nil]
            exact key hne
          · rw [show executionsOf root S.P w.fs _ = [] from rfl, List.append_nil]
            exact key hne
        · rw [if_neg hm] at hne
          exact absurd rfl hne
      rw [if_neg h_review] at hne ⊢
      by_cases h_forget : cmd = some "--forget".toList
      · rw [if_pos h_forget] at hne
        by_cases hm : w.fs.isDir S.P.out = true
        · rw [if_pos hm] at hne; exact absurd rfl hne
        · rw [if_neg hm] at hne; exact absurd rfl hne
      rw [if_neg h_forget] at hne ⊢
      have hrun := only_run hr hcmd h_setup h_config h_garbage h_print h_path h_view h_clean h_l h_review h_forget
      obtain ⟨fs', a1, a2, a3⟩ := covered_shape (S := S) hroot config dur selected ans hsound
      rw [← executions_same (fun n => (long_same hroot a2 n).1)]
      rw [← (long_same hroot a2 n).1] at hne
      rcases a3 with ⟨b1, b2, b3⟩ | ⟨b1, b2, b3⟩
      · rw [b1] at hne; exact absurd rfl hne
      obtain ⟨n1, n2⟩ := selected_names hprep.names
      have hsel : ∀ n ∈ selected, n ∈ ns := fun n hn => (hH.names n).mp (n2 n hn)
      refine ⟨uses, cases, configOf config, hr, hsaid, Or.inl hrun, ?_⟩
      have a1' := a1
      have ho' := ho
      rw [← hH.root] at a1'
      rw [← hH.unicode] at ho'
      obtain ⟨r1, r2⟩ := run_root hp a1' w.report (configOf config) dur S.names ans hsel
      rw [hH.root] at r1 r2
      obtain ⟨-, d2⟩ := b3 r1 r2
      rw [(long_same hroot d2 n).1] at hne ⊢
      rw [b2]
      have hne' := hne
      rw [← hH.root] at hne'
      obtain ⟨q1, text, q2, q3⟩ := run_change hp a1' hn (configOf config) dur S.names ans n1 hsel ho' hne'
      rw [hH.root] at q2 q3
      rw [q3]
      exact accepted_taken q1 q2
  · rcases booktest_rejected (w := w) (fun uses cases hx => hr ⟨uses, cases, hx⟩) ans dur with e | e
    · rw [e] at hne; exact absurd rfl hne
    · rw [e] at hne; exact absurd rfl hne


section
variable {ok : Site → World → List Str → Prop} {first w : World} {log : List Execution}

/-- **C117**: after any session the snapshot of a test is the one it had first, or all that one execution of the
test printed that did not fail. -/
theorem C117_snapshots (hp : PlainNames ns) (hclean : ∀ n ∈ ns, CleanName n) (hroot : root ≠ [])
    (hparts : ∀ c ∈ root, c ≠ []) (hnames : ∀ n ∈ ns, Normal n) (hS : SoundTree root ns first.fs)
    (hnew : first.report = none)
    (hs : Session root ns u fl ok first w log) {n : Str} (hn : n ∈ ns) :
    snapshot root w.fs n = snapshot root first.fs n ∨ ∃ e ∈ log, e.name = n ∧
      ∃ text v, e.Says text v ∧ v ≠ .FAIL ∧ snapshot root w.fs n = some text := by
  obtain ⟨h, h1, rfl⟩ := session_story hp hclean hroot hparts hnames hn hS hnew hs
  rcases C105_snapshots_partial hp hS h1 hn with e | ⟨e, he, e1, e2⟩
  · exact Or.inl e
  · exact Or.inr ⟨untold e, List.mem_map.mpr ⟨e, he, rfl⟩, e1, e2⟩

/-- **C117**: after any session, a record in the report that is no failure is about the latest execution of the test:
what it printed is still waiting, with the recorded verdict, or is the snapshot. -/
theorem C117_record (hp : PlainNames ns) (hclean : ∀ n ∈ ns, CleanName n) (hroot : root ≠ [])
    (hparts : ∀ c ∈ root, c ≠ []) (hnames : ∀ n ∈ ns, Normal n) (hS : SoundTree root ns first.fs)
    (hnew : first.report = none)
    (hs : Session root ns u fl ok first w log) {rs : List (Rec fl)} (hrs : ofFile u fl w.report = some rs) {n : Str}
    (hn : n ∈ ns) {r : Result} {d : fl.D} (hr : (n, r, d) ∈ rs) (hf : r ≠ .FAIL) :
    ∃ e text v, latestRun log n = some e ∧ e.Says text v ∧ v ≠ .FAIL ∧
      ((outputFile root w.fs n = some (.file text) ∧ r = v) ∨
        (outputFile root w.fs n = none ∧ snapshot root w.fs n = some text)) := by
  obtain ⟨h, h1, rfl⟩ := session_story hp hclean hroot hparts hnames hn hS hnew hs
  obtain ⟨e, text, v, e1, -, e3, e4, e5⟩ := C105_record_partial hp hS h1 hrs hn hr hf
  exact ⟨untold e, text, v, by rw [latest_untold, e1]; rfl, e3, e4, e5⟩

/-- **C117**: if a command after a session changes the snapshot of a test, then it is a run or `--review`, and the new
snapshot is what the latest execution of the test printed; that execution did not fail, and its verdict has been
accepted by the settings of this command or by the user, answering it. -/
theorem C117_change (hp : PlainNames ns) (hclean : ∀ n ∈ ns, CleanName n) (hroot : root ≠ [])
    (hparts : ∀ c ∈ root, c ≠ []) (hnames : ∀ n ∈ ns, Normal n) (hS : SoundTree root ns first.fs)
    (hnew : first.report = none)
    (hs : Session root ns u fl ok first w log) {S : Site} (hH : Hosts root ns u S) (args ans : List Str)
    (dur : Str → fl.D) {n : Str} (hn : n ∈ ns)
    (hne : snapshot root (booktest S args ans dur w).world.fs n ≠ snapshot root w.fs n) :
    ∃ uses cases cfg, Reads S.N (testChoices S.names) args uses cases ∧ ConfigSaid u w.settings uses cfg ∧
      (AsksRun uses ∨ AsksFor uses "--review".toList) ∧
      TakenOver cfg ans (log ++ executionsOf root S.P w.fs (booktest S args ans dur w).ran) n
        (snapshot root (booktest S args ans dur w).world.fs n) := by
  obtain ⟨h, h1, rfl⟩ := session_story hp hclean hroot hparts hnames hn hS hnew hs
  exact command_change hp hclean hroot hparts hnames hS h1 hH args ans dur hn hne

private theorem session_sound (hp : PlainNames ns) (hclean : ∀ n ∈ ns, CleanName n) (hroot : root ≠ [])
    (hparts : ∀ c ∈ root, c ≠ []) (hnames : ∀ n ∈ ns, Normal n) (hS : SoundTree root ns first.fs)
    (hnew : first.report = none)
    (hs : Session root ns u fl ok first w log) {n : Str} (hn : n ∈ ns) : SoundTree root ns w.fs := by
  obtain ⟨h, h1, -⟩ := session_story hp hclean hroot hparts hnames hn hS hnew hs
  exact (story_inv hp hn hS h1).sound

/-- **C117**: the same for a run with workers, at any moment. -/
theorem C117_workers (hp : PlainNames ns) (hclean : ∀ n ∈ ns, CleanName n) (hroot : root ≠ [])
    (hparts : ∀ c ∈ root, c ≠ []) (hnames : ∀ n ∈ ns, Normal n) (hS : SoundTree root ns first.fs)
    (hnew : first.report = none)
    (hs : Session root ns u fl ok first w log) {S : Site} (hH : Hosts root ns u S) {uses : List (Str × CVal)}
    {cases : Option (List Str)} {selected ans : List Str} {old : List (Rec fl)} {c : RConf fl} {s : RSt fl}
    (ha : AboutTests S w uses cases (some selected)) (hR : RunsTests S selected old c) (H : RReach c w.fs ans s)
    {n : Str} (hn : n ∈ ns) (hne : snapshot root s.fs n ≠ snapshot root w.fs n) :
    TakenOver c.cfg ans (log ++ executionsOf root S.P w.fs (c.todo.filter (fun n => decide (n ∈ s.ran)))) n
      (snapshot root s.fs n) := by
  have hsound := session_sound hp hclean hroot hparts hnames hS hnew hs hn
  obtain ⟨n1, n2⟩ := about_names ha
  have hsel : ∀ n ∈ selected, n ∈ ns ∧ CleanName n := fun n hn =>
    have := (hH.names n).mp (n2 n hn)
    ⟨this, hclean n this⟩
  have hsub : ∀ m ∈ c.todo, m ∈ ns := by
    intro m hm
    rw [hR.todo, (doneAndTodo_eq _ _ _).1] at hm
    exact (hsel m (List.mem_filter.mp hm).1).1
  have hr := hH.root
  subst hr
  rw [← hR.project] at hsound hne ⊢
  rcases (C118_snapshots (runs_tidy hR n1 hsel) hR.unasked hp hsound hsub H hn).2 with e | ⟨text, k1, k2, k3, k4⟩
  · exact absurd e hne
  · rw [k4]
    exact accepted_taken (List.mem_filter.mpr ⟨k1, decide_eq_true k2⟩) k3

/-- **C117**: the same for a command that is killed at any moment. -/
theorem C117_killed (hp : PlainNames ns) (hclean : ∀ n ∈ ns, CleanName n) (hroot : root ≠ [])
    (hparts : ∀ c ∈ root, c ≠ []) (hnames : ∀ n ∈ ns, Normal n) (hS : SoundTree root ns first.fs)
    (hnew : first.report = none) (hs : Session root ns u fl ok first w log) {S : Site} (hH : Hosts root ns u S)
    {uses : List (Str × CVal)} {cases : Option (List Str)} {selected ans ran : List Str} {cfg : Config} {w' : World}
    (ha : AboutTests S w uses cases (some selected)) (hK : Killed fl S w uses selected cfg ans w' ran)
    {n : Str} (hn : n ∈ ns) (hne : snapshot root w'.fs n ≠ snapshot root w.fs n) :
    (AsksRun uses ∨ AsksFor uses "--review".toList) ∧
      TakenOver cfg ans (log ++ executionsOf root S.P w.fs ran) n (snapshot root w'.fs n) := by
  obtain ⟨h, hst, rfl⟩ := session_story hp hclean hroot hparts hnames hn hS hnew hs
  have hsound := (story_inv hp hn hS hst).sound
  obtain ⟨n1, n2⟩ := about_names ha
  have hsel : ∀ n ∈ selected, n ∈ ns := fun n hn => (hH.names n).mp (n2 n hn)
  have hsub : ∀ (dur : Str → fl.D) (evs rest : List (Ev fl)),
      (runAsync S.P.u fl cfg (projectOutcome S.P cfg dur (mkdirs w.fs S.P.out, ans)) selected w.report).1 = evs ++ rest →
      (ranNames evs).Nodup ∧ ∀ m ∈ ranNames evs, m ∈ ns := by
    intro dur evs rest he
    have h1 := trace_names S.P.u cfg (projectOutcome S.P cfg dur (mkdirs w.fs S.P.out, ans)) selected w.report
    rw [he, ranNames_append] at h1
    have h2 := (List.sublist_append_left _ _).trans h1
    exact ⟨h2.nodup n1, fun m hm => hsel m (h2.subset hm)⟩
  have hr := hH.root
  subst hr
  obtain ⟨m1, m2, m3⟩ := mkOut_ok hp hsound
  have hroot' := m3 _ (List.prefix_append _ _)
  have review_case : ∀ (records : List (Rec fl)), ofFile S.P.u fl w.report = some records → ∀ k g t,
      stepsOf k (w.fs, reviewsTask S.P cfg (passed records) (some selected) records false ans) = some (g, t) →
      snapshot S.P.root g n ≠ snapshot S.P.root w.fs n →
      TakenOver cfg ans (h.map untold) n (snapshot S.P.root g n) := by
    intro records ho k g t hk hne
    rw [hH.unicode] at ho
    obtain ⟨e, text, v, d, l, q1, -, q3, q4, -, q6, q7, q8⟩ := C105_review_partial hp hS hst ho cfg _ _ _ hk hn hne
    exact ⟨untold e, text, v, l, by rw [latest_untold, q1]; rfl, q3, q4, q6, q7, q8⟩
  cases hK with
  | between dur evs report metrics hrun _ hstop hsome =>
    refine ⟨Or.inl hrun, ?_⟩
    obtain ⟨rest, he⟩ : ∃ rest, (runAsync S.P.u fl cfg (projectOutcome S.P cfg dur (mkdirs w.fs S.P.out, ans)) selected
        w.report).1 = evs ++ rest := by
      cases hstop with
      | clean rest e => exact ⟨rest, e⟩
      | torn rest r b e _ => exact ⟨_, e⟩
    obtain ⟨k1, k2⟩ := hsub dur evs rest he
    rcases cases_change hp hn cfg (ranNames evs) (mkdirs w.fs S.P.out, ans) k2 k1 ⟨m1, hroot'⟩ with hc | ⟨hin, text, hA, hc⟩
    · exact absurd (hc.trans (m2 n hn)) hne
    · rw [m2 n hn] at hA
      dsimp only
      rw [hc]
      exact accepted_taken hin hA
  | during dur evs rest m o k g t hrun _ he hk =>
    refine ⟨Or.inl hrun, ?_⟩
    obtain ⟨k1, k2⟩ := hsub dur evs _ he
    obtain ⟨l1, l2⟩ := hsub dur (evs ++ [.exec m o]) rest (by rw [he, List.append_assoc]; rfl)
    rw [ranNames_append, show ranNames [Ev.exec m o] = [m] from rfl] at l1 l2
    have hm : m ∈ ns := l2 m (by simp)
    obtain ⟨i1, i2⟩ := runCases_inv (P := S.P) hp cfg (ranNames evs) (mkdirs w.fs S.P.out, ans) k2 ⟨m1, hroot'⟩
    dsimp only at hne ⊢
    by_cases hmn : n = m
    · subst hmn
      have hnot : n ∉ ranNames evs := by
        intro hc
        rw [List.nodup_append] at l1
        exact l1.2.2 n hc n (by simp) rfl
      have hsame : snapshot S.P.root (runCases S.P cfg (ranNames evs) (mkdirs w.fs S.P.out, ans)).1 n =
          snapshot S.P.root w.fs n := by
        rw [← m2 n hn]
        unfold snapshot
        rw [runCases_other (P := S.P) hp cfg hn (ranNames evs) (mkdirs w.fs S.P.out, ans) k2 ⟨m1, hroot'⟩ hnot]
      rcases case_change hp hm cfg _ hk with hc | ⟨text, hA, hc⟩
      · exact absurd (hc.trans hsame) hne
      · rw [hsame] at hA
        rw [hc]
        exact accepted_taken (by simp) (accepted_more (runCases_rest cfg _ _) hA)
    · obtain ⟨-, d2, -⟩ := during_case hp hm cfg i1 _ hk
      have hsame : snapshot S.P.root g n =
          snapshot S.P.root (runCases S.P cfg (ranNames evs) (mkdirs w.fs S.P.out, ans)).1 n := by
        unfold snapshot
        rw [d2 n hn hmn false]
      rw [hsame] at hne ⊢
      rcases cases_change hp hn cfg (ranNames evs) (mkdirs w.fs S.P.out, ans) k2 k1 ⟨m1, hroot'⟩ with
        hc | ⟨hin, text, hA, hc⟩
      · exact absurd (hc.trans (m2 n hn)) hne
      · rw [m2 n hn] at hA
        rw [hc]
        exact accepted_taken (List.mem_append_left _ hin) hA
  | reviewing records k g t hrev ho hk =>
    refine ⟨Or.inr hrev, ?_⟩
    rw [show executionsOf S.P.root S.P w.fs [] = [] from rfl, List.append_nil]
    exact review_case records ho k g t hk hne
  | reviewed records rs code b hrev ho he hb =>
    refine ⟨Or.inr hrev, ?_⟩
    rw [show executionsOf S.P.root S.P w.fs [] = [] from rfl, List.append_nil]
    have er : (review fl cfg S.P.root S.P.out none (some selected) records ans w.fs).1 =
        (runAll w.fs (reviewsTask S.P cfg (passed records) (some selected) records false ans)).1 := by
      rw [runAll_reviews]
      unfold review
      dsimp only [Option.getD_none]
      split <;> rfl
    obtain ⟨k, hk⟩ := runAll_steps (reviewsTask S.P cfg (passed records) (some selected) records false ans) w.fs
    dsimp only at hne ⊢
    rw [er] at hne ⊢
    exact review_case records ho k _ _ hk hne
  | forgetting trace evs report _ he hst => exact absurd rfl hne
  | cleaning gone reported metrics _ hdeep hgone hord =>
    exact absurd ((clean_part hp hH hroot hparts hnames hsound gone hgone).2.2 n hn) hne

private theorem unaccepted {cfg : Config} {v : Result} {l : List Str} (hu : cfg.update = false)
    (ha : cfg.accept = false) (hi : cfg.interactive = false) (hai : cfg.alwaysInteractive = false)
    (h : Accepts cfg v l) : False := by
  rcases h with ⟨hask, -⟩ | ⟨-, h⟩ | ⟨-, h⟩
  · rcases hask with h | h
    · rw [hai] at h; cases h
    · rw [hi] at h; cases h.2
  · rw [hu] at h; cases h
  · rw [ha] at h; cases h

private theorem off {c : Bool} {p : Prop} (h : c = true ↔ p) (hp : ¬ p) : c = false := by
  rw [← Bool.not_eq_true, h]; exact hp

/-- **C117**: in a session in which no command has one of `-u`, `-a`, `-i` and `-I` switched on, the snapshots stay
as they are, with workers or without. -/
theorem C117_unasked (hp : PlainNames ns) (hclean : ∀ n ∈ ns, CleanName n) (hroot : root ≠ [])
    (hparts : ∀ c ∈ root, c ≠ []) (hnames : ∀ n ∈ ns, Normal n) (hS : SoundTree root ns first.fs)
    (hnew : first.report = none)
    (hs : Session root ns u fl NoConsent first w log) {n : Str}
    (hn : n ∈ ns) : snapshot root w.fs n = snapshot root first.fs n := by
  induction hs with
  | start => rfl
  | @command w log S args ans dur hs hH hc ih =>
    rw [← ih]
    apply Decidable.byContradiction
    intro hne
    obtain ⟨uses, cases, cfg, h1, h2, -, e, text, v, l, -, -, -, -, h7, -⟩ :=
      C117_change hp hclean hroot hparts hnames hS hnew hs hH args ans dur hn hne
    have hno := hc uses cases h1
    rw [hH.unicode] at hno
    exact unaccepted (off h2.update (hno _ (by simp))) (off h2.accept (hno _ (by simp)))
      (off h2.interactive (hno _ (by simp))) (off h2.alwaysInteractive (hno _ (by simp))) h7
  | @workers w log S args uses cases selected old c ans s b metrics hs hH hc hr _ _ ha h2 ho hR hreach hb ih =>
    rw [← ih]
    apply Decidable.byContradiction
    intro hne
    obtain ⟨e, text, v, l, -, -, -, -, h7, -⟩ :=
      C117_workers hp hclean hroot hparts hnames hS hnew hs hH ha hR hreach hn hne
    have hno := hc uses cases hr
    rw [hH.unicode] at hno
    exact unaccepted (off h2.update (hno _ (by simp))) (off h2.accept (hno _ (by simp)))
      (off h2.interactive (hno _ (by simp))) (off h2.alwaysInteractive (hno _ (by simp))) h7
  | @killed w log S args uses cases selected cfg ans w' ran hs hH hc hr ha h2 hK ih =>
    rw [← ih]
    apply Decidable.byContradiction
    intro hne
    obtain ⟨-, e, text, v, l, -, -, -, -, h7, -⟩ :=
      C117_killed hp hclean hroot hparts hnames hS hnew hs hH ha hK hn hne
    have hno := hc uses cases hr
    rw [hH.unicode] at hno
    exact unaccepted (off h2.update (hno _ (by simp))) (off h2.accept (hno _ (by simp)))
      (off h2.interactive (hno _ (by simp))) (off h2.alwaysInteractive (hno _ (by simp))) h7
  | @edit w log settings g _ hg hsame ih =>
    rw [← ih]
    exact (hsame n hn).1

end

/-! ### A session -/

private def prints2 (x : String) : TestFn := ⟨⟨[.header "# t".toList, .tln x.toList], none⟩, [], [], none⟩

private def names2 : List Str := ["test/a".toList, "test/b".toList]

/-- A new project with two tests. -/
private def site : Site where
  N := ⟨fun _ => none, fun _ => false⟩
  P := ⟨ascii, false, some, ["books".toList], fun n => if n = "test/a".toList then prints2 "a" else prints2 "b"⟩
  suite := { cases := [("test/a".toList, ⟨none, 0⟩), ("test/b".toList, ⟨none, 1⟩)]
             info := fun _ => {}
             isInstance := fun _ _ => false }
  fuel := 10
  cpuCount := 4
  viewer := fun _ => 0
  coverage := ([], [])

private def fresh : World := ⟨⟨fun _ => none, [], []⟩, [([], .dir)], none, false⟩

private theorem silent (key : Str) (v : CVal) :
    ¬ Chosen ascii fresh.settings "~/.booktest".toList [] {} key (some v) := by
  intro h
  have h' := C58_priority_partial ascii fresh.settings [] (by simp [Dict.keys]) {} [] rfl key
  have := C58_unique ascii fresh.settings _ [] (by simp [Dict.keys]) {} key _ _ h h'
  cases this

/-- All commands. -/
private def anything (_ : Site) (_ : World) (_ : List Str) : Prop := True

private theorem site_hosts : Hosts ["books".toList] names2 ascii site := ⟨rfl, rfl, fun n => by rw [show site.names = names2 from rfl]⟩

/-- A run finds differences, `--review` asks about them, the user accepts the first one and enters `q` at the second
one, and is asked by a later run about the second one only. -/
private theorem session_example : ∃ w log, Session ["books".toList] names2 ascii strokes anything fresh w log ∧
    log.map (·.name) = names2 ++ ["test/b".toList] ∧
    snapshot ["books".toList] w.fs "test/a".toList = some "# t\n\na\n".toList ∧
    snapshot ["books".toList] w.fs "test/b".toList = none ∧
    snapshot ["books".toList] (booktest (fl := strokes) site ["--review".toList, "-a".toList] [] (fun _ => (0 : Nat))
      w).world.fs "test/b".toList = some "# t\n\nb\n".toList ∧ w.settings = fresh.settings ∧
    (booktest (fl := strokes) site ["--review".toList, "-a".toList] [] (fun _ => (0 : Nat)) w).ran = [] := by
  have h1 : (booktest (fl := strokes) site [] [] (fun _ => (0 : Nat)) fresh).world.settings = fresh.settings := rfl
  have h2 : (booktest (fl := strokes) site ["--review".toList, "-i".toList] ["a".toList, "q".toList] (fun _ => (0 : Nat))
      (booktest (fl := strokes) site [] [] (fun _ => (0 : Nat)) fresh).world).world.settings = fresh.settings := rfl
  refine ⟨_, _, .command (fl := strokes) site ["-c".toList] [] (fun _ => (0 : Nat))
    (.command (fl := strokes) site ["--review".toList, "-i".toList] ["a".toList, "q".toList] (fun _ => (0 : Nat))
    (.command (fl := strokes) site [] [] (fun _ => (0 : Nat)) .start site_hosts trivial)
      site_hosts trivial) site_hosts trivial, by decide +kernel, by decide +kernel, by decide +kernel, by decide +kernel,
    rfl, by decide +kernel⟩

private theorem two_names : PlainNames names2 := by
  refine ⟨?_, by unfold NotNested; decide⟩
  intro n hn
  simp only [names2, List.mem_cons, List.not_mem_nil, or_false] at hn
  rcases hn with rfl | rfl
  · exact ⟨by decide, by decide, by decide⟩
  · exact ⟨by decide, by decide, by decide⟩

private theorem fresh_sound (ns : List Str) : SoundTree ["books".toList] ns fresh.fs := by
  have g : ∀ p, FS.get fresh.fs p = if p = [] then some .dir else none := by
    intro p; rw [show fresh.fs = [([], .dir)] from rfl, get_cons]; rfl
  refine ⟨?_, rfl, ?_, ?_, ?_, ?_, ?_⟩
  · intro p c h; rw [g, if_neg (by simp)] at h; cases h
  · intro n _ o q _ t; rw [g]; split <;> simp
  · intro n _ o x hx _; rw [g, if_neg (slot_ne_nil _ o n (Or.inr hx))]; simp
  · intro n _ o x hx t; rw [g]; split <;> simp
  · decide
  · intro q _ t; rw [g]; split <;> simp

/-- `--review -a` after this session takes over what the second test printed last. -/
example : ∃ w log, Session ["books".toList] names2 ascii strokes anything fresh w log ∧
    ∃ uses cases cfg, Reads site.N (testChoices site.names) ["--review".toList, "-a".toList] uses cases ∧
      ConfigSaid ascii w.settings uses cfg ∧ (AsksRun uses ∨ AsksFor uses "--review".toList) ∧
      TakenOver cfg [] log "test/b".toList (some "# t\n\nb\n".toList) := by
  obtain ⟨w, log, h1, -, -, h4, h5, h6, h7⟩ := session_example
  refine ⟨w, log, h1, ?_⟩
  obtain ⟨uses, cases, cfg, e1, e2, e3, e4⟩ := C117_change two_names (by unfold CleanName names2; decide) (by decide)
    (by decide) (by unfold Normal names2; decide) (fresh_sound _) rfl h1 site_hosts
    ["--review".toList, "-a".toList] [] (fun _ => (0 : Nat)) (n := "test/b".toList)
    (by decide) (by rw [h4, h5]; simp)
  rw [h5, h7] at e4
  exact ⟨uses, cases, cfg, e1, e2, e3, by rw [← List.append_nil log]; exact e4⟩

/-! ### A session with workers -/

private def workersUses : List (Str × CVal) := [("parallel".toList, .bool true), ("accept".toList, .bool true)]

private theorem last_use {key : Str} {v : CVal} (h : Finally workersUses key v) :
    (key, v) ∈ workersUses := by
  obtain ⟨pre, x, post, e, rfl, -⟩ := h
  rw [e]; simp

private theorem workers_off {key : Str} (hk : key ∉ workersUses.map (·.1)) : ¬ On ascii fresh.settings workersUses key := by
  rintro ⟨v, hs, -⟩
  cases hs with
  | said _ h _ => exact hk (List.mem_map_of_mem (f := fun x : Str × CVal => x.1) (last_use h))
  | unsaid _ _ h => exact silent _ _ h

private theorem workers_accept : On ascii fresh.settings workersUses "accept".toList :=
  ⟨.bool true, .said _ ⟨[_], _, [], rfl, rfl, by simp⟩ ⟨by decide, by decide, by decide⟩, by decide, by decide, by decide⟩

private theorem workers_parallel : On ascii fresh.settings workersUses "parallel".toList :=
  ⟨.bool true, .said _ ⟨[], _, _, rfl, rfl, by
    intro y hy v' e
    rw [List.mem_singleton.mp hy] at e
    have e : "accept".toList = "parallel".toList := congrArg Prod.fst e
    revert e; decide⟩ ⟨by decide, by decide, by decide⟩, by decide, by decide, by decide⟩

private def crew : RConf strokes where
  u := ascii
  P := site.P
  cfg := { accept := true }
  all := names2
  todo := names2
  deps := fun _ => []
  res := fun _ => []
  zero := (0 : Nat)
  dur := fun _ => (1 : Nat)
  breaks := fun _ _ => False

/-- `booktest -p -a` is killed after what the first test printed has been accepted and recorded, while the second test is being
executed. -/
example : ∃ w log, Session ["books".toList] names2 ascii strokes anything fresh w log ∧
    log.map (·.name) = names2 ∧ snapshot ["books".toList] w.fs "test/a".toList = some "# t\n\na\n".toList ∧
    snapshot ["books".toList] w.fs "test/b".toList = none ∧
    ofFile ascii strokes w.report = some [("test/a".toList, .OK, (1 : Nat))] := by
  have h0 : RReach crew fresh.fs [] _ := .init
  have h1 := h0.step (.scheduler _ _ (.planned _ names2 names2 rfl (by decide) rfl (by decide) (by decide)) rfl rfl)
  have h2 := h1.step (.scheduler _ _ (.start _ _ _ rfl (by decide)) rfl rfl)
  have h3 := h2.step (.scheduler _ _ (.start _ _ _ rfl (by decide)) rfl rfl)
  have h4 := h3.step (.scheduler _ _ (.startedAll _ rfl) rfl rfl)
  have h5 := h4.step (.opens _ "test/a".toList ⟨by decide, by decide⟩ rfl)
  have h6 := h5.step (.opens _ "test/b".toList ⟨by decide, by decide⟩ rfl)
  have h7 := works_many h6 "test/b".toList ⟨by decide, by decide⟩ rfl 5 rfl
  have h8 := works_many h7 "test/a".toList ⟨by decide, by decide⟩ rfl 18 rfl
  have h9 := h8.step (.writes _ "test/a".toList .OK .NONE ⟨by decide, by decide⟩ rfl rfl)
  have h10 := h9.step (.indexes _ "test/a".toList _ _ _ ⟨by decide, by decide⟩ rfl rfl rfl)
  have h11 := h10.step (.ends _ "test/a".toList ⟨by decide, by decide⟩ (.whole rfl))
  have h12 := h11.step (.scheduler _ _ (.again _ rfl rfl) rfl rfl)
  have h13 := h12.step (.scheduler _ _ (.seeReady _ _ _ _ rfl (by decide)) rfl rfl)
  have h14 := h13.step (.scheduler _ _ (.seeBusy _ _ _ _ rfl (by decide)) rfl rfl)
  have h15 := h14.step (.scheduler _ _ (.swept _ _ rfl) rfl rfl)
  have h16 := h15.step (.scheduler _ _ (.leave _ _ rfl (Or.inl (by decide))) rfl rfl)
  have h17 := h16.step (.scheduler _ _ (.collected _ _ ["test/a".toList]
    [("test/a".toList, .res .OK, (1 : Nat))] rfl (by decide) (by decide +kernel)) rfl rfl)
  have h18 := h17.step (.scheduler _ _ (.publish _ _ rfl) rfl rfl)
  have h19 := h18.step (.main _ _ (.more _ rfl (by decide)) (in_check rfl) (in_waiting rfl) rfl)
  have h20 := h19.step (.takes _ ("test/a".toList, .res .OK, (1 : Nat)) [] _ _ rfl (by decide) rfl)
  have h21 := h20.step (.reviewed _ _ _ .OK _ _ rfl rfl rfl rfl)
  have hreads : Reads site.N (testChoices site.names) ["-p".toList, "-a".toList] workersUses none := by
    refine .options _ _ (.cons ["-p".toList] ["-a".toList] [("parallel".toList, .bool true)] _
      (.alone _ "-p".toList _ _ ⟨by decide, by decide, Or.inl rfl⟩ (.switch _ _ _ (by decide)))
      (.cons ["-a".toList] [] [("accept".toList, .bool true)] []
        (.alone _ "-a".toList _ _ ⟨by decide, by decide, Or.inl rfl⟩ (.switch _ _ _ (by decide))) .nil))
  have hs := Session.workers (fl := strokes) (ok := anything) (start := fresh) site ["-p".toList, "-a".toList] workersUses none names2 []
    crew [] _ (encode (toText strokes [("test/a".toList, .OK, (1 : Nat))])) false .start site_hosts trivial hreads
    (fun c h => absurd (last_use h) (by
      unfold workersUses
      intro hm
      have : "command".toList ∈ ["parallel".toList, "accept".toList] :=
        List.mem_map_of_mem (f := fun x : Str × CVal => x.1) hm
      revert this
      decide)) workers_parallel
    ⟨["test".toList, "book".toList], some (fun n => (fresh.fs.get (slot ["books".toList] true n ".bin".toList)).isSome),
      .usual (C58_priority_partial ascii fresh.settings [] (by simp [Dict.keys]) {} [] rfl _),
      ⟨⟨fun h => (by cases h), fun h => absurd h (workers_off (by decide))⟩, fun f h n => by cases h; rfl⟩, rfl⟩
    ⟨⟨fun h => (by cases h), fun h => absurd h (workers_off (by decide))⟩,
      ⟨fun h => (by cases h), fun h => absurd h (workers_off (by decide))⟩,
      ⟨fun h => (by cases h), fun h => absurd h (workers_off (by decide))⟩,
      ⟨fun _ => workers_accept, fun _ => rfl⟩,
      ⟨fun h => (by cases h), fun h => absurd h (workers_off (by decide))⟩,
      ⟨fun h => (by cases h), fun h => absurd h (workers_off (by decide))⟩⟩
    rfl ⟨rfl, rfl, rfl, by decide, fun _ h => h.elim⟩ h21 (List.prefix_refl _)
  exact ⟨_, _, hs, by decide +kernel, by decide +kernel, by decide +kernel,
    C23_round_trip ascii strokes [("test/a".toList, .OK, (1 : Nat))] (by unfold CleanName; decide)⟩

/-! ### A session with a killed command -/

private def acceptUses : List (Str × CVal) := [("accept".toList, .bool true)]

private theorem accept_off {key : Str} (hk : key ∉ acceptUses.map (·.1)) : ¬ On ascii fresh.settings acceptUses key := by
  rintro ⟨v, hs, -⟩
  cases hs with
  | said _ h _ =>
    obtain ⟨pre, x, post, e, rfl, -⟩ := h
    have hm : (key, v) ∈ acceptUses := by rw [e]; simp
    exact hk (List.mem_map_of_mem (f := fun x : Str × CVal => x.1) hm)
  | unsaid _ _ h => exact silent _ _ h

private theorem accept_on : On ascii fresh.settings acceptUses "accept".toList :=
  ⟨.bool true, .said _ ⟨[], _, [], rfl, rfl, by simp⟩ ⟨by decide, by decide, by decide⟩, by decide, by decide, by decide⟩

private theorem accept_run : AsksRun acceptUses := by
  intro c h
  obtain ⟨pre, x, post, e, rfl, -⟩ := h
  have hm : ("command".toList, CVal.str c) ∈ acceptUses := by rw [e]; simp
  have : "command".toList ∈ acceptUses.map (·.1) := List.mem_map_of_mem (f := fun x : Str × CVal => x.1) hm
  revert this
  decide

private def firstEvents : List (Ev strokes) :=
  [.truncate, .exec "test/a".toList (some (.OK, .NONE, (1 : Nat))), .write ("test/a".toList, .OK, (1 : Nat))]

/-- `booktest -a` is killed while it executes the second test, after it has taken over what the first one printed. A later
`booktest -c --cov`, which also measures the coverage, executes the second test only. -/
example : ∃ w log, Session ["books".toList] names2 ascii strokes anything fresh w log ∧
    log.map (·.name) = names2 ++ ["test/b".toList] ∧
    snapshot ["books".toList] w.fs "test/a".toList = some "# t\n\na\n".toList ∧
    snapshot ["books".toList] w.fs "test/b".toList = none ∧ w.fs.get [".coverage".toList] = some (.file []) ∧
    (ofFile ascii strokes w.report).map (fun rs => rs.map (fun r => (r.1, r.2.1))) =
      some [("test/a".toList, .OK), ("test/b".toList, .DIFF)] := by
  have hreads : Reads site.N (testChoices site.names) ["-a".toList] acceptUses none :=
    .options _ _ (.cons ["-a".toList] [] [("accept".toList, .bool true)] []
      (.alone _ "-a".toList _ _ ⟨by decide, by decide, Or.inl rfl⟩ (.switch _ _ _ (by decide))) .nil)
  have hK := Killed.during (fl := strokes) (S := site) (w := fresh) (uses := acceptUses) (selected := names2)
    (cfg := { accept := true }) (ans := []) (fun _ => (1 : Nat)) firstEvents [.write ("test/b".toList, .OK, (1 : Nat))]
    "test/b".toList (some (.OK, .NONE, (1 : Nat))) 9 _ _ accept_run (accept_off (by decide)) rfl rfl
  have hs := Session.killed (ok := anything) (start := fresh) site ["-a".toList] acceptUses none names2 _ [] _ _ .start
    site_hosts trivial hreads
    ⟨["test".toList, "book".toList], some (fun n => (fresh.fs.get (slot ["books".toList] true n ".bin".toList)).isSome),
      .usual (C58_priority_partial ascii fresh.settings [] (by simp [Dict.keys]) {} [] rfl _),
      ⟨⟨fun h => (by cases h), fun h => absurd h (accept_off (by decide))⟩, fun f h n => by cases h; rfl⟩, rfl⟩
    ⟨⟨fun h => (by cases h), fun h => absurd h (accept_off (by decide))⟩,
      ⟨fun h => (by cases h), fun h => absurd h (accept_off (by decide))⟩,
      ⟨fun h => (by cases h), fun h => absurd h (accept_off (by decide))⟩,
      ⟨fun _ => accept_on, fun _ => rfl⟩,
      ⟨fun h => (by cases h), fun h => absurd h (accept_off (by decide))⟩,
      ⟨fun h => (by cases h), fun h => absurd h (accept_off (by decide))⟩⟩ hK
  exact ⟨_, _, hs.command (fl := strokes) site ["-c".toList, "--cov".toList] [] (fun _ => (1 : Nat)) site_hosts trivial,
    by decide +kernel, by decide +kernel, by decide +kernel, by decide +kernel, by decide +kernel⟩

/-! ### A killed `--clean` -/

/-- A project with one test, which is not in a directory. -/
private def flat : Site :=
  { site with
    P := ⟨ascii, false, some, ["books".toList], fun _ => ⟨⟨[.header "# t".toList, .tln "new".toList], none⟩,
      [], [], none⟩⟩
    suite := { cases := [("test".toList, ⟨none, 0⟩)], info := fun _ => {}, isInstance := fun _ _ => false } }

/-- The project with a snapshot and a file that belongs to it. -/
private def used : World := ⟨⟨fun _ => none, [], []⟩,
  [([], .dir), (["books".toList], .dir), (["books".toList, "test.md".toList], .file "# t\n\nold\n".toList),
    (["books".toList, "test".toList], .dir), (["books".toList, "test".toList, "plot.png".toList], .file "plot".toList)], none, false⟩

/-- **C117, refuted for tests that are in no directory and for `--clean`**: if `--clean` is killed after it has removed an output
and before it removes the report, then the report has a record without output. If this is accepted later, the files of the snapshot are
removed, and `--review` fails. -/
theorem C117_clean_refuted : ∃ (S : Site) (w : World) (gone : Path → Bool) (w' : World),
    -- the project after a run
    w = (booktest (fl := strokes) S [] [] (fun _ => (1 : Nat)) used).world ∧
    -- `--clean` has removed one of its files, and not yet the report
    (∀ p, gone p = true → isGarbageFile S.P S.names w.fs p = true) ∧
    w' = { w with fs := w.fs.filter (fun e => !gone e.1) } ∧
    -- there is a record, and nothing it is about
    (∃ rs, ofFile S.P.u strokes w'.report = some rs ∧ ("test".toList, .DIFF, (1 : Nat)) ∈ rs) ∧
    outputFile S.P.root w'.fs "test".toList = none ∧
    -- accepting it fails and removes the files of the snapshot
    (booktest (fl := strokes) S ["--review".toList, "-a".toList] [] (fun _ => (1 : Nat)) w').status = .raises ∧
    w'.fs.get ["books".toList, "test".toList, "plot.png".toList] = some (.file "plot".toList) ∧
    (booktest (fl := strokes) S ["--review".toList, "-a".toList] [] (fun _ => (1 : Nat)) w').world.fs.get
      ["books".toList, "test".toList, "plot.png".toList] = none := by
  refine ⟨flat, _, fun p => p == ["books".toList, ".out".toList, "test.md".toList], _, rfl, ?_, rfl,
    ⟨[("test".toList, .DIFF, (1 : Nat))], ?_, List.mem_singleton.mpr rfl⟩, ?_, ?_, ?_, ?_⟩
  · intro p hp
    rw [beq_iff_eq] at hp
    rw [hp]
    decide +kernel
  · exact C23_round_trip ascii strokes [("test".toList, .DIFF, (1 : Nat))] (by unfold CleanName; decide)
  · decide +kernel
  · decide +kernel
  · decide +kernel
  · decide +kernel

end Verif.Props
