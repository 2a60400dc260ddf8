import Verif.Lemmas.TmpFiles
import Verif.Props.Dependents
import Verif.Props.Project

/-! # C132: temporary files are private to one execution of a test -/

namespace Verif.Props
open Verif.Py Verif.Model Verif.Spec Verif.Lemmas

variable {fl : Durations} {T : TProject} {cfg : Config} {ns selected : List Str} {fs : FS}

/-- **C132**, the specification says of every test what it does, in one way only. -/
theorem C132_alone (t : TmpTest) :
    ∃ left f, DoesAlone nowhere t left f ∧ ∀ left' f', DoesAlone nowhere t left' f' → left' = left ∧ f' = f := by
  obtain ⟨s, f, h⟩ := alone_exists t nowhere
  refine ⟨s, f, h, fun s' f' h' => ?_⟩
  obtain ⟨e1, e2⟩ := alone_unique h h'
  exact ⟨e1.symm, e2.symm⟩

/-- **C132**, one test: whatever is in the files, a test that uses temporary files ends like the test that does what it
does when it finds a place where nothing is. Afterwards its directory of temporary files holds what it has left there, and
all files that are not its own are as they were, except that directories have been made. -/
theorem C132_private (hq : NotAsking cfg) (hp : PlainNames ns) {n : Str} (hn : n ∈ ns) (hS : SoundTree T.root ns fs)
    {left : Place} {f : Str → TestFn} (hd : DoesAlone nowhere (T.tests n) left (f n)) (ans : List Str) :
    ∃ fs', runCaseT T cfg n (fs, ans) = ((fs', ans), (caseSpec (T.doing f) cfg n (snapshot T.root fs n)).1) ∧
      SoundTree T.root ns fs' ∧
      snapshot T.root fs' n = (caseSpec (T.doing f) cfg n (snapshot T.root fs n)).2 ∧
      (∀ p, (∀ o x, (x = [] ∨ x ∈ endings) → ¬ slot T.root o n x <+: p) →
        fs'.get p = (makeDirs (T.doing f) n fs).get p) ∧
      ∀ q, fs'.get (slot T.root true n ".tmp".toList ++ q) = left q :=
  runCaseT_ok hq hp hn hS hd ans

/-- The same test ends in the same way wherever the snapshots are the same. -/
theorem C132_again (hq : NotAsking cfg) (hp : PlainNames ns) {n : Str} (hn : n ∈ ns) {fs1 fs2 : FS}
    (h1 : SoundTree T.root ns fs1) (h2 : SoundTree T.root ns fs2) (hs : snapshot T.root fs1 n = snapshot T.root fs2 n)
    (ans : List Str) :
    (runCaseT T cfg n (fs1, ans)).2 = (runCaseT T cfg n (fs2, ans)).2 ∧
    snapshot T.root (runCaseT T cfg n (fs1, ans)).1.1 n = snapshot T.root (runCaseT T cfg n (fs2, ans)).1.1 n ∧
    ∀ q, (runCaseT T cfg n (fs1, ans)).1.1.get (slot T.root true n ".tmp".toList ++ q) =
      (runCaseT T cfg n (fs2, ans)).1.1.get (slot T.root true n ".tmp".toList ++ q) := by
  obtain ⟨left, f, hd⟩ := alone_exists (T.tests n) nowhere
  obtain ⟨g1, e1, -, s1, -, t1⟩ := runCaseT_ok (f := fun _ => f) (cfg := cfg) hq hp hn h1 hd ans
  obtain ⟨g2, e2, -, s2, -, t2⟩ := runCaseT_ok (f := fun _ => f) (cfg := cfg) hq hp hn h2 hd ans
  rw [e1, e2]
  refine ⟨by rw [hs], by rw [s1, s2, hs], fun q => by rw [t1, t2]⟩

private theorem openW_get {q p : Path} {text : Str} {f g : FS} (h : openW q text f = .ok g) (hp : p ≠ q) : g.get p = f.get p := by
  unfold openW at h
  repeat' split at h
  all_goals first | cases h | skip
  all_goals (unfold FS.write; rw [get_cons, if_neg hp])

private theorem own_below {root : Path} {n : Str} (q : Path) : Own root n (slot root true n ".tmp".toList ++ q) :=
  ⟨true, ".tmp".toList, Or.inr mem_tmp, List.prefix_append _ _⟩

/-- **C132**: a run of tests that use temporary files has the report, the result and the snapshots of the run in which
every test does what it does when it finds a place where nothing is: nothing that an earlier run, or another test of the
same run, has left in temporary files makes a difference. Afterwards the tests that have been executed have their files
where they have left them; those of other tests are untouched. -/
theorem C132_run (hq : NotAsking cfg) (hp : PlainNames ns) (hS : SoundTree T.root ns fs)
    (hsub : ∀ n ∈ selected, n ∈ ns) (hnd : selected.Nodup) {left : Str → Place} {f : Str → TestFn}
    (hd : ∀ n ∈ ns, DoesAlone nowhere (T.tests n) (left n) (f n))
    (dur : Str → fl.D) (all ans : List Str) (file : Option Bytes) :
    let r := runProjectT T cfg dur all selected fs ans file
    let r' := runProject (T.doing f) cfg dur all selected fs ans file
    let ran := ranNames (runAsync T.u fl cfg (projectOutcome (T.doing f) cfg dur (mkdirs fs T.out, ans)) selected file).1
    r.report = r'.report ∧ r.result = r'.result ∧ r.answers = r'.answers ∧ SoundTree T.root ns r.fs ∧
    (∀ m ∈ ns, snapshot T.root r.fs m = snapshot T.root r'.fs m) ∧
    ∀ m ∈ ns, ∀ q, r.fs.get (slot T.root true m ".tmp".toList ++ q) =
      if m ∈ ran then left m q else fs.get (slot T.root true m ".tmp".toList ++ q) := by
  intro r r' ran
  have hS' : SoundTree (T.doing f).root ns fs := hS
  obtain ⟨hk, hks, hkd⟩ := mkOut_ok (P := T.doing f) hp hS'
  have hkT : SoundTree T.root ns (mkdirs fs T.out) := hk
  have hsubl := loop_sub T.u cfg (projectOutcome (T.doing f) cfg dur (mkdirs fs T.out, ans)) selected file
  have hin : ∀ n ∈ ran, n ∈ ns := fun n hn => hsub n (hsubl.subset hn)
  have hnod : ran.Nodup := hsubl.nodup hnd
  -- the tests end in the same way
  have hrun := async_congr T.u cfg (projectOutcome (T.doing f) cfg dur (mkdirs fs T.out, ans))
    (outcomeT T cfg dur (mkdirs fs T.out, ans)) selected file (by
      intro l1 n l2 e
      have e : ran = l1 ++ n :: l2 := e
      have h1 : ∀ m ∈ l1, m ∈ ns := fun m hm => hin m (by rw [e]; simp [hm])
      have hn : n ∈ ns := hin n (by rw [e]; simp)
      rw [e] at hnod
      have hl : l1.Nodup := (List.nodup_append.mp hnod).1
      obtain ⟨g1, e1, k1, -, s1⟩ := runCases_ok (P := T.doing f) (cfg := cfg) hq hp l1 h1 hl hk ans
      obtain ⟨g2, e2, k2, -, s2, -⟩ := runCasesT_ok (cfg := cfg) hq hp l1 h1 hl hd hkT ans
      obtain ⟨g3, e3, -⟩ := runCase_ok (P := T.doing f) (cfg := cfg) hq hp hn k1 ans
      obtain ⟨g4, e4, -⟩ := runCaseT_ok (cfg := cfg) hq hp hn k2 (hd n hn) ans
      unfold projectOutcome outcomeT
      rw [show runCases (T.doing f) cfg l1 (mkdirs fs T.out, ans) = (g1, ans) from e1, e2, e3, e4,
        show snapshot (T.doing f).root g1 n = snapshot T.root g2 n from (s1 n hn).trans (s2 n hn).symm]
      cases (caseSpec (T.doing f) cfg n (snapshot T.root g2 n)).1 <;> rfl)
  obtain ⟨g1, e1, k1, r1, s1⟩ := runCases_ok (P := T.doing f) (cfg := cfg) hq hp ran hin hnod hk ans
  obtain ⟨g2, e2, k2, r2, s2, t2⟩ := runCasesT_ok (cfg := cfg) hq hp ran hin hnod hd hkT ans
  have hroot : (mkdirs fs T.out).get T.root = some .dir := hkd _ (List.prefix_append _ _)
  obtain ⟨i1, o1, -, os1⟩ := index_ok (P := T.doing f) hp k1 (r1 hroot) (indexText all)
  obtain ⟨i2, o2, ok2, os2⟩ := index_ok (P := T.doing f) hp k2 (r2 hroot) (indexText all)
  have tmp : ∀ m ∈ ns, ∀ q, g2.get (slot T.root true m ".tmp".toList ++ q) =
      if m ∈ ran then left m q else fs.get (slot T.root true m ".tmp".toList ++ q) := by
    intro m hm q
    rw [t2 m hm q]
    have : (mkdirs fs T.out).get (slot T.root true m ".tmp".toList ++ q) = fs.get (slot T.root true m ".tmp".toList ++ q) := by
      have h3 : ∀ q, q <+: T.out → ∀ t, fs.get q ≠ some (.file t) := fun q hq => hS.base q hq
      rw [(mkdirs_ok hS.wf hS.cwd h3).2, if_neg]
      intro hc
      exact slot_not_root (root := T.root) (o := true) (hp.1 m hm) (Or.inr mem_tmp) ((List.prefix_append _ _).trans hc)
        List.prefix_rfl
    rw [this]
  have er : r = (match (runAsync T.u fl cfg (projectOutcome (T.doing f) cfg dur (mkdirs fs T.out, ans)) selected file).2 with
      | none => ⟨g2, ans, applyEvs file (runAsync T.u fl cfg (projectOutcome (T.doing f) cfg dur (mkdirs fs T.out, ans)) selected file).1, none⟩
      | some rv => ⟨i2, ans, applyEvs file (runAsync T.u fl cfg (projectOutcome (T.doing f) cfg dur (mkdirs fs T.out, ans)) selected file).1, some rv⟩) := by
    show runProjectT T cfg dur all selected fs ans file = _
    unfold runProjectT
    dsimp only
    rw [← hrun, show runCasesT T cfg (ranNames (runAsync T.u fl cfg (projectOutcome (T.doing f) cfg dur (mkdirs fs T.out, ans)) selected file).1)
      (mkdirs fs T.out, ans) = (g2, ans) from e2]
    dsimp only
    rw [show openW (T.root ++ ["index.md".toList]) (indexText all) g2 = .ok i2 from o2]
    cases (runAsync T.u fl cfg (projectOutcome (T.doing f) cfg dur (mkdirs fs T.out, ans)) selected file).2 <;> rfl
  have er' : r' = (match (runAsync T.u fl cfg (projectOutcome (T.doing f) cfg dur (mkdirs fs T.out, ans)) selected file).2 with
      | none => ⟨g1, ans, applyEvs file (runAsync T.u fl cfg (projectOutcome (T.doing f) cfg dur (mkdirs fs T.out, ans)) selected file).1, none⟩
      | some rv => ⟨i1, ans, applyEvs file (runAsync T.u fl cfg (projectOutcome (T.doing f) cfg dur (mkdirs fs T.out, ans)) selected file).1, some rv⟩) := by
    show runProject (T.doing f) cfg dur all selected fs ans file = _
    unfold runProject
    dsimp only
    rw [show runCases (T.doing f) cfg (ranNames (runAsync (T.doing f).u fl cfg (projectOutcome (T.doing f) cfg dur (mkdirs fs (T.doing f).out, ans)) selected file).1)
      (mkdirs fs (T.doing f).out, ans) = (g1, ans) from e1]
    dsimp only
    rw [o1, show (runAsync (T.doing f).u fl cfg (projectOutcome (T.doing f) cfg dur (mkdirs fs (T.doing f).out, ans)) selected file) =
      runAsync T.u fl cfg (projectOutcome (T.doing f) cfg dur (mkdirs fs T.out, ans)) selected file from rfl]
    cases (runAsync T.u fl cfg (projectOutcome (T.doing f) cfg dur (mkdirs fs T.out, ans)) selected file).2 <;> rfl
  have snap : ∀ m ∈ ns, snapshot T.root g2 m = snapshot T.root g1 m := fun m hm => (s2 m hm).trans (s1 m hm).symm
  clear_value r r'
  subst er er'
  cases (runAsync T.u fl cfg (projectOutcome (T.doing f) cfg dur (mkdirs fs T.out, ans)) selected file).2 with
  | none => exact ⟨rfl, rfl, rfl, k2, snap, tmp⟩
  | some rv =>
    refine ⟨rfl, rfl, rfl, ok2, ?_, ?_⟩
    · intro m hm
      exact ((os2 m hm).trans (snap m hm)).trans (os1 m hm).symm
    · intro m hm q
      rw [openW_get o2]
      · exact tmp m hm q
      · intro e
        have h : Own T.root m (slot T.root true m ".tmp".toList ++ q) := own_below q
        rw [e] at h
        exact own_index (root := T.root) (hp.1 m hm) h

/-- From a state in which the tests pass, they pass in all further runs. -/
private theorem pass_on {ns all : List Str} (hp : PlainNames ns) (hcl : ∀ n ∈ ns, CleanName n) {left : Str → Place}
    {f : Str → TestFn} (hd : ∀ n ∈ ns, DoesAlone nowhere (T.tests n) (left n) (f n)) (runs : List (Rerun fl)) :
    ∀ (fs : FS) (report : Option Bytes) (old : List (Rec fl)), SoundTree T.root ns fs → ofFile T.u fl report = some old →
    (∀ x ∈ runs, NotAsking x.cfg ∧ x.selected.Nodup ∧ (∀ n ∈ x.selected, n ∈ ns) ∧
      ∀ n ∈ ns, caseSpec (T.doing f) x.cfg n (snapshot T.root fs n) = (.done .OK .NONE, snapshot T.root fs n)) →
    AllPassT T ns all runs fs report := by
  induction runs with
  | nil => intros; trivial
  | cons x xs ih =>
    intro fs report old hS hrep hx
    obtain ⟨hq, hnd, hsub, hok⟩ := hx x (by simp)
    obtain ⟨a1, a2, ⟨old', a3⟩, a4⟩ := project_passes (P := T.doing f) hq hp hsub hnd hS x.answers x.dur all hrep
      (fun n hn => hcl n (hsub n hn)) (fun n hn => by
        have := hok n (hsub n (List.mem_filter.mp hn).1)
        show (caseSpec (T.doing f) x.cfg n (snapshot T.root fs n)).1 = _
        rw [this])
    obtain ⟨b1, b2, -, b4, b5, -⟩ := C132_run hq hp hS hsub hnd hd x.dur all x.answers report
    have same : ∀ n ∈ ns, snapshot T.root (runProjectT T x.cfg x.dur all x.selected fs x.answers report).fs n =
        snapshot T.root fs n := by
      intro n hn
      rw [b5 n hn]
      refine (a4 n hn).trans ?_
      split
      · show (caseSpec (T.doing f) x.cfg n (snapshot T.root fs n)).2 = _
        rw [hok n hn]
      · rfl
    refine ⟨b2.trans a1, same, ih _ _ old' b4 ?_ ?_⟩
    · rw [b1]; exact a3
    · intro y hy
      obtain ⟨k1, k2, k3, k4⟩ := hx y (by simp [hy])
      refine ⟨k1, k2, k3, fun n hn => ?_⟩
      rw [same n hn]
      exact k4 n hn

/-- **C132**, what has been accepted: if what the tests do when they find nothing can be repeated, then `-a` ends with
success, and so do all further runs of these tests or some of them, none of which changes a snapshot; the temporary files
that the runs leave make no difference. -/
theorem C132_accepted {cfg : Config} (hq : NotAsking cfg) (ha : cfg.accept = true) (hk : cfg.cont = false) {ns all : List Str}
    (hp : PlainNames ns) (hnd : ns.Nodup) (hcl : ∀ n ∈ ns, CleanName n) {fs : FS} (hS : SoundTree T.root ns fs)
    (hr : ∀ n ∈ ns, ∀ left f, DoesAlone nowhere (T.tests n) left f → RepeatableTest T.u f.body)
    {report : Option Bytes} {old : List (Rec fl)} (hrep : ofFile T.u fl report = some old) (dur : Str → fl.D) (ans : List Str)
    (runs : List (Rerun fl)) (hx : ∀ x ∈ runs, NotAsking x.cfg ∧ x.cfg.update = false ∧ x.selected.Nodup ∧
      ∀ n ∈ x.selected, n ∈ ns) :
    let r := runProjectT T cfg dur all ns fs ans report
    r.result = some .OK ∧ AllPassT T ns all runs r.fs r.report := by
  intro r
  let left : Str → Place := fun n => Classical.choose (alone_exists (T.tests n) nowhere)
  let f : Str → TestFn := fun n => Classical.choose (Classical.choose_spec (alone_exists (T.tests n) nowhere))
  have hd : ∀ n ∈ ns, DoesAlone nowhere (T.tests n) (left n) (f n) :=
    fun n _ => Classical.choose_spec (Classical.choose_spec (alone_exists (T.tests n) nowhere))
  have hrf : ∀ n ∈ ns, RepeatableTest (T.doing f).u ((T.doing f).tests n).body := fun n hn => hr n hn _ _ (hd n hn)
  have hends : ∀ n ∈ ns, ∃ s, runTest ((T.doing f).env (snapshot T.root fs n)) ((T.doing f).tests n).body = some s :=
    fun n hn => C100_repeatable ((T.doing f).env (snapshot T.root fs n)) (hrf n hn)
  have htodo : toRun cfg old ns = ns := by unfold toRun; simp [hk]
  obtain ⟨a1, -, ⟨old', a3⟩, a4⟩ := project_passes (P := T.doing f) hq hp (fun _ h => h) hnd hS ans dur all hrep hcl (by
    rw [htodo]
    intro n hn
    obtain ⟨s, hs⟩ := hends n hn
    exact (case_twice (cfg' := cfg) ha (hrf n hn) hs).1)
  obtain ⟨b1, b2, -, b4, b5, -⟩ := C132_run hq hp hS (fun _ h => h) hnd hd dur all ans report
  refine ⟨b2.trans a1, pass_on hp hcl hd runs _ _ old' b4 (by rw [b1]; exact a3) ?_⟩
  intro x hm
  obtain ⟨k1, k2, k3, k4⟩ := hx x hm
  refine ⟨k1, k3, k4, fun n hn => ?_⟩
  have e : snapshot T.root r.fs n = (caseSpec (T.doing f) cfg n (snapshot T.root fs n)).2 := by
    rw [b5 n hn]
    refine (a4 n hn).trans ?_
    rw [htodo, if_pos hn]
    rfl
  obtain ⟨s, hs⟩ := hends n hn
  obtain ⟨-, c2, c3⟩ := case_twice (cfg' := x.cfg) ha (hrf n hn) hs
  rw [e]
  exact Prod.ext c2 (c3 k2)

/-! ### Tests that would notice old temporary files -/

/-- Prints a line. -/
private def line (x : String) : TestFn := ⟨⟨[.header "# t".toList, .tln x.toList], none⟩, [], [], none⟩

/-- Makes a directory, writes a file in it, and reads a file that it has not written; it prints whether there has been
one. -/
private def nosy : TProject where
  u := ascii
  pointErrorPos := false
  refmt := some
  root := ["books".toList]
  tests := fun _ => .use (.dir "d".toList) fun a =>
    match a with
    | .error _ => .rest (line "old directory")
    | .ok _ => .use (.read "d".toList ["x".toList]) fun b =>
      match b with
      | .ok _ => .rest (line "old file")
      | .error _ => .use (.write "d".toList ["x".toList] "1".toList) fun _ => .rest (line "new")

/-- What such a test leaves. -/
private def kept : Place :=
  ((((nowhere.asked.put ["d".toList] .dir).asked).asked).put ["d".toList, "x".toList] (.file "1".toList))

private theorem nosy_alone (n : Str) : DoesAlone nowhere (nosy.tests n) kept (line "new") := by
  refine .use (Does1.dir _ rfl) ?_
  refine .use (Does1.readNone _ _ rfl) ?_
  refine .use (Does1.write _ _ _ ?_ rfl) (.rest _ _)
  intro h
  cases h

/-- What it does can be repeated. -/
private theorem line_repeatable : RepeatableTest ascii (line "new").body :=
  ⟨rfl, ⟨Or.inr rfl, trivial, trivial⟩, ⟨_, rfl, by decide⟩, by decide⟩

private def twice : List Str := ["t/a".toList, "t/b".toList]

/-- The names are plain, and in an empty directory the tests are as C132 says: both print `new`, though both use the same
names for their files, and again in the next run, which begins where files are left from the first. -/
example : PlainNames twice ∧ SoundTree nosy.root twice [([], .dir)] ∧
    (∀ n ∈ twice, DoesAlone nowhere (nosy.tests n) kept (line "new")) ∧ (∀ n ∈ twice, CleanName n) ∧
    (∀ n ∈ twice, ∀ left f, DoesAlone nowhere (nosy.tests n) left f → RepeatableTest nosy.u f.body) ∧
    (let r := runProjectT (fl := strokes) nosy { accept := true } (fun _ => (1 : Nat)) twice twice [([], .dir)] [] none
     let r2 := runProjectT (fl := strokes) nosy {} (fun _ => (1 : Nat)) twice twice r.fs [] r.report
     r.result = some .OK ∧ r2.result = some .OK ∧ snapshot nosy.root r2.fs "t/b".toList = some "# t\n\nnew\n".toList ∧
     r.fs.get (slot nosy.root true "t/a".toList ".tmp".toList ++ ["d".toList, "x".toList]) = some (.file "1".toList)) := by
  refine ⟨⟨?_, by unfold NotNested; decide⟩, ?_, fun n _ => nosy_alone n, by unfold CleanName; decide, ?_, by decide +kernel⟩
  · intro n hn
    simp only [twice, List.mem_cons, List.not_mem_nil, or_false] at hn
    rcases hn with rfl | rfl
    · exact ⟨by decide, by decide, by decide⟩
    · exact ⟨by decide, by decide, by decide⟩
  · have g : ∀ p, FS.get [([], .dir)] p = if p = [] then some .dir else none := by
      intro p; rw [get_cons]; rfl
    refine ⟨?_, rfl, ?_, ?_, ?_, ?_, ?_⟩
    · intro p c h; rw [g, if_neg (by simp)] at h; cases h
    · intro n _ o q _ t; rw [g]; split <;> simp
    · intro n _ o x hx _; rw [g, if_neg (slot_ne_nil _ o n (Or.inr hx))]; simp
    · intro n _ o x hx t; rw [g]; split <;> simp
    · decide
    · intro q _ t; rw [g]; split <;> simp
  · intro n _ left f h
    rw [← (alone_unique (nosy_alone n) h).2]
    exact line_repeatable

end Verif.Props
